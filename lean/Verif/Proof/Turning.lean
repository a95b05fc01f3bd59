import Mathlib.Tactic.Linarith
import Mathlib.Tactic.Ring
import Mathlib.Algebra.BigOperators.Group.Finset.Basic
import Mathlib.Algebra.Order.BigOperators.Group.Finset
import Verif.Spec.Region

/-!
# The turning number of a polygon

The direction of travel along a simple polygon turns once around.  The proof follows Hopf: consider the
directions from one point of the polygon to a later one.
-/

set_option linter.unusedSectionVars false

namespace Tri

variable {K : Type} [Field K] [LinearOrder K] [IsStrictOrderedRing K]

/-- The vector from `a` to `b`. -/
def vec (a b : Coords K) : Coords K := ⟨b.x - a.x, b.y - a.y⟩

def det (a b : Coords K) : K := a.x * b.y - b.x * a.y

/-- Upwards, or to the right. -/
def Up (d : Coords K) : Prop := 0 < d.y ∨ (d.y = 0 ∧ 0 < d.x)

instance (d : Coords K) : Decidable (Up d) := by unfold Up; infer_instance

/-- Downwards, or to the left. -/
def Dn (d : Coords K) : Prop := d.y < 0 ∨ (d.y = 0 ∧ d.x < 0)

instance (d : Coords K) : Decidable (Dn d) := by unfold Dn; infer_instance

theorem Up.not_dn {d : Coords K} (h : Up d) : ¬ Dn d := by
  unfold Up at h; unfold Dn
  rcases h with h | h <;> rintro (k | k)
  · linarith
  · linarith
  · linarith
  · linarith

theorem up_or_dn {d : Coords K} (h : d.x ≠ 0 ∨ d.y ≠ 0) : Up d ∨ Dn d := by
  unfold Up Dn
  rcases lt_trichotomy d.y 0 with hy | hy | hy
  · exact .inr (.inl hy)
  · rcases lt_trichotomy d.x 0 with hx | hx | hx
    · exact .inr (.inr ⟨hy, hx⟩)
    · exact absurd hx (h.resolve_right (not_not.2 hy))
    · exact .inl (.inr ⟨hy, hx⟩)
  · exact .inl (.inl hy)

theorem up_neg {a b : Coords K} : Up (vec a b) ↔ Dn (vec b a) := by
  unfold Up Dn vec
  simp only [sub_pos, sub_neg, sub_eq_zero]
  constructor <;> rintro (h | h)
  · exact .inl h
  · exact .inr ⟨h.1.symm, h.2⟩
  · exact .inl h
  · exact .inr ⟨h.1.symm, h.2⟩

theorem up_vec {a b : Coords K} : Up (vec a b) ↔ below a b := by
  unfold Up vec below
  simp only [sub_pos, sub_eq_zero]
  constructor <;> rintro (h | h)
  · exact .inl h
  · exact .inr ⟨h.1.symm, h.2⟩
  · exact .inl h
  · exact .inr ⟨h.1.symm, h.2⟩

theorem Up.comb {a b : Coords K} (ha : Up a) (hb : Up b) {s t : K} (hs : 0 ≤ s) (ht : 0 ≤ t) (h : s ≠ 0 ∨ t ≠ 0) :
    Up ⟨s * a.x + t * b.x, s * a.y + t * b.y⟩ := by
  unfold Up at *
  simp only
  rcases eq_or_lt_of_le hs with h1 | h1 <;> rcases eq_or_lt_of_le ht with h2 | h2
  · exfalso; rcases h with h | h
    · exact h h1.symm
    · exact h h2.symm
  · rw [← h1]; simp only [zero_mul, zero_add]
    rcases hb with k | k
    · exact .inl (mul_pos h2 k)
    · exact .inr ⟨by rw [k.1, mul_zero], mul_pos h2 k.2⟩
  · rw [← h2]; simp only [zero_mul, add_zero]
    rcases ha with k | k
    · exact .inl (mul_pos h1 k)
    · exact .inr ⟨by rw [k.1, mul_zero], mul_pos h1 k.2⟩
  · rcases ha with k | k <;> rcases hb with l | l
    · exact .inl (add_pos (mul_pos h1 k) (mul_pos h2 l))
    · left; rw [l.1, mul_zero, add_zero]; exact mul_pos h1 k
    · left; rw [k.1, mul_zero, zero_add]; exact mul_pos h2 l
    · right; rw [k.1, l.1, mul_zero, mul_zero, add_zero]; exact ⟨rfl, add_pos (mul_pos h1 k.2) (mul_pos h2 l.2)⟩

/-- How turning from `a` to `b` passes the direction to the left: `1` if counterclockwise. -/
def crL (a b : Coords K) : Int :=
  if Up a ∧ Dn b ∧ 0 < det a b then 1 else if Dn a ∧ Up b ∧ det a b < 0 then -1 else 0

/-- How turning from `a` to `b` passes the direction to the right: `1` if counterclockwise. -/
def crR (a b : Coords K) : Int :=
  if Up a ∧ Dn b ∧ det a b < 0 then -1 else if Dn a ∧ Up b ∧ 0 < det a b then 1 else 0

/-- No direction is a combination of the opposites of the other two. -/
def Open3 (a b c : Coords K) : Prop := ∀ r s t : K, 0 ≤ r → 0 ≤ s → 0 ≤ t →
  r * a.x + s * b.x + t * c.x = 0 → r * a.y + s * b.y + t * c.y = 0 → r = 0 ∧ s = 0 ∧ t = 0

theorem Open3.rot {a b c : Coords K} (h : Open3 a b c) : Open3 b c a := fun r s t hr hs ht hx hy => by
  obtain ⟨h1, h2, h3⟩ := h t r s ht hr hs (by linarith) (by linarith)
  exact ⟨h2, h3, h1⟩

theorem Open3.swap {a b c : Coords K} (h : Open3 a b c) : Open3 b a c := fun r s t hr hs ht hx hy => by
  obtain ⟨h1, h2, h3⟩ := h s r t hs hr ht (by linarith) (by linarith)
  exact ⟨h2, h1, h3⟩

theorem crL_up {a b : Coords K} (ha : Up a) (hb : Up b) : crL a b = 0 := by
  simp [crL, ha.not_dn, hb.not_dn]

theorem crL_dn {a b : Coords K} (ha : Dn a) (hb : Dn b) : crL a b = 0 := by
  have h1 : ¬ Up a := fun h => h.not_dn ha
  have h2 : ¬ Up b := fun h => h.not_dn hb
  simp [crL, h1, h2]

theorem crL_ud {a b : Coords K} (ha : Up a) (hb : Dn b) : crL a b = if 0 < det a b then 1 else 0 := by
  simp [crL, ha, hb, ha.not_dn]

theorem crL_du {a b : Coords K} (ha : Dn a) (hb : Up b) : crL a b = if det a b < 0 then -1 else 0 := by
  have h1 : ¬ Up a := fun h => h.not_dn ha
  simp [crL, ha, hb, h1]

theorem det_anti (a b : Coords K) : det a b = - det b a := by unfold det; ring

theorem crL_anti {a b : Coords K} (ha : Up a ∨ Dn a) (hb : Up b ∨ Dn b) : crL a b = - crL b a := by
  rcases ha with ha | ha <;> rcases hb with hb | hb
  · rw [crL_up ha hb, crL_up hb ha]; rfl
  · rw [crL_ud ha hb, crL_du hb ha, det_anti a b]; simp only [neg_pos]; split <;> simp
  · rw [crL_du ha hb, crL_ud hb ha, det_anti a b]; simp only [Left.neg_neg_iff]; split <;> simp
  · rw [crL_dn ha hb, crL_dn hb ha]; rfl

theorem Dn.not_up {d : Coords K} (h : Dn d) : ¬ Up d := fun k => k.not_dn h

/-- Two directions up, one down: the same side for both. -/
theorem same_side {a b c : Coords K} (ha : Up a) (hb : Up b) (hc : Dn c) (h : Open3 a b c) (h1 : 0 < det b c) : 0 < det a c := by
  by_contra hn
  have ix : det b c * a.x + det c a * b.x + det a b * c.x = 0 := by unfold det; ring
  have iy : det b c * a.y + det c a * b.y + det a b * c.y = 0 := by unfold det; ring
  have h2 : 0 ≤ det c a := by rw [det_anti]; linarith
  rcases le_or_gt 0 (det a b) with h3 | h3
  · have := (h _ _ _ h1.le h2 h3 ix iy).1
    exact h1.ne' this
  · have k := ha.comb hb h1.le h2 (.inl h1.ne')
    refine hc.not_up ?_
    have ex : det b c * a.x + det c a * b.x = -det a b * c.x := by linarith
    have ey : det b c * a.y + det c a * b.y = -det a b * c.y := by linarith
    rw [ex, ey] at k
    have p : 0 < -det a b := by linarith
    rcases k with k | k
    · exact .inl ((mul_pos_iff_of_pos_left p).1 k)
    · refine .inr ⟨?_, (mul_pos_iff_of_pos_left p).1 k.2⟩
      rcases mul_eq_zero.1 k.1 with e | e
      · exact absurd e p.ne'
      · exact e

theorem flip_open {a b c : Coords K} (h : Open3 a b c) : Open3 ⟨-a.x, -a.y⟩ ⟨-b.x, -b.y⟩ ⟨-c.x, -c.y⟩ :=
  fun r s t hr hs ht hx hy => h r s t hr hs ht (by simp only at hx; linarith) (by simp only at hy; linarith)

theorem up_flip {a : Coords K} : Up (⟨-a.x, -a.y⟩ : Coords K) ↔ Dn a := by
  unfold Up Dn; simp

theorem dn_flip {a : Coords K} : Dn (⟨-a.x, -a.y⟩ : Coords K) ↔ Up a := by
  unfold Up Dn; simp

theorem same_side' {a b c : Coords K} (ha : Dn a) (hb : Dn b) (hc : Up c) (h : Open3 a b c) (h1 : 0 < det b c) : 0 < det a c := by
  have := same_side (up_flip.2 ha) (up_flip.2 hb) (dn_flip.2 hc) (flip_open h) (by unfold det at *; simp only; linarith)
  unfold det at *
  simp only at this
  linarith

theorem det_ne {b c : Coords K} (hb : Dn b) (hc : Up c)
    (h : ∀ s t : K, 0 ≤ s → 0 ≤ t → s * b.x + t * c.x = 0 → s * b.y + t * c.y = 0 → s = 0) : det b c ≠ 0 := by
  intro z
  have ix : (-c.y) * b.x + b.y * c.x = 0 := by unfold det at z; linarith
  rcases eq_or_ne c.y 0 with y | y
  · rw [y] at ix
    have : b.y * c.x = 0 := by linarith
    rcases mul_eq_zero.1 this with k | k
    · have hx : b.x < 0 := by
        rcases hb with l | l
        · linarith
        · exact l.2
      have hcx : 0 < c.x := by
        rcases hc with l | l
        · linarith
        · exact l.2
      exact hcx.ne' (h c.x (-b.x) hcx.le (by linarith) (by ring) (by rw [y, k]; ring))
    · rcases hc with l | l
      · linarith
      · linarith [l.2]
  · have hcy : 0 < c.y := by
      rcases hc with l | l
      · exact l
      · exact absurd l.1 y
    have hby : b.y ≤ 0 := by
      rcases hb with l | l
      · exact l.le
      · exact l.1.le
    exact hcy.ne' (h c.y (-b.y) hcy.le (by linarith) (by linarith) (by ring))

/-- Turning within a half plane. -/
theorem crL_tri {a b c : Coords K} (ha : Up a ∨ Dn a) (hb : Up b ∨ Dn b) (hc : Up c ∨ Dn c) (h : Open3 a b c) :
    crL a b + crL b c = crL a c := by
  have key : ∀ {a b c : Coords K}, Up a → Up b → Dn c → Open3 a b c → crL b c = crL a c := by
    intro a b c ha hb hc h
    rw [crL_ud hb hc, crL_ud ha hc]
    by_cases h1 : 0 < det b c
    · simp [h1, same_side ha hb hc h h1]
    · have h2 : ¬ 0 < det a c := fun k => h1 (same_side hb ha hc h.swap k)
      simp [h1, h2]
  have key' : ∀ {a b c : Coords K}, Dn a → Dn b → Up c → Open3 a b c → crL c b = crL c a := by
    intro a b c ha hb hc h
    rw [crL_ud hc hb, crL_ud hc ha, det_anti c b, det_anti c a]
    simp only [neg_pos]
    have e1 := same_side' ha hb hc h
    have e2 := same_side' hb ha hc h.swap
    have z1 : det b c ≠ 0 := det_ne hb hc fun s t hs ht hx hy => (h 0 s t le_rfl hs ht (by linarith) (by linarith)).2.1
    have z2 : det a c ≠ 0 := det_ne ha hc fun s t hs ht hx hy => (h s 0 t hs le_rfl ht (by linarith) (by linarith)).1
    rcases lt_or_gt_of_ne z1 with p | p <;> rcases lt_or_gt_of_ne z2 with q | q
    · simp [p, q]
    · linarith [e2 q]
    · linarith [e1 p]
    · simp [not_lt.2 p.le, not_lt.2 q.le]
  rcases ha with ua | ua <;> rcases hb with ub | ub <;> rcases hc with uc | uc
  · simp [crL_up, *]
  · rw [crL_up ua ub, zero_add]; exact key ua ub uc h
  · rw [crL_up ua uc, crL_anti (.inr ub) (.inl uc)]
    have := key ua uc ub (h.rot.swap.rot.rot)
    omega
  · rw [crL_dn ub uc, add_zero]; exact (key' ub uc ua (h.rot)).symm
  · rw [crL_up ub uc, add_zero, crL_anti (.inr ua) (.inl ub), crL_anti (.inr ua) (.inl uc)]
    rw [key ub uc ua h.rot]
  · rw [crL_dn ua uc, crL_anti (.inr ua) (.inl ub)]
    have := key' ua uc ub (h.rot.swap.rot.rot)
    omega
  · rw [crL_dn ua ub, zero_add, crL_anti (.inr ub) (.inl uc), crL_anti (.inr ua) (.inl uc)]
    rw [key' ua ub uc h]
  · simp [crL_dn, *]

/-! ## Hopf's argument -/

/-- Two segments without a common point. -/
def Apart (a b c d : Coords K) : Prop := ∀ z, OnSeg (a, b) z → ¬ OnSeg (c, d) z

/-- Two consecutive edges that meet only in the common vertex. -/
def Touch (a b c : Coords K) : Prop := a ≠ b ∧ b ≠ c ∧ ∀ z, OnSeg (a, b) z → OnSeg (b, c) z → z = b

theorem onSeg_comb {a b : Coords K} {s t : K} (hs : 0 ≤ s) (ht : 0 ≤ t) (h : s + t = 1) :
    OnSeg (a, b) ⟨s * a.x + t * b.x, s * a.y + t * b.y⟩ := by
  refine ⟨t, ht, by linarith, ?_, ?_⟩
  · have : s = 1 - t := by linarith
    simp only; rw [this]; ring
  · have : s = 1 - t := by linarith
    simp only; rw [this]; ring

theorem Apart.comb {a b c d : Coords K} (h : Apart a b c d) {r s t u : K} (hr : 0 ≤ r) (hs : 0 ≤ s) (ht : 0 ≤ t) (hu : 0 ≤ u)
    (hx : r * (vec a c).x + s * (vec b c).x + t * (vec b d).x + u * (vec a d).x = 0)
    (hy : r * (vec a c).y + s * (vec b c).y + t * (vec b d).y + u * (vec a d).y = 0) : r + s + t + u = 0 := by
  by_contra hne
  have h0 : 0 < r + s + t + u := lt_of_le_of_ne (by linarith) (Ne.symm hne)
  set σ := r + s + t + u with hσ
  have e1 := onSeg_comb (a := a) (b := b) (s := (r + u) / σ) (t := (s + t) / σ) (div_nonneg (by linarith) h0.le)
    (div_nonneg (by linarith) h0.le) (by rw [← add_div, div_eq_one_iff_eq h0.ne']; linarith)
  have e2 := onSeg_comb (a := c) (b := d) (s := (r + s) / σ) (t := (t + u) / σ) (div_nonneg (by linarith) h0.le)
    (div_nonneg (by linarith) h0.le) (by rw [← add_div, div_eq_one_iff_eq h0.ne']; linarith)
  refine h _ e1 ?_
  simp only [vec] at hx hy
  have k1 : (r + u) / σ * a.x + (s + t) / σ * b.x = (r + s) / σ * c.x + (t + u) / σ * d.x := by
    rw [div_mul_eq_mul_div, div_mul_eq_mul_div, div_mul_eq_mul_div, div_mul_eq_mul_div, ← add_div, ← add_div]
    congr 1; linarith
  have k2 : (r + u) / σ * a.y + (s + t) / σ * b.y = (r + s) / σ * c.y + (t + u) / σ * d.y := by
    rw [div_mul_eq_mul_div, div_mul_eq_mul_div, div_mul_eq_mul_div, div_mul_eq_mul_div, ← add_div, ← add_div]
    congr 1; linarith
  rw [k1, k2]; exact e2

theorem Apart.open1 {a b c d : Coords K} (h : Apart a b c d) : Open3 (vec a c) (vec b c) (vec b d) :=
  fun r s t hr hs ht hx hy => by
    have := h.comb hr hs ht le_rfl (by linarith) (by linarith)
    exact ⟨by linarith, by linarith, by linarith⟩

theorem Apart.open2 {a b c d : Coords K} (h : Apart a b c d) : Open3 (vec a c) (vec a d) (vec b d) :=
  fun r s t hr hs ht hx hy => by
    have := h.comb hr le_rfl ht hs (by linarith) (by linarith)
    exact ⟨by linarith, by linarith, by linarith⟩

theorem ne_coord {a b : Coords K} (h : a ≠ b) : (vec a b).x ≠ 0 ∨ (vec a b).y ≠ 0 := by
  by_contra hn
  push Not at hn
  refine h ?_
  simp only [vec] at hn
  rcases a with ⟨ax, ay⟩
  rcases b with ⟨bx, b_y⟩
  simp only [Coords.mk.injEq]
  simp only at hn
  exact ⟨by linarith [hn.1], by linarith [hn.2]⟩

theorem Touch.open {a b c : Coords K} (h : Touch a b c) : Open3 (vec a b) (vec a c) (vec b c) := by
  intro r s t hr hs ht hx hy
  obtain ⟨hab, hbc, hz⟩ := h
  by_contra hne
  have h0 : 0 < r + s + t := by
    rcases eq_or_lt_of_le (show 0 ≤ r + s + t by linarith) with k | k
    · exact absurd ⟨by linarith, by linarith, by linarith⟩ hne
    · exact k
  set σ := r + s + t with hσ
  have e1 := onSeg_comb (a := a) (b := b) (s := (r + s) / σ) (t := t / σ) (div_nonneg (by linarith) h0.le)
    (div_nonneg (by linarith) h0.le) (by rw [← add_div, div_eq_one_iff_eq h0.ne'])
  have e2 := onSeg_comb (a := b) (b := c) (s := r / σ) (t := (s + t) / σ) (div_nonneg (by linarith) h0.le)
    (div_nonneg (by linarith) h0.le) (by rw [← add_div, div_eq_one_iff_eq h0.ne']; linarith)
  simp only [vec] at hx hy
  have k1 : (r + s) / σ * a.x + t / σ * b.x = r / σ * b.x + (s + t) / σ * c.x := by
    rw [div_mul_eq_mul_div, div_mul_eq_mul_div, div_mul_eq_mul_div, div_mul_eq_mul_div, ← add_div, ← add_div]
    congr 1; linarith
  have k2 : (r + s) / σ * a.y + t / σ * b.y = r / σ * b.y + (s + t) / σ * c.y := by
    rw [div_mul_eq_mul_div, div_mul_eq_mul_div, div_mul_eq_mul_div, div_mul_eq_mul_div, ← add_div, ← add_div]
    congr 1; linarith
  rw [← k1, ← k2] at e2
  have e3 := hz _ e1 e2
  have ex := congrArg Coords.x e3
  have ey := congrArg Coords.y e3
  simp only at ex ey
  rw [div_mul_eq_mul_div, div_mul_eq_mul_div, ← add_div, div_eq_iff h0.ne'] at ex ey
  have fx : (r + s) * (vec a b).x = 0 := by simp only [vec]; rw [hσ] at ex; linarith
  have fy' : (r + s) * (vec a b).y = 0 := by simp only [vec]; rw [hσ] at ey; linarith
  have hrs : r + s = 0 := by
    rcases ne_coord hab with k | k
    · exact (mul_eq_zero.1 fx).resolve_right k
    · exact (mul_eq_zero.1 fy').resolve_right k
  have r0 : r = 0 := by linarith
  have s0 : s = 0 := by linarith
  rw [r0, s0] at hx hy
  have tx : t * (vec b c).x = 0 := by simp only [vec]; linarith
  have ty : t * (vec b c).y = 0 := by simp only [vec]; linarith
  have ht0 : t = 0 := by
    rcases ne_coord hbc with k | k
    · exact (mul_eq_zero.1 tx).resolve_right k
    · exact (mul_eq_zero.1 ty).resolve_right k
  exact hne ⟨r0, s0, ht0⟩

theorem Touch.open' {a b c : Coords K} (h : Touch a b c) : Open3 (vec b a) (vec c a) (vec c b) := by
  have := flip_open h.open
  have e : ∀ u v : Coords K, (⟨-(vec u v).x, -(vec u v).y⟩ : Coords K) = vec v u := fun u v => by
    simp only [vec, neg_sub]
  simpa only [e] using this

theorem ud_vec {a b : Coords K} (h : a ≠ b) : Up (vec a b) ∨ Dn (vec a b) := up_or_dn (ne_coord h)

/-- The turn at a vertex. -/
def turnL (a b c : Coords K) : Int := crL (vec a b) (vec b c)

section Hopf

variable {v : Nat → Coords K} {n : Nat}

/-- A closed simple polygon `v 0, …, v n = v 0`. -/
structure Simple (v : Nat → Coords K) (n : Nat) : Prop where
  three : 3 ≤ n
  per : ∀ i, v (i + n) = v i
  ne : ∀ i j, i < j → j < n → v i ≠ v j
  apart : ∀ i j, i + 2 ≤ j → j < n → ¬ (i = 0 ∧ j + 1 = n) → Apart (v i) (v (i + 1)) (v j) (v (j + 1))
  touch : ∀ i, Touch (v i) (v (i + 1)) (v (i + 2))

theorem Simple.last (h : Simple v n) : v n = v 0 := by simpa using h.per 0

theorem Simple.ne' (h : Simple v n) {i j : Nat} (hij : i < j) (hj : j ≤ n) (h0 : ¬ (i = 0 ∧ j = n)) : v i ≠ v j := by
  rcases Nat.lt_or_ge j n with k | k
  · exact h.ne i j hij k
  · have : j = n := le_antisymm hj k
    subst this
    rw [h.last]
    exact (h.ne 0 i (by omega) (by omega)).symm

/-- From the direction `(i, i+1)` to `(i, i+1+m)`. -/
def row (v : Nat → Coords K) (i m : Nat) : Int :=
  ∑ k ∈ Finset.range m, crL (vec (v i) (v (i + 1 + k))) (vec (v i) (v (i + 2 + k)))

theorem Simple.strip (h : Simple v n) (i m : Nat) (hm : i + 2 + m ≤ n) (h0 : ¬ (i = 0 ∧ i + 2 + m = n)) :
    row v i (m + 1) + crL (vec (v i) (v (i + 2 + m))) (vec (v (i + 1)) (v (i + 2 + m))) =
      turnL (v i) (v (i + 1)) (v (i + 2)) + row v (i + 1) m := by
  induction m with
  | zero =>
    unfold row turnL
    simp only [zero_add, Finset.sum_range_one, add_zero, Finset.sum_range_zero]
    have hn1 := h.ne' (i := i) (j := i + 2) (by omega) hm h0
    exact crL_tri (ud_vec (h.touch i).1) (ud_vec hn1) (ud_vec (h.touch i).2.1) (h.touch i).open
  | succ m ih =>
    have ih := ih (by omega) (by omega)
    have e1 : row v i (m + 1 + 1) = row v i (m + 1) + crL (vec (v i) (v (i + 2 + m))) (vec (v i) (v (i + 3 + m))) := by
      unfold row
      rw [Finset.sum_range_succ, show i + 1 + (m + 1) = i + 2 + m by omega, show i + 2 + (m + 1) = i + 3 + m by omega]
    have e2 : row v (i + 1) (m + 1) = row v (i + 1) m +
        crL (vec (v (i + 1)) (v (i + 2 + m))) (vec (v (i + 1)) (v (i + 3 + m))) := by
      unfold row
      rw [Finset.sum_range_succ, show i + 1 + 1 + m = i + 2 + m by omega, show i + 1 + 2 + m = i + 3 + m by omega]
    have ap := h.apart i (i + 2 + m) (by omega) (by omega) (by omega)
    rw [show i + 2 + m + 1 = i + 3 + m by omega] at ap
    have n1 := ud_vec (h.ne' (i := i) (j := i + 2 + m) (by omega) (by omega) (by omega))
    have n2 := ud_vec (h.ne' (i := i) (j := i + 3 + m) (by omega) (by omega) (by omega))
    have n3 := ud_vec (h.ne' (i := i + 1) (j := i + 2 + m) (by omega) (by omega) (by omega))
    have n4 := ud_vec (h.ne' (i := i + 1) (j := i + 3 + m) (by omega) (by omega) (by omega))
    have c1 := crL_tri n1 n3 n4 ap.open1
    have c2 := crL_tri n1 n2 n4 ap.open2
    rw [e1, e2, show i + 2 + (m + 1) = i + 3 + m by omega]
    omega

theorem Simple.up (h : Simple v n) (hlow : ∀ i, 0 < i → i < n → below (v 0) (v i)) {i : Nat} (h0 : 0 < i) (hi : i < n) :
    Up (vec (v 0) (v i)) := up_vec.2 (hlow i h0 hi)

theorem Simple.rows (h : Simple v n) (hlow : ∀ i, 0 < i → i < n → below (v 0) (v i)) (k : Nat) (hk : k + 2 ≤ n) :
    row v 1 (n - 2) = ∑ i ∈ Finset.range k, turnL (v (i + 1)) (v (i + 2)) (v (i + 3)) + row v (k + 1) (n - 2 - k) := by
  induction k with
  | zero => simp
  | succ k ih =>
    rw [ih (by omega), Finset.sum_range_succ, add_assoc]
    congr 1
    have s := h.strip (k + 1) (n - 3 - k) (by omega) (by omega)
    rw [show n - 3 - k + 1 = n - 2 - k by omega, show k + 1 + 2 + (n - 3 - k) = n by omega] at s
    have z : crL (vec (v (k + 1)) (v n)) (vec (v (k + 1 + 1)) (v n)) = 0 := by
      rw [h.last]
      exact crL_dn (up_neg.1 (h.up hlow (by omega) (by omega))) (up_neg.1 (h.up hlow (by omega) (by omega)))
    rw [z, add_zero] at s
    rw [s, show n - 2 - (k + 1) = n - 3 - k by omega]

theorem det_vec (a b c : Coords K) : det (vec a b) (vec b c) = orient a b c := by
  unfold det vec orient; ring

/-- Hopf's theorem of turning tangents, for a polygon that starts at its lowest vertex. -/
theorem Simple.hopf (h : Simple v n) (hlow : ∀ i, 0 < i → i < n → below (v 0) (v i)) :
    orient (v (n - 1)) (v 0) (v 1) ≠ 0 ∧
    ∑ i ∈ Finset.range n, turnL (v i) (v (i + 1)) (v (i + 2)) = if 0 < orient (v (n - 1)) (v 0) (v 1) then 1 else -1 := by
  have h3 := h.three
  have tl := h.touch (n - 1)
  rw [show n - 1 + 1 = n by omega, show n - 1 + 2 = 1 + n by omega, h.per 1, h.last] at tl
  have ua := h.up hlow (i := n - 1) (by omega) (by omega)
  have ub := h.up hlow (i := 1) (by omega) (by omega)
  have r1 := h.rows hlow (n - 2) (by omega)
  have s0 := h.strip 0 (n - 3) (by omega) (by omega)
  rw [show n - 3 + 1 = n - 2 by omega, show 0 + 2 + (n - 3) = n - 1 by omega] at s0
  have z0 : row v 0 (n - 2) = 0 := by
    unfold row
    refine Finset.sum_eq_zero fun k hk => ?_
    rw [Finset.mem_range] at hk
    exact crL_up (h.up hlow (by omega) (by omega)) (h.up hlow (by omega) (by omega))
  have e1 : row v 1 (n - 2) = row v 1 (n - 3) + crL (vec (v 1) (v (n - 1))) (vec (v 1) (v 0)) := by
    unfold row
    rw [show n - 2 = n - 3 + 1 by omega, Finset.sum_range_succ, show 1 + 1 + (n - 3) = n - 1 by omega,
      show 1 + 2 + (n - 3) = n by omega, h.last]
  have t1 := crL_tri (ud_vec tl.1.symm) (ud_vec (h.ne 1 (n - 1) (by omega) (by omega))) (ud_vec tl.2.1.symm) tl.open'
  have z1 : row v (n - 2 + 1) (n - 2 - (n - 2)) = 0 := by simp [row]
  have split : ∑ i ∈ Finset.range n, turnL (v i) (v (i + 1)) (v (i + 2)) =
      turnL (v 0) (v 1) (v 2) + ∑ i ∈ Finset.range (n - 2), turnL (v (i + 1)) (v (i + 2)) (v (i + 3)) +
        turnL (v (n - 1)) (v 0) (v 1) := by
    conv_lhs => rw [show n = n - 2 + 1 + 1 by omega, Finset.sum_range_succ, Finset.sum_range_succ']
    rw [show n - 2 + 1 = n - 1 by omega, show n - 1 + 1 = n by omega, show n - 1 + 2 = 1 + n by omega, h.per 1, h.last]
    ring_nf
  have da : Dn (vec (v (n - 1)) (v 0)) := up_neg.1 ua
  have db : Dn (vec (v 1) (v 0)) := up_neg.1 ub
  have total : ∑ i ∈ Finset.range n, turnL (v i) (v (i + 1)) (v (i + 2)) =
      crL (vec (v 0) (v (n - 1))) (vec (v 1) (v 0)) + crL (vec (v (n - 1)) (v 0)) (vec (v 0) (v 1)) := by
    rw [z1, add_zero] at r1
    rw [split]
    have e5 : turnL (v (n - 1)) (v 0) (v 1) = crL (vec (v (n - 1)) (v 0)) (vec (v 0) (v 1)) := rfl
    simp only [zero_add] at s0
    rw [e5]
    omega
  have hne : orient (v (n - 1)) (v 0) (v 1) ≠ 0 := by
    rw [← det_vec]
    exact det_ne da ub fun s t hs ht hx hy => (tl.open s 0 t hs le_rfl ht (by linarith) (by linarith)).1
  refine ⟨hne, ?_⟩
  have d1 : det (vec (v 0) (v (n - 1))) (vec (v 1) (v 0)) = orient (v (n - 1)) (v 0) (v 1) := by
    unfold det vec orient; ring
  rw [total, crL_ud ua db, crL_du da ub, det_vec, d1]
  rcases lt_or_gt_of_ne hne with k | k
  · simp [k, not_lt.2 k.le]
  · simp [k, not_lt.2 k.le]

end Hopf

end Tri
