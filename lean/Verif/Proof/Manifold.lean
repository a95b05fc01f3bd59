import Verif.Proof.Conform

/-!
# No directed side occurs twice
-/

set_option linter.unusedSectionVars false

namespace Tri

variable {I V K : Type} [Field K] [LinearOrder K] [IsStrictOrderedRing K] [DecidableEq I]

attribute [local instance] exact

theorem filter_le_one {α : Type} {p : α → Bool} {l : List α}
    (h : ∀ (i j : Nat) (a b : α), l[i]? = some a → l[j]? = some b → p a = true → p b = true → i = j) : (l.filter p).length ≤ 1 := by
  induction l with
  | nil => simp
  | cons a l ih =>
    by_cases hp : p a = true
    · have : l.filter p = [] := by
        rw [List.filter_eq_nil_iff]
        intro b hb hpb
        obtain ⟨j, hj⟩ := List.getElem?_of_mem hb
        have := h 0 (j + 1) a b rfl (by simpa using hj) hp hpb
        omega
      rw [List.filter_cons_of_pos hp, this]
      simp
    · rw [List.filter_cons_of_neg hp]
      refine ih fun i j x y hi hj hx hy => ?_
      have := h (i + 1) (j + 1) x y (by simpa using hi) (by simpa using hj) hx hy
      omega

/-- A coordinate on the line through `u` and `v`: 0 at `u`, 1 at `v`. -/
def along (u v p : Coords K) : K :=
  if u.y = v.y then (p.x - u.x) / (v.x - u.x) else (p.y - u.y) / (v.y - u.y)

theorem along_point {u v p : Coords K} (huv : u ≠ v) (h : orient u v p = 0) :
    p.x = u.x + along u v p * (v.x - u.x) ∧ p.y = u.y + along u v p * (v.y - u.y) := by
  unfold along
  unfold orient at h
  split
  · rename_i hy
    have hx : v.x - u.x ≠ 0 := fun e => huv (coords_ext (by linarith) hy)
    rw [div_mul_cancel₀ _ hx]
    refine ⟨by ring, ?_⟩
    rw [hy] at h ⊢
    have : (v.x - u.x) * (p.y - v.y) = 0 := by linarith
    rcases mul_eq_zero.1 this with k | k
    · exact absurd k hx
    · rw [sub_self, mul_zero]; linarith
  · rename_i hy
    have hy' : v.y - u.y ≠ 0 := fun e => hy (by linarith)
    rw [div_mul_cancel₀ _ hy']
    refine ⟨?_, by ring⟩
    field_simp
    linarith

theorem along_start (u v : Coords K) : along u v u = 0 := by
  unfold along; split <;> simp

theorem along_end {u v : Coords K} (huv : u ≠ v) : along u v v = 1 := by
  unfold along
  split
  · rename_i hy
    exact div_self fun e => huv (coords_ext (by linarith) hy)
  · rename_i hy
    exact div_self fun e => hy (by linarith)

theorem along_inj {u v p q : Coords K} (huv : u ≠ v) (hp : orient u v p = 0) (hq : orient u v q = 0)
    (h : along u v p = along u v q) : p = q := by
  obtain ⟨h1, h2⟩ := along_point huv hp
  obtain ⟨h3, h4⟩ := along_point huv hq
  exact coords_ext (by rw [h1, h3, h]) (by rw [h2, h4, h])

/-- The direction from `u` to `v` is the one in which triangles without area on this line run first. -/
def Upward (u v : Coords K) : Prop := if u.y = v.y then v.x < u.x else u.y < v.y

theorem upward_or {u v : Coords K} (huv : u ≠ v) : Upward u v ∨ Upward v u := by
  unfold Upward
  by_cases hy : u.y = v.y
  · rw [if_pos hy, if_pos hy.symm]
    rcases lt_trichotomy u.x v.x with h | h | h
    · exact .inr h
    · exact absurd (coords_ext h hy) huv
    · exact .inl h
  · rw [if_neg hy, if_neg (Ne.symm hy)]
    exact lt_or_gt_of_ne hy

/-- A triangle without area on an upward line runs upwards first. -/
theorem FlatTri.along {u v a b c : Coords K} (hu : Upward u v) (huv : u ≠ v) (ha : orient u v a = 0) (hb : orient u v b = 0)
    (hc : orient u v c = 0) (h : FlatTri a b c) :
    Tri.along u v a < Tri.along u v b ∧ Tri.along u v b < Tri.along u v c := by
  obtain ⟨ax, ay⟩ := along_point huv ha
  obtain ⟨bx, by'⟩ := along_point huv hb
  obtain ⟨cx, cy⟩ := along_point huv hc
  have hne : a ≠ c := by
    rintro rfl
    unfold FlatTri at h
    rw [if_pos rfl] at h
    exact below_irrefl _ (below_trans h.1 h.2)
  have hne' : Tri.along u v a ≠ Tri.along u v c := fun e => hne (along_inj huv ha hc e)
  generalize Tri.along u v a = α at *
  generalize Tri.along u v b = β at *
  generalize Tri.along u v c = γ at *
  unfold Upward at hu
  by_cases hy : u.y = v.y
  · rw [if_pos hy] at hu
    have ey : v.y - u.y = 0 := by linarith
    rw [ey, mul_zero, add_zero] at ay by' cy
    have hd : v.x - u.x < 0 := by linarith
    unfold FlatTri below at h
    rw [if_pos (by rw [ay, cy])] at h
    obtain ⟨h1, h2⟩ := h
    have k1 : c.x < b.x := by
      rcases h1 with h1 | h1
      · exact absurd h1 (by rw [cy, by']; exact lt_irrefl _)
      · exact h1.2
    have k2 : b.x < a.x := by
      rcases h2 with h2 | h2
      · exact absurd h2 (by rw [ay, by']; exact lt_irrefl _)
      · exact h2.2
    rw [cx, bx] at k1
    rw [ax, bx] at k2
    constructor <;> by_contra hn <;> nlinarith [not_lt.1 hn]
  · rw [if_neg hy] at hu
    have hd : 0 < v.y - u.y := by linarith
    have hac : a.y ≠ c.y := by
      rw [ay, cy]
      intro e
      have : (α - γ) * (v.y - u.y) = 0 := by linarith
      rcases mul_eq_zero.1 this with k | k
      · exact hne' (by linarith)
      · exact hd.ne' k
    unfold FlatTri below at h
    rw [if_neg hac] at h
    obtain ⟨h1, h2⟩ := h
    have step : ∀ {p q : Coords K} {s t : K}, p.x = u.x + s * (v.x - u.x) → p.y = u.y + s * (v.y - u.y) →
        q.x = u.x + t * (v.x - u.x) → q.y = u.y + t * (v.y - u.y) → (p.y < q.y ∨ p.y = q.y ∧ p.x < q.x) → s < t := by
      intro p q s t p1 p2 q1 q2 hpq
      rcases hpq with k | ⟨k1, k2⟩
      · rw [p2, q2] at k
        by_contra hn
        nlinarith [not_lt.1 hn]
      · rw [p2, q2] at k1
        have : (s - t) * (v.y - u.y) = 0 := by linarith
        rcases mul_eq_zero.1 this with k | k
        · have : s = t := by linarith
          rw [p1, q1, this] at k2
          exact absurd k2 (lt_irrefl _)
        · exact absurd k hd.ne'
    exact ⟨step ax ay bx by' h1, step bx by' cx cy h2⟩

/-! ## The sides over a point of a line -/

section
variable (pl : I → Coords K) (u v : I) (μ : K) (Q : K → Prop)

/-- The side from `a` to `b` lies on the line through `u` and `v` and runs upwards over the point at `μ`. -/
def Over (a b : I) : Prop :=
  orient (pl u) (pl v) (pl a) = 0 ∧ orient (pl u) (pl v) (pl b) = 0 ∧ along (pl u) (pl v) (pl a) < μ ∧
    μ < along (pl u) (pl v) (pl b) ∧ Q (along (pl u) (pl v) (pl b) - along (pl u) (pl v) (pl a))

open Classical in
/-- Sides over the point, counted with their directions. -/
noncomputable def overs (a b : I) : Int := (if Over pl u v μ Q a b then 1 else 0) - (if Over pl u v μ Q b a then 1 else 0)

theorem overs_anti (a b : I) : overs pl u v μ Q a b = - overs pl u v μ Q b a := by
  unfold overs; omega

variable {pl u v μ Q}

theorem overs_off {a b : I} (h : orient (pl u) (pl v) (pl a) ≠ 0 ∨ orient (pl u) (pl v) (pl b) ≠ 0) :
    overs pl u v μ Q a b = 0 := by
  unfold overs
  rw [if_neg, if_neg]
  · rfl
  · rintro ⟨h1, h2, -⟩
    rcases h with h | h
    · exact h h2
    · exact h h1
  · rintro ⟨h1, h2, -⟩
    rcases h with h | h
    · exact h h1
    · exact h h2

theorem Over.flip {a b : I} (h : Over pl u v μ Q a b) : ¬ Over pl u v μ Q b a := fun h' =>
  absurd (h.2.2.1.trans h.2.2.2.1) (not_lt.2 (h'.2.2.1.trans h'.2.2.2.1).le)

theorem overs_up {a b : I} (h : Over pl u v μ Q a b) : overs pl u v μ Q a b = 1 := by
  unfold overs
  rw [if_pos h, if_neg h.flip]; rfl

theorem overs_down {a b : I} (h : Over pl u v μ Q b a) : overs pl u v μ Q a b = -1 := by
  rw [overs_anti, overs_up h]

theorem overs_none {a b : I} (h : ¬ Over pl u v μ Q a b) (h' : ¬ Over pl u v μ Q b a) : overs pl u v μ Q a b = 0 := by
  unfold overs
  rw [if_neg h, if_neg h']; rfl

theorem overs_le {a b : I} : overs pl u v μ Q a b ≤ 1 ∧ -1 ≤ overs pl u v μ Q a b := by
  unfold overs
  split <;> split <;> omega

end

theorem SideOf.tsum {t : I × I × I} {a b w : I} (h : SideOf t a b w) (f : I → I → Int) :
    Tri.tsum f t = f a b + f b w + f w a := by
  rcases h with rfl | rfl | rfl <;> simp only [Tri.tsum] <;> omega

theorem SideOf.orient {pl : I → Coords K} {t : I × I × I} {a b w : I} (h : SideOf t a b w) :
    orient (pl t.1) (pl t.2.1) (pl t.2.2) = Tri.orient (pl a) (pl b) (pl w) := by
  rcases h with rfl | rfl | rfl <;> simp only [Tri.orient] <;> ring

theorem SideOf.sides {t : I × I × I} {a b w : I} (h : SideOf t a b w) {e : I × I} :
    e ∈ Tri.sides t ↔ e = (a, b) ∨ e = (b, w) ∨ e = (w, a) := by
  rcases h with rfl | rfl | rfl <;> simp only [Tri.sides, List.mem_cons, List.not_mem_nil, or_false] <;> tauto

theorem SideOf.next {t : I × I × I} {a b w : I} (h : SideOf t a b w) : SideOf t b w a := by
  rcases h with rfl | rfl | rfl
  · exact .inr (.inl rfl)
  · exact .inr (.inr rfl)
  · exact .inl rfl

theorem sideOf_of_rot {t t' : I × I × I} (h : Rot t' t) : SideOf t t'.1 t'.2.1 t'.2.2 := by
  rcases h with rfl | rfl | rfl
  · exact .inl rfl
  · exact .inr (.inr rfl)
  · exact .inr (.inl rfl)

section
variable {pl : I → Coords K} {gI : List (List I)} {T : List (I × I × I)} {fwd : I × I → Bool} {u v : I} {μ : K}

/-- A side over the point contains it. -/
theorem Over.amid {Q : K → Prop} (huv : pl u ≠ pl v) {a b w : I} (h : Over pl u v μ Q a b ∨ Over pl u v μ Q b a)
    (hp : 0 < orient (pl a) (pl b) (pl w)) :
    Amid (pl a) (pl b) (pl w) (move (pl u) ⟨(pl v).x - (pl u).x, (pl v).y - (pl u).y⟩ μ) := by
  have hon : orient (pl u) (pl v) (pl a) = 0 ∧ orient (pl u) (pl v) (pl b) = 0 := by
    rcases h with h | h
    · exact ⟨h.1, h.2.1⟩
    · exact ⟨h.2.1, h.1⟩
  obtain ⟨ax, ay⟩ := along_point huv hon.1
  obtain ⟨bx, by'⟩ := along_point huv hon.2
  have hm : (along (pl u) (pl v) (pl a) < μ ∧ μ < along (pl u) (pl v) (pl b)) ∨
      (along (pl u) (pl v) (pl b) < μ ∧ μ < along (pl u) (pl v) (pl a)) := by
    rcases h with h | h
    · exact .inl ⟨h.2.2.1, h.2.2.2.1⟩
    · exact .inr ⟨h.2.2.1, h.2.2.2.1⟩
  generalize along (pl u) (pl v) (pl a) = α at *
  generalize along (pl u) (pl v) (pl b) = β at *
  have hne : β - α ≠ 0 := by
    rcases hm with h | h
    · exact (by linarith [h.1, h.2] : 0 < β - α).ne'
    · exact (by linarith [h.1, h.2] : β - α < 0).ne
  have e1 : orient (pl a) (pl b) (move (pl u) ⟨(pl v).x - (pl u).x, (pl v).y - (pl u).y⟩ μ) = 0 := by
    simp only [orient, move, ax, ay, bx, by']; ring
  have e2 : orient (pl b) (pl w) (move (pl u) ⟨(pl v).x - (pl u).x, (pl v).y - (pl u).y⟩ μ) * (β - α) =
      (β - μ) * orient (pl a) (pl b) (pl w) := by
    simp only [orient, move, ax, ay, bx, by']; ring
  have e3 : orient (pl w) (pl a) (move (pl u) ⟨(pl v).x - (pl u).x, (pl v).y - (pl u).y⟩ μ) * (β - α) =
      (μ - α) * orient (pl a) (pl b) (pl w) := by
    simp only [orient, move, ax, ay, bx, by']; ring
  have sgn : ∀ {x e P : K}, x * (β - α) = e * P → 0 < P → (0 < β - α ∧ 0 < e) ∨ (β - α < 0 ∧ e < 0) → 0 < x := by
    intro x e P he hP hs
    rcases hs with ⟨h1, h2⟩ | ⟨h1, h2⟩
    · have := mul_pos h2 hP
      rw [← he] at this
      exact (pos_iff_pos_of_mul_pos this).2 h1
    · have := mul_neg_of_neg_of_pos h2 hP
      rw [← he] at this
      by_contra hn
      exact absurd (mul_nonneg_of_nonpos_of_nonpos (not_lt.1 hn) h1.le) (not_le.2 this)
  refine ⟨e1, sgn e2 hp ?_, sgn e3 hp ?_⟩
  · rcases hm with h | h
    · exact .inl ⟨by linarith [h.1, h.2], by linarith [h.1, h.2]⟩
    · exact .inr ⟨by linarith [h.1, h.2], by linarith [h.1, h.2]⟩
  · rcases hm with h | h
    · exact .inl ⟨by linarith [h.1, h.2], by linarith [h.1, h.2]⟩
    · exact .inr ⟨by linarith [h.1, h.2], by linarith [h.1, h.2]⟩

/-- The direction of a side over the point. -/
theorem Over.dir {Q : K → Prop} (huv : pl u ≠ pl v) {a b : I} (h : Over pl u v μ Q a b) (d : Coords K) :
    ∃ s > 0, ((pl b).x - (pl a).x) * d.y - ((pl b).y - (pl a).y) * d.x =
      s * (((pl v).x - (pl u).x) * d.y - ((pl v).y - (pl u).y) * d.x) := by
  obtain ⟨h1, h2, h3, h4, -⟩ := h
  obtain ⟨ax, ay⟩ := along_point huv h1
  obtain ⟨bx, by'⟩ := along_point huv h2
  refine ⟨along (pl u) (pl v) (pl b) - along (pl u) (pl v) (pl a), by linarith, ?_⟩
  generalize along (pl u) (pl v) (pl a) = α at *
  generalize along (pl u) (pl v) (pl b) = β at *
  rw [ax, ay, bx, by']; ring

/-- A direction to the left of the line. -/
theorem left_pos {u v : Coords K} (huv : u ≠ v) : 0 < (v.x - u.x) * (v.x - u.x) - (v.y - u.y) * (-(v.y - u.y)) := by
  have h : v.x - u.x ≠ 0 ∨ v.y - u.y ≠ 0 := by
    by_contra hn
    push Not at hn
    exact huv (coords_ext (by linarith [hn.1]) (by linarith [hn.2]))
  rcases h with h | h
  · have := mul_self_pos.2 h
    nlinarith [mul_self_nonneg (v.y - u.y)]
  · have := mul_self_pos.2 h
    nlinarith [mul_self_nonneg (v.x - u.x)]

/-- Only one triangle of positive area has a side that runs upwards over the point. -/
theorem MeshI.over_up (h : MeshI pl gI T fwd) (hv : ValidPolys (gI.map (List.map pl))) (huv : pl u ≠ pl v) {i j : Nat}
    {t t' : I × I × I} (hi : T[i]? = some t) (hj : T[j]? = some t') {a b w a' b' w' : I} {Q : K → Prop} (hs : SideOf t a b w)
    (hs' : SideOf t' a' b' w') (hp : 0 < orient (pl a) (pl b) (pl w)) (hp' : 0 < orient (pl a') (pl b') (pl w'))
    (ho : Over pl u v μ Q a b) (ho' : Over pl u v μ Q a' b') : i = j := by
  by_contra hij
  have key : ∀ {a b w : I}, 0 < orient (pl a) (pl b) (pl w) → Over pl u v μ Q a b →
      Near fun t => InCCW (pl a) (pl b) (pl w)
        (move (move (pl u) ⟨(pl v).x - (pl u).x, (pl v).y - (pl u).y⟩ μ) ⟨-((pl v).y - (pl u).y), (pl v).x - (pl u).x⟩ t) := by
    intro a b w hp ho
    obtain ⟨s, hs, e⟩ := ho.dir huv ⟨-((pl v).y - (pl u).y), (pl v).x - (pl u).x⟩
    exact near_side (Over.amid huv (.inl ho) hp) (by rw [e]; exact mul_pos hs (left_pos huv))
  obtain ⟨s, -, k1, k2⟩ := ((key hp ho).and (key hp' ho')).exists
  exact h.apart hv hi hj hij (hs.inCCW k1) (hs'.inCCW k2)

/-- Only one triangle of positive area has a side that runs downwards over the point. -/
theorem MeshI.over_down (h : MeshI pl gI T fwd) (hv : ValidPolys (gI.map (List.map pl))) (huv : pl u ≠ pl v) {i j : Nat}
    {t t' : I × I × I} (hi : T[i]? = some t) (hj : T[j]? = some t') {a b w a' b' w' : I} {Q : K → Prop} (hs : SideOf t a b w)
    (hs' : SideOf t' a' b' w') (hp : 0 < orient (pl a) (pl b) (pl w)) (hp' : 0 < orient (pl a') (pl b') (pl w'))
    (ho : Over pl u v μ Q b a) (ho' : Over pl u v μ Q b' a') : i = j := by
  by_contra hij
  have key : ∀ {a b w : I}, 0 < orient (pl a) (pl b) (pl w) → Over pl u v μ Q b a →
      Near fun t => InCCW (pl a) (pl b) (pl w)
        (move (move (pl u) ⟨(pl v).x - (pl u).x, (pl v).y - (pl u).y⟩ μ) ⟨(pl v).y - (pl u).y, -((pl v).x - (pl u).x)⟩ t) := by
    intro a b w hp ho
    obtain ⟨s, hs, e⟩ := ho.dir huv ⟨(pl v).y - (pl u).y, -((pl v).x - (pl u).x)⟩
    refine near_side (Over.amid huv (.inr ho) hp) ?_
    have := mul_pos hs (left_pos huv)
    linarith
  obtain ⟨s, -, k1, k2⟩ := ((key hp ho).and (key hp' ho')).exists
  exact h.apart hv hi hj hij (hs.inCCW k1) (hs'.inCCW k2)

/-- A triangle of positive area has a side over the point that runs upwards. -/
def UpT (pl : I → Coords K) (u v : I) (μ : K) (t : I × I × I) : Prop :=
  ∃ a b w, SideOf t a b w ∧ 0 < orient (pl a) (pl b) (pl w) ∧ Over pl u v μ (fun _ => True) a b

/-- A triangle of positive area has a side over the point that runs downwards. -/
def DownT (pl : I → Coords K) (u v : I) (μ : K) (t : I × I × I) : Prop :=
  ∃ a b w, SideOf t a b w ∧ 0 < orient (pl a) (pl b) (pl w) ∧ Over pl u v μ (fun _ => True) b a

theorem Over.any {Q : K → Prop} {a b : I} (h : Over pl u v μ Q a b) : Over pl u v μ (fun _ => True) a b :=
  ⟨h.1, h.2.1, h.2.2.1, h.2.2.2.1, trivial⟩

/-- At most one corner of a triangle of positive area is off the line if two are on it. -/
theorem third_off {a b w : I} (huv : pl u ≠ pl v) (hp : 0 < orient (pl a) (pl b) (pl w)) (ha : orient (pl u) (pl v) (pl a) = 0)
    (hb : orient (pl u) (pl v) (pl b) = 0) : orient (pl u) (pl v) (pl w) ≠ 0 := by
  intro hw
  obtain ⟨ax, ay⟩ := along_point huv ha
  obtain ⟨bx, by'⟩ := along_point huv hb
  obtain ⟨wx, wy⟩ := along_point huv hw
  have : orient (pl a) (pl b) (pl w) = 0 := by
    generalize along (pl u) (pl v) (pl a) = α at *
    generalize along (pl u) (pl v) (pl b) = β at *
    generalize along (pl u) (pl v) (pl w) = γ at *
    simp only [orient, ax, ay, bx, by', wx, wy]; ring
  linarith

/-- What a triangle of positive area contributes. -/
theorem tsum_pos {Q : K → Prop} (huv : pl u ≠ pl v) {t : I × I × I} (hp : 0 < orient (pl t.1) (pl t.2.1) (pl t.2.2)) :
    (∀ a b w, SideOf t a b w → orient (pl u) (pl v) (pl a) = 0 → orient (pl u) (pl v) (pl b) = 0 →
      tsum (overs pl u v μ Q) t = overs pl u v μ Q a b) ∧
    ((¬ ∃ a b w, SideOf t a b w ∧ orient (pl u) (pl v) (pl a) = 0 ∧ orient (pl u) (pl v) (pl b) = 0) →
      tsum (overs pl u v μ Q) t = 0) := by
  constructor
  · intro a b w hs ha hb
    have hw := third_off huv (hs.orient (pl := pl) ▸ hp) ha hb
    rw [hs.tsum, overs_off (a := b) (.inr hw), overs_off (b := a) (.inl hw)]
    omega
  · intro hn
    push Not at hn
    have k : ∀ a b w, SideOf t a b w → overs pl u v μ Q a b = 0 := by
      intro a b w hs
      by_cases ha : orient (pl u) (pl v) (pl a) = 0
      · exact overs_off (.inr (hn a b w hs ha))
      · exact overs_off (.inl ha)
    have hs : SideOf t t.1 t.2.1 t.2.2 := .inl rfl
    rw [hs.tsum, k _ _ _ hs, k _ _ _ hs.next, k _ _ _ hs.next.next]; rfl

/-- A triangle without area lies on the line, or has no side on it. -/
theorem flat_line (huv : pl u ≠ pl v) {a b c : I} (h0 : orient (pl a) (pl b) (pl c) = 0) (hab : pl a ≠ pl b)
    (ha : orient (pl u) (pl v) (pl a) = 0) (hb : orient (pl u) (pl v) (pl b) = 0) : orient (pl u) (pl v) (pl c) = 0 := by
  obtain ⟨ax, ay⟩ := along_point huv ha
  obtain ⟨bx, by'⟩ := along_point huv hb
  have hne : along (pl u) (pl v) (pl a) ≠ along (pl u) (pl v) (pl b) := fun e => hab (along_inj huv ha hb e)
  generalize along (pl u) (pl v) (pl a) = α at *
  generalize along (pl u) (pl v) (pl b) = β at *
  have : (β - α) * orient (pl u) (pl v) (pl c) = 0 := by
    have : (β - α) * orient (pl u) (pl v) (pl c) = orient (pl a) (pl b) (pl c) := by
      simp only [orient, ax, ay, bx, by']; ring
    rw [this, h0]
  rcases mul_eq_zero.1 this with k | k
  · exact absurd (by linarith) hne
  · exact k

/-- What a triangle without area contributes: nothing, or it runs upwards along the line. -/
theorem MeshI.tsum_flat (h : MeshI pl gI T fwd) (huv : pl u ≠ pl v) (hup : Upward (pl u) (pl v)) {t : I × I × I} (ht : t ∈ T)
    (h0 : orient (pl t.1) (pl t.2.1) (pl t.2.2) = 0) :
    ((∀ Q, tsum (overs pl u v μ Q) t = 0) ∧
      ¬ ∃ a b w, SideOf t a b w ∧ orient (pl u) (pl v) (pl a) = 0 ∧ orient (pl u) (pl v) (pl b) = 0) ∨
    ∃ a b c, SideOf t a b c ∧ orient (pl u) (pl v) (pl a) = 0 ∧ orient (pl u) (pl v) (pl b) = 0 ∧
      orient (pl u) (pl v) (pl c) = 0 ∧ along (pl u) (pl v) (pl a) < along (pl u) (pl v) (pl b) ∧
      along (pl u) (pl v) (pl b) < along (pl u) (pl v) (pl c) := by
  by_cases hn : ∃ a b w, SideOf t a b w ∧ orient (pl u) (pl v) (pl a) = 0 ∧ orient (pl u) (pl v) (pl b) = 0
  · right
    have hall : ∀ z, Corner t z → orient (pl u) (pl v) (pl z) = 0 := by
      obtain ⟨a, b, w, hs, ha, hb⟩ := hn
      have hab : pl a ≠ pl b := by
        obtain ⟨d1, d2, d3⟩ := h.dist t ht
        rcases hs with rfl | rfl | rfl
        · exact d1
        · exact d2
        · exact d3
      have hw := flat_line huv (hs.orient (pl := pl) ▸ h0) hab ha hb
      intro z hz
      rcases hs with rfl | rfl | rfl <;> rcases hz with rfl | rfl | rfl <;> assumption
    obtain ⟨t', hr, hf⟩ := h.flat t ht h0
    have hs := sideOf_of_rot hr
    have c := hs.corner
    exact ⟨_, _, _, hs, hall _ c.1, hall _ c.2.1, hall _ c.2.2,
      hf.along hup huv (hall _ c.1) (hall _ c.2.1) (hall _ c.2.2)⟩
  · left
    refine ⟨fun Q => ?_, hn⟩
    push Not at hn
    have k : ∀ a b w, SideOf t a b w → overs pl u v μ Q a b = 0 := by
      intro a b w hs
      by_cases ha : orient (pl u) (pl v) (pl a) = 0
      · exact overs_off (.inr (hn a b w hs ha))
      · exact overs_off (.inl ha)
    have hs : SideOf t t.1 t.2.1 t.2.2 := .inl rfl
    rw [hs.tsum, k _ _ _ hs, k _ _ _ hs.next, k _ _ _ hs.next.next]; rfl

theorem sum_ite {α : Type} (p : α → Bool) (l : List α) :
    (l.map fun t => if p t = true then (1 : Int) else 0).sum = (l.filter p).length := by
  induction l with
  | nil => rfl
  | cons a l ih =>
    rw [List.map_cons, List.sum_cons, ih]
    by_cases h : p a = true
    · rw [List.filter_cons_of_pos h, if_pos h, List.length_cons]; push_cast; ring
    · rw [List.filter_cons_of_neg h, if_neg h]; ring

theorem MeshI.sides_one (h : MeshI pl gI T fwd) {t : I × I × I} (ht : t ∈ T) (e : I × I) :
    ((sides t).count e : Int) = if e ∈ sides t then 1 else 0 := by
  have hn : (sides t).Nodup := by
    obtain ⟨d1, d2, d3⟩ := h.dist t ht
    have e1 : t.1 ≠ t.2.1 := fun e => d1 (congrArg pl e)
    have e2 : t.2.1 ≠ t.2.2 := fun e => d2 (congrArg pl e)
    have e3 : t.2.2 ≠ t.1 := fun e => d3 (congrArg pl e)
    obtain ⟨a, b, c⟩ := t
    simp only at e1 e2 e3
    simp [sides, e1, e2, e3.symm]
  split
  · rename_i hm
    rw [List.count_eq_one_of_mem hn hm]; rfl
  · rename_i hm
    rw [List.count_eq_zero_of_not_mem hm]; rfl

theorem MeshI.count_eq (h : MeshI pl gI T fwd) (e : I × I) :
    ((T.flatMap sides).count e : Int) = (T.map fun t => if e ∈ sides t then (1 : Int) else 0).sum := by
  have key : ∀ l : List (I × I × I), (∀ t ∈ l, t ∈ T) → ((l.flatMap sides).count e : Int) =
      (l.map fun t => if e ∈ sides t then (1 : Int) else 0).sum := by
    intro l
    induction l with
    | nil => simp
    | cons t l ih =>
      intro hl
      rw [List.flatMap_cons, List.count_append, List.map_cons, List.sum_cons, ← ih fun x hx => hl x (by simp [hx]),
        ← h.sides_one (hl t (by simp))]
      push_cast; ring
  exact key T fun _ ht => ht

open Classical in
/-- A directed side that runs upwards occurs at most once, and not at all if an edge runs the other way. -/
theorem MeshI.count_up (h : MeshI pl gI T fwd) (hv : ValidPolys (gI.map (List.map pl))) (huv : pl u ≠ pl v)
    (hup : Upward (pl u) (pl v)) :
    (T.flatMap sides).count (u, v) ≤ 1 ∧
      ((v, u) ∈ (gI.flatMap cycleEdges).map (turn fwd) → (T.flatMap sides).count (u, v) = 0) := by
  -- a point between `u` and `v`, not at a vertex
  obtain ⟨μ, μ0, μ1, hμ⟩ : ∃ μ : K, 0 < μ ∧ μ < 1 ∧ ∀ z ∈ gI.flatten, along (pl u) (pl v) (pl z) ≠ μ := by
    have k : Near fun t : K => ∀ z ∈ gI.flatten, along (pl u) (pl v) (pl z) ≠ t := near_list fun z _ => by
      by_cases hz : along (pl u) (pl v) (pl z) = 0
      · exact Near.of_all fun t ht e => ht.ne (hz ▸ e)
      · refine (near_ne (-1) hz).imp fun t _ k e => k (by rw [e]; ring)
    have one : Near fun t : K => t < 1 := ⟨1, one_pos, fun t _ h => h⟩
    obtain ⟨t, t0, t1, k⟩ := (one.and k).exists
    exact ⟨t, t0, t1, k⟩
  have hu0 := along_start (pl u) (pl v)
  have hv1 := along_end huv
  have hou : orient (pl u) (pl v) (pl u) = 0 := by simp only [orient]; ring
  have hov : orient (pl u) (pl v) (pl v) = 0 := by simp only [orient]; ring
  have huvO : ∀ Q : K → Prop, Q 1 → Over pl u v μ Q u v := fun Q hQ =>
    ⟨hou, hov, by rw [hu0]; exact μ0, by rw [hv1]; exact μ1, by rw [hu0, hv1, sub_zero]; exact hQ⟩
  -- triangles of positive area
  have hL : (T.filter fun t => decide (UpT pl u v μ t)).length ≤ 1 := by
    refine filter_le_one fun i j t t' hi hj ht ht' => ?_
    obtain ⟨a, b, w, hs, hp, ho⟩ := of_decide_eq_true ht
    obtain ⟨a', b', w', hs', hp', ho'⟩ := of_decide_eq_true ht'
    exact h.over_up hv huv hi hj hs hs' hp hp' ho ho'
  have hR : (T.filter fun t => decide (DownT pl u v μ t)).length ≤ 1 := by
    refine filter_le_one fun i j t t' hi hj ht ht' => ?_
    obtain ⟨a, b, w, hs, hp, ho⟩ := of_decide_eq_true ht
    obtain ⟨a', b', w', hs', hp', ho'⟩ := of_decide_eq_true ht'
    exact h.over_down hv huv hi hj hs hs' hp hp' ho ho'
  -- sides not longer than that from `u` to `v`
  have hA : ∀ t ∈ T, (if (u, v) ∈ sides t then (1 : Int) else 0) ≤
      tsum (overs pl u v μ fun l => l ≤ 1) t + if decide (DownT pl u v μ t) = true then (1 : Int) else 0 := by
    intro t ht
    rcases eq_or_lt_of_le (h.pos t ht) with h0 | hp
    · rcases h.tsum_flat (μ := μ) huv hup ht h0.symm with ⟨k1, k2⟩ | ⟨a, b, c, hs, ha, hb, hc, hab, hbc⟩
      · rw [k1, if_neg]
        · split <;> omega
        · intro hm
          obtain ⟨w, hw⟩ := sideOf_of_mem hm
          exact k2 ⟨u, v, w, hw, hou, hov⟩
      · have hb' := hμ b (h.corner_mem ht hs.corner.2.1)
        rw [hs.tsum]
        have n1 : ¬ Over pl u v μ (fun l => l ≤ 1) b a := fun k => absurd (k.2.2.1.trans k.2.2.2.1) (not_lt.2 hab.le)
        have n2 : ¬ Over pl u v μ (fun l => l ≤ 1) c b := fun k => absurd (k.2.2.1.trans k.2.2.2.1) (not_lt.2 hbc.le)
        have n3 : ¬ Over pl u v μ (fun l => l ≤ 1) c a :=
          fun k => absurd (k.2.2.1.trans k.2.2.2.1) (not_lt.2 (hab.trans hbc).le)
        have p1 : 0 ≤ overs pl u v μ (fun l => l ≤ 1) a b := by unfold overs; rw [if_neg n1]; split <;> omega
        have p2 : 0 ≤ overs pl u v μ (fun l => l ≤ 1) b c := by unfold overs; rw [if_neg n2]; split <;> omega
        have p3 : overs pl u v μ (fun l => l ≤ 1) c a = - if Over pl u v μ (fun l => l ≤ 1) a c then 1 else 0 := by
          unfold overs; rw [if_neg n3]; omega
        have p4 : (0 : Int) ≤ if decide (DownT pl u v μ t) = true then 1 else 0 := by split <;> omega
        rw [p3]
        by_cases hm : (u, v) ∈ sides t
        · -- one of the two short sides
          rw [if_pos hm]
          have hk := hs.sides.1 hm
          have n4 : ¬ Over pl u v μ (fun l => l ≤ 1) a c := by
            rintro ⟨-, -, -, -, k⟩
            rcases hk with e | e | e
            · obtain ⟨rfl, rfl⟩ := Prod.mk.inj e
              linarith
            · obtain ⟨rfl, rfl⟩ := Prod.mk.inj e
              linarith
            · obtain ⟨rfl, rfl⟩ := Prod.mk.inj e
              linarith
          rw [if_neg n4]
          rcases hk with e | e | e
          · obtain ⟨rfl, rfl⟩ := Prod.mk.inj e
            rw [overs_up (huvO (fun l => l ≤ 1) le_rfl)]; omega
          · obtain ⟨rfl, rfl⟩ := Prod.mk.inj e
            rw [overs_up (huvO (fun l => l ≤ 1) le_rfl)]; omega
          · obtain ⟨rfl, rfl⟩ := Prod.mk.inj e
            exfalso; linarith
        · rw [if_neg hm]
          by_cases n4 : Over pl u v μ (fun l => l ≤ 1) a c
          · rw [if_pos n4]
            obtain ⟨-, -, k1, k2, k3⟩ := n4
            rcases lt_or_gt_of_ne hb' with k | k
            · rw [overs_up (a := b) (b := c) ⟨hb, hc, k, k2, by linarith⟩]; omega
            · rw [overs_up (a := a) (b := b) ⟨ha, hb, k1, k, by linarith⟩]; omega
          · rw [if_neg n4]; omega
    · obtain ⟨k1, k2⟩ := tsum_pos (μ := μ) (Q := fun l => l ≤ 1) huv hp
      by_cases hm : (u, v) ∈ sides t
      · obtain ⟨w, hw⟩ := sideOf_of_mem hm
        rw [if_pos hm, k1 u v w hw hou hov, overs_up (huvO (fun l => l ≤ 1) le_rfl)]
        split <;> omega
      · rw [if_neg hm]
        by_cases hn : ∃ a b w, SideOf t a b w ∧ orient (pl u) (pl v) (pl a) = 0 ∧ orient (pl u) (pl v) (pl b) = 0
        · obtain ⟨a, b, w, hs, ha, hb⟩ := hn
          rw [k1 a b w hs ha hb]
          by_cases ho : Over pl u v μ (fun l => l ≤ 1) b a
          · rw [overs_down ho, if_pos (decide_eq_true ⟨a, b, w, hs, hs.orient (pl := pl) ▸ hp, ho.any⟩)]; omega
          · have : 0 ≤ overs pl u v μ (fun l => l ≤ 1) a b := by unfold overs; rw [if_neg ho]; split <;> omega
            split <;> omega
        · rw [k2 hn]; split <;> omega
  -- all sides
  have hB : ∀ t ∈ T, tsum (overs pl u v μ fun _ => True) t ≤
      (if decide (UpT pl u v μ t) = true then (1 : Int) else 0) + -(if decide (DownT pl u v μ t) = true then (1 : Int) else 0) := by
    intro t ht
    rcases eq_or_lt_of_le (h.pos t ht) with h0 | hp
    · have hd : ¬ decide (DownT pl u v μ t) = true := by
        intro k
        obtain ⟨a, b, w, hs, hp, -⟩ := of_decide_eq_true k
        rw [← hs.orient, ← h0] at hp
        exact lt_irrefl _ hp
      have he : ¬ decide (UpT pl u v μ t) = true := by
        intro k
        obtain ⟨a, b, w, hs, hp, -⟩ := of_decide_eq_true k
        rw [← hs.orient, ← h0] at hp
        exact lt_irrefl _ hp
      rw [if_neg hd, if_neg he]
      rcases h.tsum_flat (μ := μ) huv hup ht h0.symm with ⟨k1, -⟩ | ⟨a, b, c, hs, ha, hb, hc, hab, hbc⟩
      · rw [k1]; omega
      · have hb' := hμ b (h.corner_mem ht hs.corner.2.1)
        rw [hs.tsum]
        have n1 : ¬ Over pl u v μ (fun _ => True) b a := fun k => absurd (k.2.2.1.trans k.2.2.2.1) (not_lt.2 hab.le)
        have n2 : ¬ Over pl u v μ (fun _ => True) c b := fun k => absurd (k.2.2.1.trans k.2.2.2.1) (not_lt.2 hbc.le)
        have n3 : ¬ Over pl u v μ (fun _ => True) c a :=
          fun k => absurd (k.2.2.1.trans k.2.2.2.1) (not_lt.2 (hab.trans hbc).le)
        by_cases n4 : Over pl u v μ (fun _ => True) a b
        · have m1 : ¬ Over pl u v μ (fun _ => True) b c := fun k => absurd (n4.2.2.2.1.trans k.2.2.1) (lt_irrefl _)
          have m2 : Over pl u v μ (fun _ => True) a c := ⟨ha, hc, n4.2.2.1, n4.2.2.2.1.trans hbc, trivial⟩
          rw [overs_up n4, overs_none m1 n2, overs_down m2]; omega
        · by_cases n5 : Over pl u v μ (fun _ => True) b c
          · have m2 : Over pl u v μ (fun _ => True) a c := ⟨ha, hc, hab.trans n5.2.2.1, n5.2.2.2.1, trivial⟩
            rw [overs_none n4 n1, overs_up n5, overs_down m2]; omega
          · have m2 : ¬ Over pl u v μ (fun _ => True) a c := by
              rintro ⟨-, -, k1, k2, -⟩
              rcases lt_or_gt_of_ne hb' with k | k
              · exact n5 ⟨hb, hc, k, k2, trivial⟩
              · exact n4 ⟨ha, hb, k1, k, trivial⟩
            rw [overs_none n4 n1, overs_none n5 n2, overs_none n3 m2]; omega
    · obtain ⟨k1, k2⟩ := tsum_pos (μ := μ) (Q := fun _ => True) huv hp
      have one : ∀ {a b w a' b' w' : I}, SideOf t a b w → SideOf t a' b' w' → orient (pl u) (pl v) (pl a) = 0 →
          orient (pl u) (pl v) (pl b) = 0 → orient (pl u) (pl v) (pl a') = 0 → orient (pl u) (pl v) (pl b') = 0 →
          overs pl u v μ (fun _ => True) a b = overs pl u v μ (fun _ => True) a' b' := by
        intro a b w a' b' w' hs hs' ha hb ha' hb'
        rw [← k1 a b w hs ha hb, ← k1 a' b' w' hs' ha' hb']
      by_cases hn : ∃ a b w, SideOf t a b w ∧ orient (pl u) (pl v) (pl a) = 0 ∧ orient (pl u) (pl v) (pl b) = 0
      · obtain ⟨a, b, w, hs, ha, hb⟩ := hn
        rw [k1 a b w hs ha hb]
        have hup' : decide (UpT pl u v μ t) = true → overs pl u v μ (fun _ => True) a b = 1 := by
          intro k
          obtain ⟨a', b', w', hs', -, ho⟩ := of_decide_eq_true k
          rw [one hs hs' ha hb ho.1 ho.2.1, overs_up ho]
        have hdn' : decide (DownT pl u v μ t) = true → overs pl u v μ (fun _ => True) a b = -1 := by
          intro k
          obtain ⟨a', b', w', hs', -, ho⟩ := of_decide_eq_true k
          rw [one hs hs' ha hb ho.2.1 ho.1, overs_down ho]
        by_cases ho : Over pl u v μ (fun _ => True) a b
        · rw [if_pos (decide_eq_true ⟨a, b, w, hs, hs.orient (pl := pl) ▸ hp, ho⟩), overs_up ho]
          split
          · rename_i k
            have := hdn' k
            rw [overs_up ho] at this
            omega
          · omega
        · have : overs pl u v μ (fun _ => True) a b ≤ 0 := by unfold overs; rw [if_neg ho]; split <;> omega
          by_cases kd : decide (DownT pl u v μ t) = true
          · have := hdn' kd
            rw [if_pos kd]; split <;> omega
          · rw [if_neg kd]; split <;> omega
      · rw [k2 hn, if_neg, if_neg]
        · omega
        · intro k
          obtain ⟨a', b', w', hs', -, ho⟩ := of_decide_eq_true k
          exact hn ⟨a', b', w', hs', ho.2.1, ho.1⟩
        · intro k
          obtain ⟨a', b', w', hs', -, ho⟩ := of_decide_eq_true k
          exact hn ⟨a', b', w', hs', ho.1, ho.2.1⟩
  -- the sums
  have sA := List.sum_le_sum hA
  rw [← h.count_eq, List.sum_map_add, sum_ite, h.sum Int _ (overs_anti pl u v μ _)] at sA
  have hB' : ∀ t ∈ T, tsum (overs pl u v μ fun _ => True) t + (if decide (DownT pl u v μ t) = true then (1 : Int) else 0) ≤
      if decide (UpT pl u v μ t) = true then (1 : Int) else 0 := fun t ht => by linarith [hB t ht]
  have sB := List.sum_le_sum hB'
  rw [List.sum_map_add, sum_ite, sum_ite, h.sum Int _ (overs_anti pl u v μ _)] at sB
  have hturn : ∀ (Q : K → Prop) (e : I × I), ¬ (Over pl u v μ (fun _ => True) e.1 e.2 ∨ Over pl u v μ (fun _ => True) e.2 e.1) →
      overs pl u v μ Q (turn fwd e).1 (turn fwd e).2 = 0 := by
    intro Q e hn
    push Not at hn
    unfold turn
    split
    · exact overs_none (fun k => hn.1 k.any) (fun k => hn.2 k.any)
    · exact overs_none (fun k => hn.2 k.any) (fun k => hn.1 k.any)
  by_cases hc : ∃ e ∈ gI.flatMap cycleEdges, Over pl u v μ (fun _ => True) e.1 e.2 ∨ Over pl u v μ (fun _ => True) e.2 e.1
  · obtain ⟨e, he, heo⟩ := hc
    have hpt : ∀ x : I × I, (Over pl u v μ (fun _ => True) x.1 x.2 ∨ Over pl u v μ (fun _ => True) x.2 x.1) →
        OnSeg (pl x.1, pl x.2) (move (pl u) ⟨(pl v).x - (pl u).x, (pl v).y - (pl u).y⟩ μ) ∧
        move (pl u) ⟨(pl v).x - (pl u).x, (pl v).y - (pl u).y⟩ μ ≠ pl x.1 := by
      intro x hx
      have key : ∀ a b : I, Over pl u v μ (fun _ => True) a b →
          OnSeg (pl a, pl b) (move (pl u) ⟨(pl v).x - (pl u).x, (pl v).y - (pl u).y⟩ μ) ∧
          move (pl u) ⟨(pl v).x - (pl u).x, (pl v).y - (pl u).y⟩ μ ≠ pl a ∧
          move (pl u) ⟨(pl v).x - (pl u).x, (pl v).y - (pl u).y⟩ μ ≠ pl b := by
        rintro a b ⟨h1, h2, h3, h4, -⟩
        obtain ⟨ax, ay⟩ := along_point huv h1
        obtain ⟨bx, by'⟩ := along_point huv h2
        have hx0 : (pl v).x - (pl u).x ≠ 0 ∨ (pl v).y - (pl u).y ≠ 0 := by
          by_contra hn
          push Not at hn
          exact huv (coords_ext (by linarith [hn.1]) (by linarith [hn.2]))
        generalize along (pl u) (pl v) (pl a) = α at *
        generalize along (pl u) (pl v) (pl b) = β at *
        have hd : 0 < β - α := by linarith
        have no : ∀ {γ : K} {z : Coords K}, z.x = (pl u).x + γ * ((pl v).x - (pl u).x) →
            z.y = (pl u).y + γ * ((pl v).y - (pl u).y) → γ ≠ μ →
            move (pl u) ⟨(pl v).x - (pl u).x, (pl v).y - (pl u).y⟩ μ ≠ z := by
          intro γ z zx zy hg hz
          have hx := congrArg Coords.x hz
          have hy := congrArg Coords.y hz
          simp only [move, zx, zy] at hx hy
          have k1 : (γ - μ) * ((pl v).x - (pl u).x) = 0 := by linarith
          have k2 : (γ - μ) * ((pl v).y - (pl u).y) = 0 := by linarith
          have hg' := sub_ne_zero.2 hg
          simp only [mul_eq_zero, hg', false_or] at k1 k2
          rcases hx0 with k | k
          · exact k k1
          · exact k k2
        refine ⟨⟨(μ - α) / (β - α), div_nonneg (by linarith) hd.le, (div_le_one hd).2 (by linarith), ?_, ?_⟩,
          no ax ay h3.ne, no bx by' h4.ne'⟩
        · simp only [move, ax, bx]; field_simp; ring
        · simp only [move, ay, by']; field_simp; ring
      rcases hx with hx | hx
      · exact ⟨(key _ _ hx).1, (key _ _ hx).2.1⟩
      · exact ⟨onSeg_rev (key _ _ hx).1, (key _ _ hx).2.2⟩
    have hother : ∀ e' ∈ gI.flatMap cycleEdges, e' ≠ e →
        ¬ (Over pl u v μ (fun _ => True) e'.1 e'.2 ∨ Over pl u v μ (fun _ => True) e'.2 e'.1) := by
      intro e' he' hne heo'
      have hm := edge_mem he
      have hm' := edge_mem he'
      have hne' : (pl e'.1, pl e'.2) ≠ (pl e.1, pl e.2) := by
        intro k
        obtain ⟨k1, k2⟩ := Prod.mk.inj k
        exact hne (Prod.ext (valid_inj hv hm'.1 hm.1 k1) (valid_inj hv hm'.2 hm.2 k2))
      obtain ⟨q1, q2⟩ := hpt e heo
      obtain ⟨q1', q2'⟩ := hpt e' heo'
      have k := (hv.meet _ (edge_placed he') _ (edge_placed he) hne' _ q1' q1).2
      have q3 : move (pl u) ⟨(pl v).x - (pl u).x, (pl v).y - (pl u).y⟩ μ ≠ pl e.2 := by
        have := hpt e.swap (by rw [or_comm]; exact heo)
        exact this.2
      rcases k with k | k
      · exact q2 k
      · exact q3 k
    have hsum : ∀ Q : K → Prop, esum (overs pl u v μ Q) ((gI.flatMap cycleEdges).map (turn fwd)) =
        overs pl u v μ Q (turn fwd e).1 (turn fwd e).2 := by
      intro Q
      rw [esum_turn]
      exact esum_single (f := fun a b => overs pl u v μ Q (turn fwd (a, b)).1 (turn fwd (a, b)).2)
        (edges_nodup (valid_nodupI hv)) he fun e' he' hne => hturn Q e' (hother e' he' hne)
    rw [hsum] at sA sB
    have hx : Over pl u v μ (fun _ => True) (turn fwd e).1 (turn fwd e).2 ∨
        Over pl u v μ (fun _ => True) (turn fwd e).2 (turn fwd e).1 := by
      unfold turn
      split
      · exact heo
      · exact heo.symm
    have huniq : (v, u) ∈ (gI.flatMap cycleEdges).map (turn fwd) → turn fwd e = (v, u) := by
      intro hm
      obtain ⟨e', he', k⟩ := List.mem_map.1 hm
      have ho : Over pl u v μ (fun _ => True) u v := huvO _ trivial
      have : e' = e := by
        by_contra hne
        refine hother e' he' hne ?_
        unfold turn at k
        split at k
        · rw [k]; exact .inr ho
        · have : e' = (u, v) := by rw [← Prod.swap_swap e', k]; rfl
          rw [this]; exact .inl ho
      rw [← this, k]
    rcases hx with hx | hx
    · rw [overs_up hx] at sB
      have := (overs_le (pl := pl) (u := u) (v := v) (μ := μ) (Q := fun l => l ≤ 1) (a := (turn fwd e).1) (b := (turn fwd e).2)).1
      refine ⟨by omega, fun hm => ?_⟩
      rw [huniq hm] at hx
      exact absurd (huvO (fun _ => True) trivial) hx.flip
    · have : overs pl u v μ (fun l => l ≤ 1) (turn fwd e).1 (turn fwd e).2 ≤ 0 := by
        have : ¬ Over pl u v μ (fun l => l ≤ 1) (turn fwd e).1 (turn fwd e).2 := fun k => hx.flip k.any
        unfold overs; rw [if_neg this]; split <;> omega
      refine ⟨by omega, fun hm => ?_⟩
      have k := overs_down (huvO (fun l => l ≤ 1) le_rfl)
      rw [huniq hm] at sA
      rw [k] at sA
      omega
  · push Not at hc
    have hsum : esum (overs pl u v μ fun l => l ≤ 1) ((gI.flatMap cycleEdges).map (turn fwd)) = 0 := by
      rw [esum_turn]
      refine List.sum_eq_zero fun x hx => ?_
      obtain ⟨e, he, rfl⟩ := List.mem_map.1 hx
      exact hturn _ e (by push Not; exact hc e he)
    rw [hsum] at sA
    refine ⟨by omega, fun hm => ?_⟩
    exfalso
    obtain ⟨e', he', k⟩ := List.mem_map.1 hm
    have ho : Over pl u v μ (fun _ => True) u v := huvO _ trivial
    unfold turn at k
    split at k
    · rw [k] at he'
      exact (hc _ he').2 ho
    · have : e' = (u, v) := by rw [← Prod.swap_swap e', k]; rfl
      rw [this] at he'
      exact (hc _ he').1 ho

theorem mem_turned {E : List (I × I)} {a b : I} :
    (a, b) ∈ E.map (turn fwd) ↔ ((a, b) ∈ E ∧ fwd (a, b) = true) ∨ ((b, a) ∈ E ∧ fwd (b, a) = false) := by
  constructor
  · intro h
    obtain ⟨e, he, k⟩ := List.mem_map.1 h
    unfold turn at k
    by_cases hf : fwd e = true
    · rw [if_pos hf] at k
      subst k
      exact .inl ⟨he, hf⟩
    · rw [if_neg hf] at k
      have : e = (b, a) := by rw [← Prod.swap_swap e, k]; rfl
      subst this
      exact .inr ⟨he, by simpa using hf⟩
  · rintro (⟨h1, h2⟩ | ⟨h1, h2⟩)
    · exact List.mem_map.2 ⟨_, h1, by unfold turn; rw [if_pos h2]⟩
    · exact List.mem_map.2 ⟨_, h1, by unfold turn; rw [if_neg (by simp [h2])]; rfl⟩

/-- No directed side occurs twice. -/
theorem MeshI.count_le (h : MeshI pl gI T fwd) (hv : ValidPolys (gI.map (List.map pl))) (u v : I) :
    (T.flatMap sides).count (u, v) ≤ 1 := by
  by_cases huv : pl u = pl v
  · rw [List.count_eq_zero_of_not_mem]
    · omega
    · intro hm
      obtain ⟨t, ht, hm⟩ := List.mem_flatMap.1 hm
      obtain ⟨d1, d2, d3⟩ := h.dist t ht
      simp only [sides, List.mem_cons, Prod.mk.injEq, List.not_mem_nil, or_false] at hm
      rcases hm with ⟨rfl, rfl⟩ | ⟨rfl, rfl⟩ | ⟨rfl, rfl⟩
      · exact d1 huv
      · exact d2 huv
      · exact d3 huv
  · rcases upward_or huv with hup | hup
    · exact (h.count_up hv huv hup).1
    · obtain ⟨k1, k2⟩ := h.count_up hv (Ne.symm huv) hup
      have hn := h.net_eq hv u v
      unfold net at hn
      by_cases hm : (u, v) ∈ (gI.flatMap cycleEdges).map (turn fwd)
      · have := k2 hm
        have : (if (u, v) ∈ gI.flatMap cycleEdges then (if fwd (u, v) = true then (1 : Int) else -1)
          else if (v, u) ∈ gI.flatMap cycleEdges then (if fwd (v, u) = true then -1 else 1) else 0) ≤ 1 := by
          split_ifs <;> omega
        omega
      · have : (if (u, v) ∈ gI.flatMap cycleEdges then (if fwd (u, v) = true then (1 : Int) else -1)
          else if (v, u) ∈ gI.flatMap cycleEdges then (if fwd (v, u) = true then -1 else 1) else 0) ≤ 0 := by
          rw [mem_turned] at hm
          push Not at hm
          split_ifs with c1 c2 c2 c3
          · exact absurd c2 (hm.1 c1)
          · omega
          · omega
          · exact absurd (by simpa using c3) (hm.2 c2)
          · omega
        omega

/-- Two triangles do not share a directed side. -/
theorem MeshI.side_unique (h : MeshI pl gI T fwd) (hv : ValidPolys (gI.map (List.map pl))) {i j : Nat} {t t' : I × I × I}
    (hi : T[i]? = some t) (hj : T[j]? = some t') {e : I × I} (h1 : e ∈ sides t) (h2 : e ∈ sides t') : i = j := by
  by_contra hij
  have hc := h.count_eq e
  have he : (T.map fun t => if e ∈ sides t then (1 : Int) else 0) =
      T.map fun t => if decide (e ∈ sides t) = true then (1 : Int) else 0 := by simp
  rw [he, sum_ite] at hc
  have hle := h.count_le hv e.1 e.2
  have h1' := decide_eq_true h1
  have h2' := decide_eq_true h2
  rcases lt_or_gt_of_ne hij with k | k
  · have := filter_two (p := fun t => decide (e ∈ sides t)) hi hj k h1' h2'
    have : (T.flatMap sides).count e ≤ 1 := hle
    omega
  · have := filter_two (p := fun t => decide (e ∈ sides t)) hj hi k h2' h1'
    have : (T.flatMap sides).count e ≤ 1 := hle
    omega

/-- The mirror image of a triangle of the mesh is not in the mesh. -/
theorem MeshI.no_mirror (h : MeshI pl gI T fwd) {t t' : I × I × I} (ht : t ∈ T) (ht' : t' ∈ T) {a b c : I}
    (hs : SideOf t a b c) (hs' : SideOf t' b a c) : False := by
  have o1 : orient (pl t.1) (pl t.2.1) (pl t.2.2) = orient (pl a) (pl b) (pl c) := hs.orient
  have o2 : orient (pl t'.1) (pl t'.2.1) (pl t'.2.2) = orient (pl b) (pl a) (pl c) := hs'.orient
  have o3 : orient (pl b) (pl a) (pl c) = -orient (pl a) (pl b) (pl c) := by simp only [orient]; ring
  have p1 := h.pos t ht
  have p2 := h.pos t' ht'
  have z : orient (pl a) (pl b) (pl c) = 0 := by linarith
  obtain ⟨r, hr, hf⟩ := h.flat t ht (by rw [o1, z])
  obtain ⟨r', hr', hf'⟩ := h.flat t' ht' (by rw [o2, o3, z, neg_zero])
  have hab : pl a ≠ pl b := by
    obtain ⟨d1, d2, d3⟩ := h.dist t ht
    rcases hs with rfl | rfl | rfl
    · exact d1
    · exact d2
    · exact d3
  obtain ⟨u, v, huv, hup, ha, hb, hc⟩ : ∃ u v, u ≠ v ∧ Upward u v ∧ orient u v (pl a) = 0 ∧ orient u v (pl b) = 0 ∧
      orient u v (pl c) = 0 := by
    rcases upward_or hab with k | k
    · exact ⟨pl a, pl b, hab, k, by simp only [orient]; ring, by simp only [orient]; ring, z⟩
    · exact ⟨pl b, pl a, hab.symm, k, by simp only [orient]; ring, by simp only [orient]; ring, by rw [o3, z, neg_zero]⟩
  have hl : ∀ {x y w : I}, FlatTri (pl x) (pl y) (pl w) → orient u v (pl x) = 0 → orient u v (pl y) = 0 →
      orient u v (pl w) = 0 → along u v (pl x) < along u v (pl y) ∧ along u v (pl y) < along u v (pl w) :=
    fun hf h1 h2 h3 => hf.along hup huv h1 h2 h3
  obtain ⟨x, y, w⟩ := r
  obtain ⟨x', y', w'⟩ := r'
  obtain ⟨t1, t2, t3⟩ := t
  obtain ⟨s1, s2, s3⟩ := t'
  simp only [Rot, SideOf, Prod.mk.injEq] at hr hr' hs hs' hf hf'
  rcases hr with ⟨rfl, rfl, rfl⟩ | ⟨rfl, rfl, rfl⟩ | ⟨rfl, rfl, rfl⟩ <;>
  rcases hr' with ⟨rfl, rfl, rfl⟩ | ⟨rfl, rfl, rfl⟩ | ⟨rfl, rfl, rfl⟩ <;>
  rcases hs with ⟨rfl, rfl, rfl⟩ | ⟨rfl, rfl, rfl⟩ | ⟨rfl, rfl, rfl⟩ <;>
  rcases hs' with ⟨rfl, rfl, rfl⟩ | ⟨rfl, rfl, rfl⟩ | ⟨rfl, rfl, rfl⟩ <;>
  (obtain ⟨k1, k2⟩ := hl hf (by assumption) (by assumption) (by assumption)
   obtain ⟨k3, k4⟩ := hl hf' (by assumption) (by assumption) (by assumption)
   linarith)

/-- No two triangles have the same corners. -/
theorem MeshI.corners_unique (h : MeshI pl gI T fwd) (hv : ValidPolys (gI.map (List.map pl))) {i j : Nat}
    {t t' : I × I × I} (hi : T[i]? = some t) (hj : T[j]? = some t') (hc : ∀ v, Corner t v → Corner t' v) : i = j := by
  have ht := List.mem_of_getElem? hi
  have ht' := List.mem_of_getElem? hj
  obtain ⟨d1, d2, d3⟩ := h.dist t ht
  have e1 : t.1 ≠ t.2.1 := fun e => d1 (congrArg pl e)
  have e2 : t.2.1 ≠ t.2.2 := fun e => d2 (congrArg pl e)
  have e3 : t.2.2 ≠ t.1 := fun e => d3 (congrArg pl e)
  have c1 := hc t.1 (.inl rfl)
  have c2 := hc t.2.1 (.inr (.inl rfl))
  have c3 := hc t.2.2 (.inr (.inr rfl))
  have key : (t.1, t.2.1) ∈ sides t' ∨ SideOf t' t.2.1 t.1 t.2.2 := by
    obtain ⟨a, b, c⟩ := t
    obtain ⟨a', b', c'⟩ := t'
    simp only [Corner] at c1 c2 c3 e1 e2 e3
    rcases c1 with rfl | rfl | rfl <;> rcases c2 with rfl | rfl | rfl <;> rcases c3 with rfl | rfl | rfl <;>
      first
      | exact absurd rfl e1
      | exact absurd rfl e2
      | exact absurd rfl e3
      | (left; simp [sides]; done)
      | (right; simp [SideOf]; done)
  rcases key with k | k
  · exact h.side_unique hv hi hj (by simp [sides]) k
  · exact (h.no_mirror ht ht' (.inl rfl) k).elim

end

end Tri
