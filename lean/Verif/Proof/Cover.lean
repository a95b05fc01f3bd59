import Mathlib.Tactic.Linarith
import Mathlib.Tactic.Ring
import Mathlib.Tactic.FieldSimp
import Verif.Proof.ChainSum
import Verif.Spec.Region

/-!
# How often triangles contain a point
-/

set_option linter.unusedSectionVars false

namespace Tri

variable {K : Type} [Field K] [LinearOrder K] [IsStrictOrderedRing K]

/-- The edge from `b` up to `a` passes left of `q`. -/
def UpLeft (q b a : Coords K) : Prop := b.y ≤ q.y ∧ q.y < a.y ∧ orient b a q < 0

instance (q b a : Coords K) : Decidable (UpLeft q b a) := by unfold UpLeft; infer_instance

/-- How the edge from `a` to `b` crosses the ray from `q` to the left: `1` if it goes down there, `-1` if up. -/
def fy (q a b : Coords K) : Int := (if UpLeft q b a then 1 else 0) - (if UpLeft q a b then 1 else 0)

theorem fy_anti (q a b : Coords K) : fy q a b = - fy q b a := by unfold fy; omega

theorem orient_rev (a b q : Coords K) : orient b a q = - orient a b q := by unfold orient; ring

theorem orient_rot (a b c : Coords K) : orient b c a = orient a b c := by unfold orient; ring

theorem onSeg_rev {a b q : Coords K} (h : OnSeg (a, b) q) : OnSeg (b, a) q := by
  obtain ⟨t, h0, h1, hx, hy⟩ := h
  refine ⟨1 - t, by linarith, by linarith, ?_, ?_⟩
  · simp only at hx ⊢; rw [hx]; ring
  · simp only at hy ⊢; rw [hy]; ring

/-- A point on the line of an edge, at a height of the edge. -/
theorem onSeg_height {a b q : Coords K} (h1 : b.y ≤ q.y) (h2 : q.y < a.y) (h : orient a b q = 0) : OnSeg (a, b) q := by
  have hd : 0 < a.y - b.y := by linarith
  refine ⟨(a.y - q.y) / (a.y - b.y), div_nonneg (by linarith) hd.le, (div_le_one hd).2 (by linarith), ?_, ?_⟩
  · simp only
    have : q.x - a.x = (a.y - q.y) * (b.x - a.x) / (a.y - b.y) := by
      rw [eq_div_iff hd.ne']
      unfold orient at h
      linarith
    rw [div_mul_eq_mul_div, ← this]; ring
  · simp only
    have : (a.y - q.y) / (a.y - b.y) * (b.y - a.y) = -(a.y - q.y) := by
      field_simp; ring
    rw [this]; ring

theorem onSeg_flat {b c q : Coords K} (h1 : b.y = q.y) (h2 : c.y = q.y) (h3 : b.x < q.x) (h4 : q.x < c.x) :
    OnSeg (b, c) q := by
  have hd : 0 < c.x - b.x := by linarith
  refine ⟨(q.x - b.x) / (c.x - b.x), div_nonneg (by linarith) hd.le, (div_le_one hd).2 (by linarith), ?_, ?_⟩
  · simp only; rw [div_mul_cancel₀ _ hd.ne']; ring
  · simp only; rw [h1, h2]; ring

/-- The heights of the corners around the height of `q`. -/
theorem bary (a b c q : Coords K) :
    orient b c q * (a.y - q.y) + orient c a q * (b.y - q.y) + orient a b q * (c.y - q.y) = 0 := by
  unfold orient; ring

theorem orient_split (a b c q : Coords K) : orient a b c = orient a b q + orient b c q + orient c a q := by
  unfold orient; ring

theorem fy_above {q a b : Coords K} (ha : q.y < a.y) (hb : q.y < b.y) : fy q a b = 0 := by
  unfold fy UpLeft
  simp [not_le.2 ha, not_le.2 hb]

theorem fy_beneath {q a b : Coords K} (ha : a.y ≤ q.y) (hb : b.y ≤ q.y) : fy q a b = 0 := by
  unfold fy UpLeft
  simp [not_lt.2 ha, not_lt.2 hb]

theorem fy_down {q a b : Coords K} (ha : q.y < a.y) (hb : b.y ≤ q.y) : fy q a b = if 0 < orient a b q then 1 else 0 := by
  have h1 : UpLeft q b a ↔ 0 < orient a b q := by
    unfold UpLeft; rw [orient_rev a b q]; simp [ha, hb]
  have h2 : ¬ UpLeft q a b := fun h => absurd h.1 (not_le.2 ha)
  unfold fy
  simp only [h1, h2, if_false, sub_zero]

theorem fy_up {q a b : Coords K} (ha : a.y ≤ q.y) (hb : q.y < b.y) : fy q a b = if orient a b q < 0 then -1 else 0 := by
  unfold fy UpLeft
  simp only [ha, hb, not_le.2 hb, true_and, false_and, if_false, zero_sub]
  split <;> simp

/-- `q` is strictly left of all three sides. -/
def InCCW (a b c q : Coords K) : Prop := 0 < orient a b q ∧ 0 < orient b c q ∧ 0 < orient c a q

instance (a b c q : Coords K) : Decidable (InCCW a b c q) := by unfold InCCW; infer_instance

theorem InCCW.rot {a b c q : Coords K} : InCCW b c a q ↔ InCCW a b c q := by
  unfold InCCW; tauto

/-- `q` is on no side. -/
def OffT (a b c q : Coords K) : Prop := ¬ OnSeg (a, b) q ∧ ¬ OnSeg (b, c) q ∧ ¬ OnSeg (c, a) q

theorem OffT.rot {a b c q : Coords K} (h : OffT a b c q) : OffT b c a q := ⟨h.2.1, h.2.2, h.1⟩

theorem wind_one {a b c q : Coords K} (ho : 0 ≤ orient a b c) (hq : OffT a b c q) (ha : q.y < a.y) (hb : b.y ≤ q.y)
    (hc : c.y ≤ q.y) : fy q a b + fy q b c + fy q c a = if InCCW a b c q then 1 else 0 := by
  rw [fy_down ha hb, fy_beneath hb hc, fy_up hc ha]
  have h1 : orient a b q ≠ 0 := fun h => hq.1 (onSeg_height hb ha h)
  have h2 : orient c a q ≠ 0 := fun h => hq.2.2 (onSeg_rev (onSeg_height hc ha (by rw [orient_rev, h, neg_zero])))
  have hbar := bary a b c q
  have hs := orient_split a b c q
  have pa : 0 < a.y - q.y := by linarith
  have pb : 0 ≤ q.y - b.y := by linarith
  have pc : 0 ≤ q.y - c.y := by linarith
  rcases lt_or_gt_of_ne h1 with k1 | k1 <;> rcases lt_or_gt_of_ne h2 with k2 | k2
  · exfalso
    have e : orient b c q * (a.y - q.y) ≤ 0 := by
      have := mul_nonpos_of_nonpos_of_nonneg k1.le pc
      have := mul_nonpos_of_nonpos_of_nonneg k2.le pb
      linarith
    have : orient b c q ≤ 0 := by
      by_contra hn
      have := mul_pos (not_le.1 hn) pa
      linarith
    linarith
  · have : ¬ InCCW a b c q := fun h => absurd h.1 (not_lt.2 k1.le)
    simp [this, not_lt.2 k1.le, not_lt.2 k2.le]
  · have : ¬ InCCW a b c q := fun h => absurd h.2.2 (not_lt.2 k2.le)
    simp [this, k1, k2]
  · have e : orient b c q * (a.y - q.y) = orient c a q * (q.y - b.y) + orient a b q * (q.y - c.y) := by linarith
    have h3 : 0 < orient b c q := by
      by_contra hn
      have e1 := mul_nonpos_of_nonpos_of_nonneg (not_lt.1 hn) pa.le
      have e2 := mul_nonneg k2.le pb
      have e3 := mul_nonneg k1.le pc
      have e4 : orient c a q * (q.y - b.y) = 0 := by linarith
      have e5 : orient a b q * (q.y - c.y) = 0 := by linarith
      have yb : b.y = q.y := by
        rcases mul_eq_zero.1 e4 with h | h
        · exact absurd h k2.ne'
        · linarith
      have yc : c.y = q.y := by
        rcases mul_eq_zero.1 e5 with h | h
        · exact absurd h k1.ne'
        · linarith
      refine hq.2.1 (onSeg_flat yb yc ?_ ?_)
      · have : orient a b q = (a.y - q.y) * (q.x - b.x) := by unfold orient; rw [yb]; ring
        rw [this] at k1
        have := (mul_pos_iff_of_pos_left pa).1 k1
        linarith
      · have : orient c a q = (a.y - q.y) * (c.x - q.x) := by unfold orient; rw [yc]; ring
        rw [this] at k2
        have := (mul_pos_iff_of_pos_left pa).1 k2
        linarith
    have : InCCW a b c q := ⟨k1, h3, k2⟩
    simp [this, k1, not_lt.2 k2.le]

theorem wind_two {a b c q : Coords K} (ho : 0 ≤ orient a b c) (hq : OffT a b c q) (ha : q.y < a.y) (hb : q.y < b.y)
    (hc : c.y ≤ q.y) : fy q a b + fy q b c + fy q c a = if InCCW a b c q then 1 else 0 := by
  rw [fy_above ha hb, fy_down hb hc, fy_up hc ha]
  have h1 : orient b c q ≠ 0 := fun h => hq.2.1 (onSeg_height hc hb h)
  have h2 : orient c a q ≠ 0 := fun h => hq.2.2 (onSeg_rev (onSeg_height hc ha (by rw [orient_rev, h, neg_zero])))
  have hbar := bary a b c q
  have hs := orient_split a b c q
  have pa : 0 < a.y - q.y := by linarith
  have pb : 0 < b.y - q.y := by linarith
  have pc : 0 ≤ q.y - c.y := by linarith
  rcases lt_or_gt_of_ne h1 with k1 | k1 <;> rcases lt_or_gt_of_ne h2 with k2 | k2
  · exfalso
    have e1 := mul_neg_of_neg_of_pos k1 pa
    have e2 := mul_neg_of_neg_of_pos k2 pb
    have : orient a b q ≤ 0 := by
      by_contra hn
      have := mul_nonneg (not_le.1 hn).le pc
      linarith
    linarith
  · have : ¬ InCCW a b c q := fun h => absurd h.2.1 (not_lt.2 k1.le)
    simp [this, not_lt.2 k1.le, not_lt.2 k2.le]
  · have : ¬ InCCW a b c q := fun h => absurd h.2.2 (not_lt.2 k2.le)
    simp [this, k1, k2]
  · have h3 : 0 < orient a b q := by
      by_contra hn
      have e1 := mul_pos k1 pa
      have e2 := mul_pos k2 pb
      have := mul_nonpos_of_nonpos_of_nonneg (not_lt.1 hn) pc
      linarith
    have : InCCW a b c q := ⟨h3, k1, k2⟩
    simp [this, k1, not_lt.2 k2.le]

/-- A counterclockwise triangle winds once around the points in it, and not around others. -/
theorem wind_tri {a b c q : Coords K} (ho : 0 ≤ orient a b c) (hq : OffT a b c q) :
    fy q a b + fy q b c + fy q c a = if InCCW a b c q then 1 else 0 := by
  have hbar := bary a b c q
  have r1 : fy q a b + fy q b c + fy q c a = fy q b c + fy q c a + fy q a b := by omega
  have r2 : fy q a b + fy q b c + fy q c a = fy q c a + fy q a b + fy q b c := by omega
  have o1 : 0 ≤ orient b c a := by rw [orient_rot]; exact ho
  have o2 : 0 ≤ orient c a b := by rw [orient_rot, orient_rot]; exact ho
  rcases lt_or_ge q.y a.y with ha | ha <;> rcases lt_or_ge q.y b.y with hb | hb <;> rcases lt_or_ge q.y c.y with hc | hc
  · have : ¬ InCCW a b c q := by
      rintro ⟨h1, h2, h3⟩
      have e1 := mul_pos h2 (sub_pos.2 ha)
      have e2 := mul_pos h3 (sub_pos.2 hb)
      have e3 := mul_pos h1 (sub_pos.2 hc)
      linarith
    simp [this, fy_above ha hb, fy_above hb hc, fy_above hc ha]
  · exact wind_two ho hq ha hb hc
  · rw [r2, wind_two o2 hq.rot.rot hc ha hb]
    simp only [InCCW.rot (a := b), InCCW.rot (a := a)]
  · exact wind_one ho hq ha hb hc
  · rw [r1, wind_two o1 hq.rot hb hc ha]
    simp only [InCCW.rot]
  · rw [r1, wind_one o1 hq.rot hb hc ha]
    simp only [InCCW.rot]
  · rw [r2, wind_one o2 hq.rot.rot hc ha hb]
    simp only [InCCW.rot (a := b), InCCW.rot (a := a)]
  · have : ¬ InCCW a b c q := by
      rintro ⟨h1, h2, h3⟩
      have e1 := mul_nonneg h2.le (sub_nonneg.2 ha)
      have e2 := mul_nonneg h3.le (sub_nonneg.2 hb)
      have e3 := mul_nonneg h1.le (sub_nonneg.2 hc)
      have z1 : orient b c q * (q.y - a.y) = 0 := by linarith
      have z2 : orient c a q * (q.y - b.y) = 0 := by linarith
      have ya : a.y = q.y := by
        rcases mul_eq_zero.1 z1 with h | h
        · exact absurd h h2.ne'
        · linarith
      have yb : b.y = q.y := by
        rcases mul_eq_zero.1 z2 with h | h
        · exact absurd h h3.ne'
        · linarith
      have : orient a b q = 0 := by unfold orient; rw [ya, yb]; ring
      linarith
    simp [this, fy_beneath ha hb, fy_beneath hb hc, fy_beneath hc ha]

theorem inTriangle_iff {a b c q : Coords K} (ho : 0 ≤ orient a b c) : InTriangle (a, b, c) q ↔ InCCW a b c q := by
  constructor
  · rintro (h | ⟨h1, h2, h3⟩)
    · exact h
    · have := orient_split a b c q
      simp only at h1 h2 h3
      linarith
  · exact .inl

/-- The same for the downward ray. -/
def flip (q : Coords K) : Coords K := ⟨q.y, q.x⟩

theorem orient_flip (a b c : Coords K) : orient (flip a) (flip b) (flip c) = - orient a b c := by
  simp only [orient, flip]; ring

theorem onSeg_flip {a b q : Coords K} : OnSeg (flip a, flip b) (flip q) ↔ OnSeg (a, b) q := by
  constructor <;> rintro ⟨t, h0, h1, hx, hy⟩ <;> exact ⟨t, h0, h1, hy, hx⟩

/-- How the edge from `a` to `b` crosses the ray from `q` downwards: `1` if it goes right there, `-1` if left. -/
def fv (q a b : Coords K) : Int := fy (flip q) (flip b) (flip a)

theorem fv_anti (q a b : Coords K) : fv q a b = - fv q b a := fy_anti _ _ _

theorem wind_tri_v {a b c q : Coords K} (ho : 0 ≤ orient a b c) (hq : OffT a b c q) :
    fv q a b + fv q b c + fv q c a = if InCCW a b c q then 1 else 0 := by
  have h := wind_tri (a := flip c) (b := flip b) (c := flip a) (q := flip q)
    (by rw [orient_flip]; have : orient c b a = - orient a b c := by { unfold orient; ring }
        rw [this, neg_neg]; exact ho)
    ⟨fun h => hq.2.1 (onSeg_rev (onSeg_flip.1 h)), fun h => hq.1 (onSeg_rev (onSeg_flip.1 h)),
      fun h => hq.2.2 (onSeg_rev (onSeg_flip.1 h))⟩
  have e : InCCW (flip c) (flip b) (flip a) (flip q) ↔ InCCW a b c q := by
    unfold InCCW
    rw [orient_flip, orient_flip, orient_flip, orient_rev b c, orient_rev a b, orient_rev c a]
    simp only [neg_neg]
    tauto
  simp only [e] at h
  unfold fv
  rw [← h]; omega

/-! ## Crossing -/

theorem fy_zero {q a b : Coords K} (h : ¬ Crosses q (a, b)) : fy q a b = 0 := by
  unfold Crosses at h
  push Not at h
  unfold fy UpLeft
  have h1 : ¬ (a.y ≤ q.y ∧ q.y < b.y ∧ orient a b q < 0) := fun k => absurd k.2.2 (not_lt.2 (h.1 k.1 k.2.1))
  have h2 : ¬ (b.y ≤ q.y ∧ q.y < a.y ∧ orient b a q < 0) := fun k => absurd k.2.2 (not_lt.2 (h.2 k.1 k.2.1))
  simp [h1, h2]

theorem fy_odd {q a b : Coords K} (h : Crosses q (a, b)) : fy q a b = 1 ∨ fy q a b = -1 := by
  unfold Crosses at h
  unfold fy UpLeft
  rcases h with h | h
  · right
    have h2 : ¬ (b.y ≤ q.y ∧ q.y < a.y ∧ orient b a q < 0) := fun k => absurd (lt_of_lt_of_le h.2.1 k.1) (lt_irrefl _)
    simp only at h
    simp [h, h2]
  · left
    have h2 : ¬ (a.y ≤ q.y ∧ q.y < b.y ∧ orient a b q < 0) := fun k => absurd (lt_of_lt_of_le h.2.1 k.1) (lt_irrefl _)
    simp only at h
    simp [h, h2]

theorem crosses_swap {q : Coords K} {e : Coords K × Coords K} : Crosses q e.swap ↔ Crosses q e := by
  unfold Crosses; simp only [Prod.fst_swap, Prod.snd_swap]; exact or_comm

theorem fy_parity (q a b : Coords K) : fy q a b % 2 = if Crosses q (a, b) then 1 else 0 := by
  split
  · rename_i h
    rcases fy_odd h with h | h <;> rw [h] <;> rfl
  · rename_i h
    rw [fy_zero h]; rfl

/-- The parity of a crossing sum does not depend on the directions. -/
theorem esum_fy_parity (q : Coords K) (es : List (Coords K × Coords K)) :
    esum (fy q) es % 2 = ((es.filter fun e => Crosses q e).length : Int) % 2 := by
  induction es with
  | nil => rfl
  | cons e es ih =>
    have e1 : esum (fy q) (e :: es) = fy q e.1 e.2 + esum (fy q) es := by simp [esum]
    rw [e1, Int.add_emod, fy_parity, ih, List.filter_cons]
    by_cases h : Crosses q e
    · have : Crosses q (e.1, e.2) := h
      simp only [this, if_true, decide_true, List.length_cons]
      push_cast
      omega
    · have : ¬ Crosses q (e.1, e.2) := h
      simp only [this, if_false, decide_false, Bool.false_eq_true]
      omega

/-- Strict and half-open rules agree. -/
theorem upLeft_iff {lo hi q : Coords K} (hb : below lo hi) :
    UpLeft q lo hi ↔ below lo q ∧ below q hi ∧ orient lo hi q < 0 := by
  have hle : 0 ≤ hi.y - lo.y := by rcases hb with h | h <;> [linarith; linarith [h.1]]
  constructor
  · rintro ⟨h1, h2, h3⟩
    refine ⟨?_, .inl h2, h3⟩
    rcases lt_or_eq_of_le h1 with h | h
    · exact .inl h
    · refine .inr ⟨h, ?_⟩
      by_contra hn
      have : orient lo hi q = (hi.y - lo.y) * (lo.x - q.x) := by unfold orient; rw [← h]; ring
      have := mul_nonneg hle (sub_nonneg.2 (not_lt.1 hn))
      linarith
  · rintro ⟨h1, h2, h3⟩
    refine ⟨?_, ?_, h3⟩
    · rcases h1 with h | h
      · exact h.le
      · exact h.1.le
    · rcases h2 with h | ⟨h, h'⟩
      · exact h
      · exfalso
        have : orient lo hi q = (hi.y - lo.y) * (hi.x - q.x) := by unfold orient; rw [h]; ring
        have := mul_nonneg hle (sub_pos.2 h').le
        linarith

theorem not_upLeft_rev {lo hi q : Coords K} (hb : below lo hi) : ¬ UpLeft q hi lo := by
  rintro ⟨h1, h2, -⟩
  rcases hb with h | h
  · linarith
  · linarith [h.1]

end Tri
