import Mathlib.Tactic.Linarith
import Mathlib.Tactic.Ring
import Mathlib.Algebra.Order.Field.Rat
import Verif.Spec.Polygon

/-!
# A sufficient check for validity, for examples
-/

namespace Tri

variable {K : Type} [Field K] [LinearOrder K] [IsStrictOrderedRing K]

/-- Both points are strictly on one side of the line. -/
def sepBy (e f : Coords K × Coords K) : Prop :=
  (0 < orient e.1 e.2 f.1 ∧ 0 < orient e.1 e.2 f.2) ∨ (orient e.1 e.2 f.1 < 0 ∧ orient e.1 e.2 f.2 < 0)

/-- One end is an end of the other segment, the other end is off its line. -/
def touchBy (e f : Coords K × Coords K) : Prop :=
  ((f.1 = e.1 ∨ f.1 = e.2) ∧ orient e.1 e.2 f.2 ≠ 0) ∨ ((f.2 = e.1 ∨ f.2 = e.2) ∧ orient e.1 e.2 f.1 ≠ 0)

/-- The second segment goes on where the first one ends, and does not turn back sharply. -/
def goesOn (e f : Coords K × Coords K) : Prop :=
  f.1 = e.2 ∧ (e.1.x - e.2.x) * (f.2.x - f.1.x) + (e.1.y - e.2.y) * (f.2.y - f.1.y) < 0

/-- Enough for two edges to meet at most in a common end. -/
def segsOk (e f : Coords K × Coords K) : Prop :=
  e = f ∨ sepBy e f ∨ sepBy f e ∨ touchBy e f ∨ goesOn e f ∨ goesOn f e

instance (e f : Coords K × Coords K) : Decidable (segsOk e f) := by
  unfold segsOk sepBy touchBy goesOn; infer_instance

theorem orient_onSeg {e : Coords K × Coords K} {q : Coords K} (h : OnSeg e q) : orient e.1 e.2 q = 0 := by
  obtain ⟨t, -, -, hx, hy⟩ := h
  unfold orient; rw [hx, hy]; ring

theorem sepBy_sound {e f : Coords K × Coords K} (h : sepBy e f) (q : Coords K) (h1 : OnSeg e q)
    (h2 : OnSeg f q) : False := by
  have h0 := orient_onSeg h1
  obtain ⟨t, ht0, ht1, hx, hy⟩ := h2
  have hq : orient e.1 e.2 q = (1 - t) * orient e.1 e.2 f.1 + t * orient e.1 e.2 f.2 := by
    unfold orient; rw [hx, hy]; ring
  rcases h with ⟨a, b⟩ | ⟨a, b⟩
  · rcases ht0.lt_or_eq with h | h
    · have := mul_pos h b
      have := mul_nonneg (sub_nonneg.2 ht1) a.le
      linarith
    · rw [← h] at hq; linarith
  · rcases ht0.lt_or_eq with h | h
    · have := mul_neg_of_pos_of_neg h b
      have := mul_nonpos_of_nonneg_of_nonpos (sub_nonneg.2 ht1) a.le
      linarith
    · rw [← h] at hq; linarith

theorem coords_ext {a b : Coords K} (hx : a.x = b.x) (hy : a.y = b.y) : a = b := by
  cases a; cases b; simp_all

theorem goesOn_sound {e f : Coords K × Coords K} (h : goesOn e f) (q : Coords K)
    (h1 : OnSeg e q) (h2 : OnSeg f q) : (q = e.1 ∨ q = e.2) ∧ (q = f.1 ∨ q = f.2) := by
  obtain ⟨he, hd⟩ := h
  obtain ⟨s, -, hs1, hx, hy⟩ := h1
  obtain ⟨t, ht0, -, hx', hy'⟩ := h2
  have e1 : (1 - s) * ((e.1.x - e.2.x) * (f.2.x - f.1.x) + (e.1.y - e.2.y) * (f.2.y - f.1.y)) =
      t * ((f.2.x - f.1.x) * (f.2.x - f.1.x) + (f.2.y - f.1.y) * (f.2.y - f.1.y)) := by
    have a1 : (1 - s) * (e.1.x - e.2.x) = q.x - e.2.x := by rw [hx]; ring
    have a2 : (1 - s) * (e.1.y - e.2.y) = q.y - e.2.y := by rw [hy]; ring
    have b1 : t * (f.2.x - f.1.x) = q.x - e.2.x := by rw [hx', he]; ring
    have b2 : t * (f.2.y - f.1.y) = q.y - e.2.y := by rw [hy', he]; ring
    have l : (1 - s) * ((e.1.x - e.2.x) * (f.2.x - f.1.x) + (e.1.y - e.2.y) * (f.2.y - f.1.y)) =
      ((1 - s) * (e.1.x - e.2.x)) * (f.2.x - f.1.x) + ((1 - s) * (e.1.y - e.2.y)) * (f.2.y - f.1.y) := by ring
    have r : t * ((f.2.x - f.1.x) * (f.2.x - f.1.x) + (f.2.y - f.1.y) * (f.2.y - f.1.y)) =
      (t * (f.2.x - f.1.x)) * (f.2.x - f.1.x) + (t * (f.2.y - f.1.y)) * (f.2.y - f.1.y) := by ring
    rw [l, r, a1, a2, b1, b2]
  have e2 : 0 ≤ t * ((f.2.x - f.1.x) * (f.2.x - f.1.x) + (f.2.y - f.1.y) * (f.2.y - f.1.y)) :=
    mul_nonneg ht0 (add_nonneg (mul_self_nonneg _) (mul_self_nonneg _))
  have hs : s = 1 := by
    by_contra hne
    have := mul_neg_of_pos_of_neg (sub_pos.2 (lt_of_le_of_ne hs1 hne)) hd
    linarith
  have hq : q = e.2 := coords_ext (by rw [hx, hs]; ring) (by rw [hy, hs]; ring)
  exact ⟨.inr hq, .inl (by rw [he, hq])⟩

theorem segsOk_sound {e f : Coords K × Coords K} (h : segsOk e f) (hne : e ≠ f) (q : Coords K)
    (h1 : OnSeg e q) (h2 : OnSeg f q) : (q = e.1 ∨ q = e.2) ∧ (q = f.1 ∨ q = f.2) := by
  rcases h with h | h | h | h | h | h
  · exact absurd h hne
  · exact (sepBy_sound h q h1 h2).elim
  · exact (sepBy_sound h q h2 h1).elim
  rotate_left
  · exact goesOn_sound h q h1 h2
  · exact (goesOn_sound h q h2 h1).symm
  · have h0 := orient_onSeg h1
    obtain ⟨t, -, -, hx, hy⟩ := h2
    have hq : orient e.1 e.2 q = (1 - t) * orient e.1 e.2 f.1 + t * orient e.1 e.2 f.2 := by
      unfold orient; rw [hx, hy]; ring
    have z1 : ∀ a b : Coords K, orient a b a = 0 := fun a b => by unfold orient; ring
    have z2 : ∀ a b : Coords K, orient a b b = 0 := fun a b => by unfold orient; ring
    rcases h with ⟨h, hn⟩ | ⟨h, hn⟩
    · have : orient e.1 e.2 f.1 = 0 := by
        rcases h with h | h <;> rw [h]
        · exact z1 _ _
        · exact z2 _ _
      rw [this] at hq
      have ht : t = 0 := by
        have : t * orient e.1 e.2 f.2 = 0 := by linarith
        exact (mul_eq_zero.1 this).resolve_right hn
      have hf : q = f.1 := coords_ext (by rw [hx, ht]; ring) (by rw [hy, ht]; ring)
      exact ⟨by rw [hf]; exact h, .inl hf⟩
    · have : orient e.1 e.2 f.2 = 0 := by
        rcases h with h | h <;> rw [h]
        · exact z1 _ _
        · exact z2 _ _
      rw [this] at hq
      have ht : t = 1 := by
        have : (1 - t) * orient e.1 e.2 f.1 = 0 := by linarith
        have := (mul_eq_zero.1 this).resolve_right hn
        linarith
      have hf : q = f.2 := coords_ext (by rw [hx, ht]; ring) (by rw [hy, ht]; ring)
      exact ⟨by rw [hf]; exact h, .inr hf⟩

/-- The check for a whole polygon set. -/
def polysOk (gs : List (List (Coords K))) : Prop :=
  (∀ g ∈ gs, 3 ≤ g.length) ∧ gs.flatten.Nodup ∧
    ∀ e ∈ gs.flatMap cycleEdges, ∀ f ∈ gs.flatMap cycleEdges, segsOk e f

instance (gs : List (List (Coords K))) : Decidable (polysOk gs) := by
  unfold polysOk; infer_instance

theorem polysOk_sound {gs : List (List (Coords K))} (h : polysOk gs) : ValidPolys gs :=
  ⟨h.1, h.2.1, fun e he f hf hne q h1 h2 => segsOk_sound (h.2.2 e he f hf) hne q h1 h2⟩

end Tri
