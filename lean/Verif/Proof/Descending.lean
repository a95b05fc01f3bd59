import Verif.Proof.ChainSum
import Verif.Spec.Polygon
import Verif.Spec.Geometry
import Mathlib.Tactic.Linarith
import Mathlib.Tactic.LinearCombination
import Mathlib.Tactic.Ring

/-!
# A chain going down on one side of the line through its ends is a valid polygon
-/

set_option linter.unusedSectionVars false

namespace Tri

variable {K : Type} [Field K] [LinearOrder K] [IsStrictOrderedRing K]

theorem mem_of_pairs {α : Type} {l : List α} {e : α × α} (h : e ∈ pairs l) : e.1 ∈ l ∧ e.2 ∈ l := by
  rw [← zip_tail] at h
  obtain ⟨a, b⟩ := e
  obtain ⟨h1, h2⟩ := List.of_mem_zip h
  exact ⟨h1, List.mem_of_mem_tail h2⟩

theorem pairs_down {l : List (Coords K)} (h : l.Pairwise fun a b => b.y < a.y) {e : Coords K × Coords K} (he : e ∈ pairs l) :
    e.2.y < e.1.y := by
  induction l with
  | nil => cases he
  | cons a l ih =>
    cases l with
    | nil => cases he
    | cons b l =>
      rw [List.pairwise_cons] at h
      rcases List.mem_cons.1 he with rfl | he
      · exact h.1 b (by simp)
      · exact ih h.2 he

/-- Of two consecutive pairs one comes first. -/
theorem pairs_sep {l : List (Coords K)} (h : l.Pairwise fun a b => b.y < a.y) {e f : Coords K × Coords K} (he : e ∈ pairs l)
    (hf : f ∈ pairs l) (hne : e ≠ f) : (f.1 = e.2 ∨ f.1.y < e.2.y) ∨ (e.1 = f.2 ∨ e.1.y < f.2.y) := by
  induction l with
  | nil => cases he
  | cons a l ih =>
    cases l with
    | nil => cases he
    | cons b l =>
      rw [List.pairwise_cons] at h
      have key : ∀ f ∈ pairs (b :: l), f.1 = b ∨ f.1.y < b.y := by
        intro f hf
        rcases List.mem_cons.1 (mem_of_pairs hf).1 with h' | h'
        · exact .inl h'
        · exact .inr ((List.pairwise_cons.1 h.2).1 _ h')
      rcases List.mem_cons.1 he with rfl | he <;> rcases List.mem_cons.1 hf with rfl | hf
      · exact absurd rfl hne
      · exact .inl (key f hf)
      · exact .inr (key e he)
      · exact ih h.2 he hf

theorem OnSeg.at_end {e : Coords K × Coords K} {q : Coords K} (h : OnSeg e q) (hd : e.2.y < e.1.y) :
    (e.2.y ≤ q.y ∧ q.y ≤ e.1.y) ∧ (q.y = e.2.y → q = e.2) ∧ (q.y = e.1.y → q = e.1) := by
  obtain ⟨⟨ax, ay⟩, ⟨bx, by'⟩⟩ := e
  obtain ⟨qx, qy⟩ := q
  obtain ⟨t, t0, t1, hx, hy⟩ := h
  simp only at hd hx hy ⊢
  refine ⟨⟨by nlinarith, by nlinarith⟩, fun h => ?_, fun h => ?_⟩
  · have : (1 - t) * (ay - by') = 0 := by linear_combination h - hy
    have ht : t = 1 := by
      rcases mul_eq_zero.1 this with h | h
      · linarith
      · linarith
    subst ht
    rw [hx, hy]; simp
  · have : t * (ay - by') = 0 := by linear_combination hy - h
    have ht : t = 0 := by
      rcases mul_eq_zero.1 this with h | h
      · exact h
      · linarith
    subst ht
    rw [hx, hy]; simp

/-- A chain with a neighbouring base. -/
theorem base_meet {x z a b q : Coords K} (ha : orient z x a < 0 ∨ a = x) (hb : orient z x b < 0 ∨ b = z)
    (hab : ¬ (a = x ∧ b = z)) (h1 : OnSeg (a, b) q) (h2 : OnSeg (z, x) q) :
    (q = a ∨ q = b) ∧ (q = z ∨ q = x) := by
  obtain ⟨t, t0, t1, hx, hy⟩ := h1
  obtain ⟨s, -, -, hx', hy'⟩ := h2
  simp only at hx hy hx' hy'
  have hz : orient z x q = 0 := by
    simp only [orient, hx', hy']; ring
  have hcomb : (1 - t) * orient z x a + t * orient z x b = 0 := by
    rw [← hz]; simp only [orient, hx, hy]; ring
  have hxx : orient z x x = 0 := by simp only [orient]; ring
  have hzz : orient z x z = 0 := by simp only [orient]; ring
  rcases ha with ha | rfl
  · have ht : t = 1 := by
      by_contra hne
      have : t < 1 := lt_of_le_of_ne t1 hne
      have hb' : orient z x b ≤ 0 := by
        rcases hb with hb | rfl
        · exact hb.le
        · exact hzz.le
      nlinarith
    subst ht
    have hq : q = b := by
      obtain ⟨qx, qy⟩ := q; obtain ⟨bx, by'⟩ := b
      simp only at hx hy
      rw [hx, hy]; simp
    subst hq
    rcases hb with hb | rfl
    · rw [hz] at hb; exact absurd hb (lt_irrefl _)
    · exact ⟨.inr rfl, .inl rfl⟩
  · rcases hb with hb | rfl
    · rw [hxx] at hcomb
      have ht : t = 0 := by
        rcases mul_eq_zero.1 (show t * orient z a b = 0 by linarith) with h | h
        · exact h
        · rw [h] at hb; exact absurd hb (lt_irrefl _)
      subst ht
      have hq : q = a := by
        obtain ⟨qx, qy⟩ := q; obtain ⟨ax, ay⟩ := a
        simp only at hx hy
        rw [hx, hy]; simp
      exact ⟨.inl hq, .inr hq⟩
    · exact absurd ⟨rfl, rfl⟩ hab

/-- Such a chain with the edge between its ends is a valid polygon. -/
theorem descending_valid {x z : Coords K} {mid : List (Coords K)} (hne : mid ≠ [])
    (hd : (x :: mid ++ [z]).Pairwise fun a b => b.y < a.y) (hs : ∀ v ∈ mid, orient z x v < 0) :
    ValidPolys [x :: mid ++ [z]] := by
  have hcyc : ∀ e, e ∈ cycleEdges (x :: mid ++ [z]) ↔ e ∈ pairs (x :: mid ++ [z]) ∨ e = (z, x) := by
    intro e
    rw [List.cons_append, cycleEdges_eq, show x :: (mid ++ [z]) ++ [x] = (x :: mid) ++ z :: [x] by simp, pairs_append]
    simp [pairs]
  have hnd : (x :: mid ++ [z]).Nodup := hd.imp fun h e => by subst e; exact lt_irrefl _ h
  have hbase : ∀ {e : Coords K × Coords K} {q}, e ∈ pairs (x :: mid ++ [z]) → OnSeg e q → OnSeg (z, x) q →
      (q = e.1 ∨ q = e.2) ∧ (q = z ∨ q = x) := by
    rintro ⟨a, b⟩ q he h1 h2
    have hdn := pairs_down hd he
    obtain ⟨m1, m2⟩ := mem_of_pairs he
    simp only at hdn m1 m2
    have hx : ∀ v ∈ x :: mid ++ [z], v.y ≤ x.y := by
      intro v hv
      rcases List.mem_cons.1 (by simpa using hv : v ∈ x :: (mid ++ [z])) with rfl | h
      · exact le_rfl
      · exact ((List.pairwise_cons.1 hd).1 v h).le
    have hz : ∀ v ∈ x :: mid ++ [z], z.y ≤ v.y := by
      intro v hv
      rcases List.mem_append.1 hv with h | h
      · exact ((List.pairwise_append.1 hd).2.2 v h z (by simp)).le
      · rw [List.mem_singleton] at h; rw [h]
    refine base_meet ?_ ?_ ?_ h1 h2
    · rcases List.mem_append.1 m1 with h | h
      · rcases List.mem_cons.1 h with h | h
        · exact .inr h
        · exact .inl (hs a h)
      · rw [List.mem_singleton] at h; subst h
        exact absurd hdn (not_lt.2 (hz b m2))
    · rcases List.mem_append.1 m2 with h | h
      · rcases List.mem_cons.1 h with h | h
        · subst h; exact absurd hdn (not_lt.2 (hx a m1))
        · exact .inl (hs b h)
      · rw [List.mem_singleton] at h; exact .inr h
    · rintro ⟨rfl, rfl⟩
      obtain ⟨m, mid, rfl⟩ := List.exists_cons_of_ne_nil hne
      rcases List.mem_cons.1 he with h | h
      · simp only [Prod.mk.injEq, true_and] at h
        subst h
        simp at hnd
      · have := (mem_of_pairs h).1
        simp only [List.cons_append, List.nodup_cons] at hnd
        exact hnd.1 (by simpa using this)
  refine ⟨fun g hg => ?_, by simpa using hnd, fun e he f hf hef q h1 h2 => ?_⟩
  · rw [List.mem_singleton] at hg
    subst hg
    obtain ⟨m, mid, rfl⟩ := List.exists_cons_of_ne_nil hne
    simp
  · simp only [List.flatMap_cons, List.flatMap_nil, List.append_nil] at he hf
    rcases (hcyc _).1 he with he | rfl <;> rcases (hcyc _).1 hf with hf | rfl
    · obtain ⟨a1, a2, a3⟩ := h1.at_end (pairs_down hd he)
      obtain ⟨b1, b2, b3⟩ := h2.at_end (pairs_down hd hf)
      rcases pairs_sep hd he hf hef with (h | h) | (h | h)
      · rw [h] at b1 b3
        have := le_antisymm b1.2 a1.1
        exact ⟨.inr (a2 this), .inl ((b3 this).trans h.symm)⟩
      · exact absurd h (not_lt.2 (a1.1.trans b1.2))
      · rw [h] at a1 a3
        have := le_antisymm a1.2 b1.1
        exact ⟨.inl ((a3 this).trans h.symm), .inr (b2 this)⟩
      · exact absurd h (not_lt.2 (b1.1.trans a1.2))
    · exact hbase he h1 h2
    · exact (hbase hf h2 h1).symm
    · exact absurd rfl hef

end Tri
