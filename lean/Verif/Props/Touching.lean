import Verif.Props.Undetected

/-!
# C61: vertices that touch an edge

The documentation asks that no edge crosses another, that each vertex is part of exactly two edges and that all vertices are distinct
(`README.md`, `lib.rs:51-54`).  A vertex in the middle of an edge of another polygon is not excluded by this.
-/

namespace Tri

section
variable {K : Type} [Field K] [LinearOrder K] [IsStrictOrderedRing K]

/-- Two edges cross: they have a point in common that is an end of neither. -/
def EdgesCross (e f : Coords K × Coords K) : Prop :=
  ∃ q, OnSeg e q ∧ OnSeg f q ∧ q ≠ e.1 ∧ q ≠ e.2 ∧ q ≠ f.1 ∧ q ≠ f.2

/-- The documented preconditions: at least three vertices in each polygon, all vertices distinct, no edge crosses another. -/
structure AsDocumented (gs : List (List (Coords K))) : Prop where
  three : ∀ g ∈ gs, 3 ≤ g.length
  distinct : gs.flatten.Nodup
  cross : ∀ e ∈ gs.flatMap cycleEdges, ∀ f ∈ gs.flatMap cycleEdges, e ≠ f → ¬ EdgesCross e f

/-- A vertex is in the middle of an edge. -/
def Touches (gs : List (List (Coords K))) : Prop :=
  ∃ v ∈ gs.flatten, ∃ e ∈ gs.flatMap cycleEdges, OnSeg e v ∧ v ≠ e.1 ∧ v ≠ e.2

/-- The ends of `f` are on one side of the line through `e`, and not both on it. -/
def oneSided (e f : Coords K × Coords K) : Bool :=
  decide ((0 ≤ orient e.1 e.2 f.1 ∧ 0 ≤ orient e.1 e.2 f.2 ∧ 0 < orient e.1 e.2 f.1 + orient e.1 e.2 f.2) ∨
    (orient e.1 e.2 f.1 ≤ 0 ∧ orient e.1 e.2 f.2 ≤ 0 ∧ orient e.1 e.2 f.1 + orient e.1 e.2 f.2 < 0))

theorem not_cross_of_oneSided {e f : Coords K × Coords K} (h : oneSided e f = true) : ¬ EdgesCross e f := by
  rintro ⟨q, ⟨t, -, -, tx, ty⟩, ⟨s, s0, s1, sx, sy⟩, -, -, h1, h2⟩
  have hs0 : 0 < s := by
    rcases s0.lt_or_eq with h | h
    · exact h
    · subst h
      refine absurd ?_ h1
      cases q; simp_all
  have hs1 : s < 1 := by
    rcases s1.lt_or_eq with h | h
    · exact h
    · subst h
      refine absurd ?_ h2
      cases q; simp_all
  have h0 : orient e.1 e.2 q = 0 := by unfold orient; rw [tx, ty]; ring
  have hq : orient e.1 e.2 q = (1 - s) * orient e.1 e.2 f.1 + s * orient e.1 e.2 f.2 := by
    unfold orient; rw [sx, sy]; ring
  rw [h0] at hq
  have h := of_decide_eq_true h
  rcases h with ⟨a, b, c⟩ | ⟨a, b, c⟩
  · rcases a.lt_or_eq with a' | a'
    · nlinarith [mul_pos (sub_pos.2 hs1) a', mul_nonneg hs0.le b]
    · rw [← a', zero_add] at c
      nlinarith [mul_pos hs0 c, mul_nonneg (sub_pos.2 hs1).le a]
  · rcases a.lt_or_eq with a' | a'
    · nlinarith [mul_neg_of_pos_of_neg (sub_pos.2 hs1) a', mul_nonpos_of_nonneg_of_nonpos hs0.le b]
    · rw [a', zero_add] at c
      nlinarith [mul_neg_of_pos_of_neg hs0 c, mul_nonpos_of_nonneg_of_nonpos (sub_pos.2 hs1).le a]

theorem EdgesCross.symm {e f : Coords K × Coords K} (h : EdgesCross e f) : EdgesCross f e := by
  obtain ⟨q, h1, h2, h3, h4, h5, h6⟩ := h
  exact ⟨q, h2, h1, h5, h6, h3, h4⟩

theorem asDocumented_of {gs : List (List (Coords K))} (h1 : ∀ g ∈ gs, 3 ≤ g.length) (h2 : gs.flatten.Nodup)
    (h3 : ∀ e ∈ gs.flatMap cycleEdges, ∀ f ∈ gs.flatMap cycleEdges, e ≠ f → oneSided e f = true ∨ oneSided f e = true) :
    AsDocumented gs := by
  refine ⟨h1, h2, fun e he f hf hn hc => ?_⟩
  rcases h3 e he f hf hn with h | h
  · exact not_cross_of_oneSided h hc
  · exact not_cross_of_oneSided h hc.symm

end

section Witness

attribute [local instance] exact

/-- A triangle with a triangular hole, a corner of which is in the middle of a side on the right. -/
def touchingRight : List (List (Coords ℚ)) := [[⟨0, 0⟩, ⟨4, 4⟩, ⟨0, 8⟩], [⟨2, 2⟩, ⟨1, 3⟩, ⟨1, 4⟩]]

/-- Its mirror image. -/
def touchingLeft : List (List (Coords ℚ)) := [[⟨0, 0⟩, ⟨-4, 4⟩, ⟨0, 8⟩], [⟨-2, 2⟩, ⟨-1, 3⟩, ⟨-1, 4⟩]]

/-- **C61.**  The triangle with the hole `touchingRight` is as documented: no edge crosses another, all vertices are distinct.  Yet
`trapezoidize` and, with every output format, `triangulate` return an internal error, in every insertion order and in both kinds of
builds. -/
theorem C61_touching_is_refused :
    AsDocumented touchingRight ∧ Touches touchingRight ∧
    ∀ o o' : List Nat, o.Perm (List.range 3) → o'.Perm (List.range 3) → ∀ dbg, ∀ fuel ≥ 60,
      trapezoidize (ordersCfg [o, o'] dbg) fuel (PolyList.nested touchingRight) id = .error (.err (.internal .segMinNotFound)) ∧
      ∀ F : FanFormat (Nat × Nat), (triangulate (ordersCfg [o, o'] dbg) fuel (PolyList.nested touchingRight) id F).2 =
        .error (.err (.trapezoidation (.internal .segMinNotFound))) := by
  refine ⟨asDocumented_of (by decide +kernel) (by decide +kernel) (by decide +kernel),
    ⟨⟨2, 2⟩, by decide +kernel, (⟨0, 0⟩, ⟨4, 4⟩), by decide +kernel, ⟨1 / 2, by norm_num, by norm_num, by norm_num, by norm_num⟩,
      by decide +kernel, by decide +kernel⟩, ?_⟩
  intro o o' ho ho' dbg fuel hf
  have h : ∀ o ∈ (List.range 3).permutations', ∀ o' ∈ (List.range 3).permutations', ∀ dbg : Bool,
      (match trapezoidize (ordersCfg [o, o'] dbg) 60 (PolyList.nested touchingRight) id with
        | .error (.err (.internal .segMinNotFound)) => true | _ => false) = true := by decide +kernel
  have h := h o (List.mem_permutations'.2 ho) o' (List.mem_permutations'.2 ho') dbg
  have ht : trapezoidize (ordersCfg [o, o'] dbg) fuel (PolyList.nested touchingRight) id =
      .error (.err (.internal .segMinNotFound)) := by
    split at h
    · next h3 =>
      rcases trapezoidize_fle (ordersCfg [o, o'] dbg) (PolyList.nested touchingRight) id hf with h' | h'
      · rw [h3] at h'; cases h'
      · rw [h', h3]
    · cases h
  refine ⟨ht, fun F => ?_⟩
  unfold triangulate
  rw [ht]
  rfl

/-- **C61.**  The mirror image is as documented too, and triangulated in every insertion order. -/
theorem C61_mirror_image_is_accepted :
    AsDocumented touchingLeft ∧ Touches touchingLeft ∧
    ∀ o o' : List Nat, o.Perm (List.range 3) → o'.Perm (List.range 3) → ∀ dbg, ∀ fuel ≥ 60,
      (triangulate (ordersCfg [o, o'] dbg) fuel (PolyList.nested touchingLeft) id (recorder (Nat × Nat) .counterclockwise)).2 =
        .ok [.newFan (0, 2) (0, 1) (1, 2), .newFan (1, 2) (0, 1) (1, 0), .newFan (0, 1) (0, 0) (1, 0),
          .newFan (0, 2) (1, 2) (1, 1), .newFan (0, 0) (0, 2) (1, 1), .extend (1, 0)] := by
  refine ⟨asDocumented_of (by decide +kernel) (by decide +kernel) (by decide +kernel),
    ⟨⟨-2, 2⟩, by decide +kernel, (⟨0, 0⟩, ⟨-4, 4⟩), by decide +kernel, ⟨1 / 2, by norm_num, by norm_num, by norm_num, by norm_num⟩,
      by decide +kernel, by decide +kernel⟩, ?_⟩
  intro o o' ho ho' dbg fuel hf
  have h : ∀ o ∈ (List.range 3).permutations', ∀ o' ∈ (List.range 3).permutations', ∀ dbg : Bool,
      (triangulate (ordersCfg [o, o'] dbg) 60 (PolyList.nested touchingLeft) id (recorder (Nat × Nat) .counterclockwise)).2 =
        .ok [.newFan (0, 2) (0, 1) (1, 2), .newFan (1, 2) (0, 1) (1, 0), .newFan (0, 1) (0, 0) (1, 0),
          .newFan (0, 2) (1, 2) (1, 1), .newFan (0, 0) (0, 2) (1, 1), .extend (1, 0)] := by decide +kernel
  have h := h o (List.mem_permutations'.2 ho) o' (List.mem_permutations'.2 ho') dbg
  rw [triangulate_more _ _ _ _ hf (by rw [h]; simp), h]

end Witness

end Tri
