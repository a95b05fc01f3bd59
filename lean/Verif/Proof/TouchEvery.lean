import Verif.Proof.TouchRun
import Verif.Proof.Everywhere

/-!
# Polygons with touching edges: the cover at points on sides
-/

set_option linter.unusedSectionVars false

namespace Tri

variable {I K : Type} [Field K] [LinearOrder K] [IsStrictOrderedRing K] [DecidableEq I]

attribute [local instance] exact

variable {pl : I → Coords K} {gI : List (List I)} {T : List (I × I × I)}

/-- A direction that leaves all sides of the triangles and all edges. -/
theorem leave_all (T : List (I × I × I)) (pl : I → Coords K) (gs : List (List (Coords K))) (q : Coords K) :
    ∃ d : Coords K, Near fun t => (∀ s ∈ T, OffT (pl s.1) (pl s.2.1) (pl s.2.2) (move q d t)) ∧ OffEdges gs (move q d t) := by
  obtain ⟨d, hd, h⟩ := general_dir (gs.flatMap cycleEdges ++
    T.flatMap fun s => [(pl s.1, pl s.2.1), (pl s.2.1, pl s.2.2), (pl s.2.2, pl s.1)])
  refine ⟨d, Near.and (near_list fun s hs => ?_) (near_list fun e he => near_leave hd (h e (List.mem_append_left _ he)))⟩
  have k : ∀ e ∈ [(pl s.1, pl s.2.1), (pl s.2.1, pl s.2.2), (pl s.2.2, pl s.1)], Near fun t => ¬ OnSeg e (move q d t) :=
    fun e he => near_leave hd (h e (List.mem_append_right _ (List.mem_flatMap.2 ⟨s, hs, he⟩)))
  exact ((k _ (by simp)).and ((k _ (by simp)).and (k _ (by simp)))).imp fun t _ h => h

/-- No two triangles overlap. -/
theorem MeshT.at_most_one (h : MeshT pl gI T) (q : Coords K) :
    (T.filter fun t => InTriangle (pl t.1, pl t.2.1, pl t.2.2) q).length ≤ 1 := by
  obtain ⟨d, hd⟩ := leave_all T pl (gI.map (List.map pl)) q
  have k : Near fun t => ∀ s ∈ T, InTriangle (pl s.1, pl s.2.1, pl s.2.2) q →
      InTriangle (pl s.1, pl s.2.1, pl s.2.2) (move q d t) := near_list fun s hs => by
    by_cases hin : InTriangle (pl s.1, pl s.2.1, pl s.2.2) q
    · refine (near_inCCW ((inTriangle_iff (h.pos s hs)).1 hin) d).imp fun t _ k _ => (inTriangle_iff (h.pos s hs)).2 k
    · exact Near.of_all fun t _ hn => absurd hn hin
  obtain ⟨t, -, ⟨h1, h1'⟩, h2⟩ := (hd.and k).exists
  have hc := h.cover h1' h1
  rw [← List.countP_eq_length_filter] at hc ⊢
  have hm := List.countP_mono_left (p := fun s : I × I × I => decide (InTriangle (pl s.1, pl s.2.1, pl s.2.2) q))
    (q := fun s : I × I × I => decide (InTriangle (pl s.1, pl s.2.1, pl s.2.2) (move q d t))) (l := T)
    fun s hs hin => decide_eq_true (h2 s hs (of_decide_eq_true hin))
  refine hm.trans ?_
  rw [hc]
  split <;> omega

/-- A triangle only has points inside. -/
theorem MeshT.hull_inside (h : MeshT pl gI T) {s : I × I × I} (hs : s ∈ T)
    (hp : orient (pl s.1) (pl s.2.1) (pl s.2.2) ≠ 0) {q : Coords K} (hq : OffEdges (gI.map (List.map pl)) q)
    (hin : InHull (pl s.1, pl s.2.1, pl s.2.2) q) : Inside (gI.map (List.map pl)) q := by
  have hp' := lt_of_le_of_ne (h.pos s hs) (Ne.symm hp)
  obtain ⟨t, -, h1, h2, h3⟩ := ((near_centre hp' hin).and (near_inside hq _)).exists
  rw [← h3]
  generalize move q _ t = q1 at h1 h2
  obtain ⟨d, hd⟩ := leave_sides T pl q1
  obtain ⟨t', -, k1, k2, k4, k3⟩ := (hd.and ((near_inCCW h1 d).and (near_inside h2 d))).exists
  rw [← k3]
  have hc := h.cover k4 k1
  by_contra hn
  rw [if_neg hn, List.length_eq_zero_iff, List.filter_eq_nil_iff] at hc
  exact hc s hs (decide_eq_true ((inTriangle_iff (h.pos s hs)).2 k2))

/-- Every point inside is in a triangle. -/
theorem MeshT.inside_hull (h : MeshT pl gI T) {q : Coords K}
    (hq : OffEdges (gI.map (List.map pl)) q) (hin : Inside (gI.map (List.map pl)) q) :
    ∃ s ∈ T, orient (pl s.1) (pl s.2.1) (pl s.2.2) ≠ 0 ∧ InHull (pl s.1, pl s.2.1, pl s.2.2) q := by
  by_contra hn
  push Not at hn
  obtain ⟨d, hd⟩ := leave_sides T pl q
  have k : Near fun t => ∀ s ∈ T, ¬ InCCW (pl s.1) (pl s.2.1) (pl s.2.2) (move q d t) := near_list fun s hs => by
    by_cases h0 : orient (pl s.1) (pl s.2.1) (pl s.2.2) = 0
    · refine Near.of_all fun t _ hc => ?_
      have := orient_split (pl s.1) (pl s.2.1) (pl s.2.2) (move q d t)
      linarith [hc.1, hc.2.1, hc.2.2]
    · have hp := lt_of_le_of_ne (h.pos s hs) (Ne.symm h0)
      have h1 := hn s hs h0
      rw [inHull_iff hp] at h1
      by_cases a1 : orient (pl s.1) (pl s.2.1) q < 0
      · exact (near_orient d a1.ne).imp fun t _ k hc => not_lt.2 hc.1.le (k.2.2 a1)
      by_cases a2 : orient (pl s.2.1) (pl s.2.2) q < 0
      · exact (near_orient d a2.ne).imp fun t _ k hc => not_lt.2 hc.2.1.le (k.2.2 a2)
      by_cases a3 : orient (pl s.2.2) (pl s.1) q < 0
      · exact (near_orient d a3.ne).imp fun t _ k hc => not_lt.2 hc.2.2.le (k.2.2 a3)
      exact absurd ⟨not_lt.1 a1, not_lt.1 a2, not_lt.1 a3⟩ h1
  obtain ⟨t, -, k1, k2, k4, k3⟩ := (hd.and (k.and (near_inside hq d))).exists
  have hc := h.cover k4 k1
  rw [if_pos (k3.2 hin)] at hc
  obtain ⟨s, hs⟩ := List.exists_mem_of_length_pos (by rw [hc]; exact one_pos)
  obtain ⟨hs, h'⟩ := List.mem_filter.1 hs
  exact k2 s hs ((inTriangle_iff (h.pos s hs)).1 (of_decide_eq_true h'))

end Tri
