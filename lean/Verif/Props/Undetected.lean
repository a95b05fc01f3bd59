import Mathlib.Algebra.Order.Ring.Rat
import Mathlib.Algebra.Field.Rat
import Mathlib.Data.List.Permutation
import Verif.Proof.FuelRun
import Verif.Proof.Ending
import Verif.Proof.Hang
import Verif.Spec.Exact
import Verif.Spec.Region

/-!
# C56: invalid input is not always reported

The documentation says of its preconditions that they "are not explicitly checked, but an invalid polygon set will
likely yield `TriangulationError::InternalError`".
-/

namespace Tri

section Witness

attribute [local instance] exact

/-- Two triangles; a side of the first crosses a side of the second. -/
def crossed : List (List (Coords ℚ)) := [[⟨17, 27⟩, ⟨7, 17⟩, ⟨27, 29⟩], [⟨14, 25⟩, ⟨5, 15⟩, ⟨25, 5⟩]]

/-- The insertion orders `o`, one for each polygon, with `math_n(3, h)` (`math.rs:15-21`): 2, 5 and then 0. -/
def ordersCfg (o : List (List Nat)) (dbg : Bool) : Cfg :=
  ⟨fun k len => o.getD k (List.range len), fun _ h => if h = 1 then 2 else if h = 2 then 5 else 0, dbg⟩

/-- **C56.**  The two triangles `crossed` have sides that cross, yet in a release build `triangulate` succeeds in every
insertion order.  It hands over the two triangles as they are; some points belong to both, and are outside by the even-odd
rule.  (With debug assertions it panics in every insertion order.) -/
theorem C56_crossing_edges_accepted :
    (∃ e ∈ crossed.flatMap cycleEdges, ∃ f ∈ crossed.flatMap cycleEdges, ∃ q, OnSeg e q ∧ OnSeg f q ∧
      q ≠ e.1 ∧ q ≠ e.2 ∧ q ≠ f.1 ∧ q ≠ f.2) ∧
    (∀ o o' : List Nat, o.Perm (List.range 3) → o'.Perm (List.range 3) → ∀ fuel ≥ 60,
      (triangulate (ordersCfg [o, o'] false) fuel (PolyList.nested crossed) id (recorder (Nat × Nat) .counterclockwise)).2 =
        .ok [.newFan (1, 0) (1, 1) (1, 2), .newFan (0, 2) (0, 0) (0, 1)] ∧
      (triangulate (ordersCfg [o, o'] true) fuel (PolyList.nested crossed) id (recorder (Nat × Nat) .counterclockwise)).2 =
        .error .panic) ∧
    ∃ q, InTriangle (⟨14, 25⟩, ⟨5, 15⟩, ⟨25, 5⟩) q ∧ InTriangle (⟨27, 29⟩, ⟨17, 27⟩, ⟨7, 17⟩) q ∧ ¬ Inside crossed q := by
  refine ⟨?_, ?_, ?_⟩
  · refine ⟨(⟨17, 27⟩, ⟨7, 17⟩), by decide +kernel, (⟨25, 5⟩, ⟨14, 25⟩), by decide +kernel, ⟨445 / 31, 755 / 31⟩,
      ⟨82 / 310, by norm_num, by norm_num, by norm_num, by norm_num⟩, ⟨300 / 310, by norm_num, by norm_num, by norm_num, by norm_num⟩, ?_⟩
    decide +kernel
  · intro o o' ho ho' fuel hf
    have h : ∀ o ∈ (List.range 3).permutations', ∀ o' ∈ (List.range 3).permutations',
        (triangulate (ordersCfg [o, o'] false) 60 (PolyList.nested crossed) id (recorder (Nat × Nat) .counterclockwise)).2 =
          .ok [.newFan (1, 0) (1, 1) (1, 2), .newFan (0, 2) (0, 0) (0, 1)] ∧
        (match (triangulate (ordersCfg [o, o'] true) 60 (PolyList.nested crossed) id
            (recorder (Nat × Nat) .counterclockwise)).2 with | .error .panic => true | _ => false) = true := by decide +kernel
    have h := h o (List.mem_permutations'.2 ho) o' (List.mem_permutations'.2 ho')
    refine ⟨by rw [triangulate_more _ _ _ _ hf (by rw [h.1]; simp), h.1], ?_⟩
    have h2 := h.2
    split at h2
    · next h3 => rw [triangulate_more _ _ _ _ hf (by rw [h3]; simp), h3]
    · cases h2
  · exact ⟨⟨13, 22⟩, by decide +kernel, by decide +kernel, by decide +kernel⟩

/-- A pentagon; its first and third sides cross, and so do its third and last sides. -/
def crossedPentagon : List (Coords ℚ) := [⟨2, 8⟩, ⟨7, 4⟩, ⟨9, 8⟩, ⟨1, 4⟩, ⟨9, 0⟩]

/-- **C56.**  Debug assertions do not report every crossing either: for `crossedPentagon` there is an insertion order in which a
build with debug assertions, like a release build, succeeds.  Some points belong to two of the triangles. -/
theorem C56_debug_assertions_do_not_help :
    (∃ e ∈ cycleEdges crossedPentagon, ∃ f ∈ cycleEdges crossedPentagon, ∃ q, OnSeg e q ∧ OnSeg f q ∧
      q ≠ e.1 ∧ q ≠ e.2 ∧ q ≠ f.1 ∧ q ≠ f.2) ∧
    (∃ o : List Nat, o.Perm (List.range 5) ∧ ∀ dbg : Bool, ∀ fuel ≥ 60,
      (triangulate (ordersCfg [o] dbg) fuel (PolyList.single crossedPentagon) id (recorder Nat .counterclockwise)).2 =
        .ok [.newFan 2 0 3, .newFan 0 3 4, .newFan 2 0 1]) ∧
    ∃ q : Coords ℚ, InTriangle (⟨9, 8⟩, ⟨2, 8⟩, ⟨1, 4⟩) q ∧ InTriangle (⟨9, 8⟩, ⟨2, 8⟩, ⟨7, 4⟩) q := by
  refine ⟨?_, ⟨[1, 2, 3, 0, 4], by decide, fun dbg fuel hf => ?_⟩, ⟨5, 7⟩, by decide +kernel, by decide +kernel⟩
  · refine ⟨(⟨2, 8⟩, ⟨7, 4⟩), by decide +kernel, (⟨9, 8⟩, ⟨1, 4⟩), by decide +kernel, ⟨61 / 13, 76 / 13⟩,
      ⟨7 / 13, by norm_num, by norm_num, by norm_num, by norm_num⟩, ⟨7 / 13, by norm_num, by norm_num, by norm_num, by norm_num⟩, ?_⟩
    decide +kernel
  · have h : ∀ dbg : Bool, (triangulate (ordersCfg [[1, 2, 3, 0, 4]] dbg) 60 (PolyList.single crossedPentagon) id
        (recorder Nat .counterclockwise)).2 = .ok [.newFan 2 0 3, .newFan 0 3 4, .newFan 2 0 1] := by decide +kernel
    rw [triangulate_more _ _ _ _ hf (by rw [h]; simp), h]

/-- A heptagon whose second and third sides run back and forth on one line. -/
def foldedHeptagon : List (Coords ℚ) := [⟨16, 15⟩, ⟨9, 13⟩, ⟨11, 13⟩, ⟨5, 13⟩, ⟨0, 15⟩, ⟨6, 8⟩, ⟨18, 1⟩]

/-- A pentagon whose last two sides run back and forth on one line. -/
def foldedPentagon : List (Coords ℚ) := [⟨18, 1⟩, ⟨9, 16⟩, ⟨6, 5⟩, ⟨13, 1⟩, ⟨0, 1⟩]

/-- **C56.**  On invalid input a success says nothing about the triangles.  With different vertices but sides that run back on
themselves, and with or without debug assertions, `triangulate` may succeed with a triangle that names a vertex twice and leaves
out two of the vertices, or with fewer than `n - 2` triangles. -/
theorem C56_degenerate_output :
    (foldedHeptagon.Nodup ∧ ∃ o : List Nat, o.Perm (List.range 7) ∧ ∀ dbg : Bool, ∀ fuel ≥ 90,
      (triangulate (ordersCfg [o] dbg) fuel (PolyList.single foldedHeptagon) id (recorder Nat .counterclockwise)).2 =
        .ok [.newFan 0 1 2, .newFan 4 3 3, .newFan 0 3 1, .extend 2]) ∧
    (foldedPentagon.Nodup ∧ ∃ o : List Nat, o.Perm (List.range 5) ∧ ∀ dbg : Bool, ∀ fuel ≥ 60,
      (triangulate (ordersCfg [o] dbg) fuel (PolyList.single foldedPentagon) id (recorder Nat .counterclockwise)).2 =
        .ok [.newFan 1 2 0, .newFan 2 3 0]) := by
  refine ⟨⟨by decide +kernel, [0, 1, 3, 6, 4, 2, 5], by decide, fun dbg fuel hf => ?_⟩,
    by decide +kernel, [0, 1, 2, 3, 4], by decide, fun dbg fuel hf => ?_⟩
  · have h : ∀ dbg : Bool, (triangulate (ordersCfg [[0, 1, 3, 6, 4, 2, 5]] dbg) 90 (PolyList.single foldedHeptagon) id
        (recorder Nat .counterclockwise)).2 = .ok [.newFan 0 1 2, .newFan 4 3 3, .newFan 0 3 1, .extend 2] := by decide +kernel
    rw [triangulate_more _ _ _ _ hf (by rw [h]; simp), h]
  · have h : ∀ dbg : Bool, (triangulate (ordersCfg [[0, 1, 2, 3, 4]] dbg) 60 (PolyList.single foldedPentagon) id
        (recorder Nat .counterclockwise)).2 = .ok [.newFan 1 2 0, .newFan 2 3 0] := by decide +kernel
    rw [triangulate_more _ _ _ _ hf (by rw [h]; simp), h]

end Witness

end Tri
