import Verif.Proof.Paired
import Verif.Proof.ValidCheck

/-!
# C19: reversed winding
-/

namespace Tri

attribute [local instance] exact

/-- A convex pentagon. -/
def pentagon : List (Coords ℚ) := [⟨0, 0⟩, ⟨2, 1⟩, ⟨3, 2⟩, ⟨2, 3⟩, ⟨0, 4⟩]

/-- The triangles of a fan, as points. -/
def pointTriangles {I : Type} (pos : I → Coords ℚ) (fan : List I) : List (Coords ℚ × Coords ℚ × Coords ℚ) :=
  (fanTriangles fan).map fun t => (pos t.1, pos t.2.1, pos t.2.2)

/-- **C19, refuted.**  The convex pentagon is valid input.  With the default winding the library
returns a fan of counterclockwise triangles whose area is that of the pentagon.  With the reversed
winding it returns a fan in which some triangles are still counterclockwise, and whose triangles
neither are the same ones nor have the same total area. -/
theorem C19_reversed_winding_is_wrong :
    ValidPolys [pentagon] ∧
    ∃ ccw cw : List Nat,
      (triangulate (Cfg.plain (fun _ _ => 0) true) 60 (PolyList.single pentagon) id
        (recorder Nat .counterclockwise)).2 = .ok (fanCalls ccw) ∧
      (triangulate (Cfg.plain (fun _ _ => 0) true) 60 (PolyList.single pentagon) id
        (recorder Nat .clockwise)).2 = .ok (fanCalls cw) ∧
      (∃ t ∈ pointTriangles (pentagon.getD · ⟨0, 0⟩) cw, 0 < orient t.1 t.2.1 t.2.2) ∧
      (∃ t ∈ pointTriangles (pentagon.getD · ⟨0, 0⟩) ccw,
        ∀ t' ∈ pointTriangles (pentagon.getD · ⟨0, 0⟩) cw,
          ¬ [t'.1, t'.2.1, t'.2.2].Perm [t.1, t.2.1, t.2.2]) ∧
      ((pointTriangles (pentagon.getD · ⟨0, 0⟩) cw).map fun t => |orient t.1 t.2.1 t.2.2|).sum ≠
        ((pointTriangles (pentagon.getD · ⟨0, 0⟩) ccw).map fun t => |orient t.1 t.2.1 t.2.2|).sum := by
  refine ⟨polysOk_sound (by decide +kernel), [4, 0, 1, 2, 3], [2, 3, 4, 1, 0], by decide +kernel,
    by decide +kernel, by decide +kernel, by decide +kernel, by decide +kernel⟩

/-- **C19, the part that holds.**  For every input, valid or not, and every coordinate type, the runs
with the two windings go through the same fans one by one and end alike: both return everything they
handed over, or both stop with the same error.  Each pair of fans has the same number of triangles, and
either the reversed one is the mirror image (same root, outer vertices in reverse order), or the root
`r` and the second outer vertex `x` have changed places.  Missing, because it is false of the code (see
above): the second case does not occur. -/
theorem C19_reversed_winding_partial {I V C : Type} [Scalar C] [DecidableEq I] (cfg : Cfg) (fuel : Nat)
    (p : PolyList I V) (xy : V → Coords C) :
    let a := triangulate cfg fuel p xy (recorder I .counterclockwise)
    let b := triangulate cfg fuel p xy (recorder I .clockwise)
    ∃ fans : List (List I × List I),
      a.1 = fans.flatMap (fun f => fanCalls f.1) ∧ b.1 = fans.flatMap (fun f => fanCalls f.2) ∧
      (a.2 = .ok a.1 ∧ b.2 = .ok b.1 ∨ ∃ e, a.2 = .error e ∧ b.2 = .error e) ∧
      ∀ f ∈ fans, 3 ≤ f.1.length ∧ (fanTriangles f.2).length = (fanTriangles f.1).length ∧
        ((∃ r l, f = (r :: l, r :: l.reverse)) ∨
          ∃ r b x l, f = (r :: (b :: x :: l).reverse, x :: b :: r :: l)) := by
  simp only []
  unfold triangulate
  rcases trapezoidize cfg fuel p xy with e | st
  · refine ⟨[], ?_⟩
    cases e <;> exact ⟨rfl, rfl, .inr ⟨_, rfl, rfl⟩, by simp⟩
  · simp only []
    obtain ⟨fs, r, h1, h2⟩ := inner_pair fuel p xy st
    have hrec : ∀ w, st.triangulate fuel p xy (recorder I w) =
        (fs.flatMap fun f => fanCalls ((fanOf w f.1 f.2.bt f.2.root f.2.outer).map Prod.fst),
          recOutcome (fs.flatMap fun f => fanCalls ((fanOf w f.1 f.2.bt f.2.root f.2.outer).map Prod.fst)) r) := by
      intro w
      have hg := Good.innerTrace w fuel p xy st
      rw [triangulate_eq_play]
      show play _ (innerTrace w fuel p xy st).calls (innerTrace w fuel p xy st).res = _
      rw [play_recorder _ _ hg, h2 w]
    simp only [Res.mapErr, hrec]
    have hl : ∀ w, ∀ f ∈ fs, 3 ≤ (fanOf w f.1 f.2.bt f.2.root f.2.outer).length := fun w f hf =>
      (fan_length w f.1 f.2.bt f.2.root f.2.outer (h1 f hf)).2
    have hne : ∀ w, fs ≠ [] →
        (fs.flatMap fun f => fanCalls ((fanOf w f.1 f.2.bt f.2.root f.2.outer).map Prod.fst)) ≠ [] := by
      intro w h
      rcases fs with _ | ⟨f, fs⟩
      · exact absurd rfl h
      · have := hl w f (by simp)
        rcases hf : fanOf w f.1 f.2.bt f.2.root f.2.outer with _ | ⟨x, _ | ⟨y, _ | ⟨z, l⟩⟩⟩
        all_goals rw [hf] at this
        all_goals simp only [List.length_cons, List.length_nil] at this
        · omega
        · omega
        · omega
        · rw [List.flatMap_cons, hf]; simp [fanCalls]
    refine ⟨fs.map fun f => ((fanOf .counterclockwise f.1 f.2.bt f.2.root f.2.outer).map Prod.fst,
      (fanOf .clockwise f.1 f.2.bt f.2.root f.2.outer).map Prod.fst), ?_, ?_, ?_, ?_⟩
    · simp only [List.flatMap_map]
    · simp only [List.flatMap_map]
    · rcases r with e | u
      · exact .inr ⟨_, rfl, rfl⟩
      · by_cases h : fs = []
        · subst h; exact .inr ⟨_, rfl, rfl⟩
        · have hok : ∀ cs : List (Call I), cs ≠ [] → recOutcome cs (.ok u) = .ok cs := by
            intro cs hcs
            rcases cs with _ | ⟨c, cs⟩
            · exact absurd rfl hcs
            · rfl
          exact .inl ⟨hok _ (hne _ h), hok _ (hne _ h)⟩
    · intro f hf
      obtain ⟨g, hg, rfl⟩ := List.mem_map.1 hf
      refine ⟨by simpa using hl .counterclockwise g hg, ?_, ?_⟩
      · rw [fanTriangles_map, fanTriangles_map, List.length_map, List.length_map,
          (fan_length .counterclockwise g.1 g.2.bt g.2.root g.2.outer (h1 g hg)).1,
          (fan_length .clockwise g.1 g.2.bt g.2.root g.2.outer (h1 g hg)).1]
      · have h2 := h1 g hg
        rcases g with ⟨left, bt, r, W⟩
        rcases W with _ | ⟨b, _ | ⟨x, P⟩⟩
        · simp at h2
        · simp at h2
        · cases left <;> cases bt
          · right; exact ⟨r.1, b.1, x.1, P.map Prod.fst, by simp [fanOf]⟩
          · left; exact ⟨r.1, (b :: x :: P).map Prod.fst, by simp [fanOf]⟩
          · left; exact ⟨r.1, (b :: x :: P).map Prod.fst, by simp [fanOf]⟩
          · right; exact ⟨r.1, b.1, x.1, P.map Prod.fst, by simp [fanOf]⟩

/-- The pentagon gives a run with a fan for which the second case occurs. -/
example : ([4, 0, 1, 2, 3], [2, 3, 4, 1, 0]) =
    ((4 : Nat) :: (3 :: 2 :: [1, 0]).reverse, 2 :: 3 :: 4 :: [1, 0]) := rfl

end Tri
