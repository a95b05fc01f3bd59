import Verif.Props.TouchRight
import Verif.Props.Canonical
import Verif.Proof.TouchSame
import Verif.Proof.FormatRuns

/-!
# C67: what the fans depend on where edges are touched from the right or from above
-/

namespace Tri

variable {I J V V' K : Type} [Field K] [LinearOrder K] [IsStrictOrderedRing K] [DecidableEq I] [DecidableEq J]

attribute [local instance] exact

/-- **C67.**  Both windings return fans. -/
theorem C67_touching_right_returns (p : PolyList I V) (xy : V → Coords K) (gs : List (List (I × Coords K)))
    (hd : Describes p xy gs) (hv : TouchingPolys (gs.map (List.map Prod.snd))) (hne : gs ≠ []) (cfg : Cfg) (hcfg : cfg.Valid)
    (w : Winding) : ∃ fans, Returns cfg p xy w fans := by
  obtain ⟨_, _, _, hF⟩ := run_touch hd hv hne cfg hcfg
  obtain ⟨cs, h1, h2, -, h3⟩ := hF (recorder I w)
  obtain ⟨fans, h4, h5⟩ := h1.handsOver
  refine ⟨fans, h4, (p.elems.length + 3) ^ 2, fun fuel hf => ?_⟩
  rw [h3 fuel hf, play_recorder _ _ h1, ← h5]
  rcases cs with _ | ⟨c, cs⟩
  · exact absurd rfl h2
  · rfl

/-- **C67**, as C44 for valid input: if two such inputs, of any kinds, have the same edges, then whatever the two configurations, the
fans handed over are the same, one by one and corner by corner, if corners are named by their positions. -/
theorem C67_same_edges_same_fans (p : PolyList I V) (xy : V → Coords K) (gs : List (List (I × Coords K))) (hd : Describes p xy gs)
    (p' : PolyList J V') (xy' : V' → Coords K) (gs' : List (List (J × Coords K))) (hd' : Describes p' xy' gs')
    (hv : TouchingPolys (gs.map (List.map Prod.snd))) (hv' : TouchingPolys (gs'.map (List.map Prod.snd))) (hne : gs ≠ [])
    (h : SameEdges (gs.map (List.map Prod.snd)) (gs'.map (List.map Prod.snd)))
    (cfg cfg' : Cfg) (hcfg : cfg.Valid) (hcfg' : cfg'.Valid) (w : Winding) :
    ∃ fans fans', Returns cfg p xy w fans ∧ Returns cfg' p' xy' w fans' ∧
      fans.map (List.map (place p xy)) = fans'.map (List.map (place p' xy')) := by
  obtain ⟨N, ht⟩ := run_twin_touch hd hv hne hd' hv' h cfg cfg' hcfg hcfg'
  have hne' : gs' ≠ [] := by
    rintro rfl
    obtain ⟨g, hg⟩ := List.exists_mem_of_ne_nil gs hne
    have h3 := hv.three _ (List.mem_map.2 ⟨g, hg, rfl⟩)
    rcases g with _ | ⟨v, g⟩
    · simp at h3
    · have := h.vertices (mem_flat_snd (List.mem_flatten.2 ⟨_, hg, List.mem_cons_self⟩))
      simp at this
  obtain ⟨fans, hr⟩ := C67_touching_right_returns p xy gs hd hv hne cfg hcfg w
  obtain ⟨fans', hr'⟩ := C67_touching_right_returns p' xy' gs' hd' hv' hne' cfg' hcfg' w
  refine ⟨fans, fans', hr, hr', ?_⟩
  obtain ⟨g3, N1, hN1⟩ := hr
  obtain ⟨g3', N2, hN2⟩ := hr'
  have f1 : N ≤ max N (max N1 N2) := le_max_left _ _
  have f2 : N1 ≤ max N (max N1 N2) := le_trans (le_max_left _ _) (le_max_right _ _)
  have f3 : N2 ≤ max N (max N1 N2) := le_trans (le_max_right _ _) (le_max_right _ _)
  obtain ⟨cs, cs', r, hc, h1, h2⟩ := ht _ f1 w
  have e1 := hN1 _ f2
  have e2 := hN2 _ f3
  rw [h1 _ rfl] at e1
  rw [h2 _ rfl] at e2
  rw [play_recorder_ok e1, play_recorder_ok e2] at hc
  have := calls_renamed (f := place p xy) (g := place p' xy') (fun i j ⟨c, hi, hj⟩ => by
    rw [place_of hd hi, place_of hd' hj]) hc
  rw [← flatMap_renamed, ← flatMap_renamed] at this
  refine fanCalls_inj ?_ ?_ this
  · intro f hf
    obtain ⟨g, hg, rfl⟩ := List.mem_map.1 hf
    rw [List.length_map]; exact g3 g hg
  · intro f hf
    obtain ⟨g, hg, rfl⟩ := List.mem_map.1 hf
    rw [List.length_map]; exact g3' g hg

/-- **C67**, as C26 and C44 for valid input: nothing depends on the order of the polygons, on the vertex a polygon starts with, on the
direction in which its vertices are listed, or on the kind of list. -/
theorem C67_rearranged_same_fans (p : PolyList I V) (xy : V → Coords K) (gs : List (List (I × Coords K))) (hd : Describes p xy gs)
    (p' : PolyList J V') (xy' : V' → Coords K) (gs' : List (List (J × Coords K))) (hd' : Describes p' xy' gs')
    (hv : TouchingPolys (gs.map (List.map Prod.snd))) (hne : gs ≠ [])
    (h : Rearranged (gs.map (List.map Prod.snd)) (gs'.map (List.map Prod.snd)))
    (cfg cfg' : Cfg) (hcfg : cfg.Valid) (hcfg' : cfg'.Valid) (w : Winding) :
    TouchingPolys (gs'.map (List.map Prod.snd)) ∧ ∃ fans fans', Returns cfg p xy w fans ∧ Returns cfg' p' xy' w fans' ∧
      fans.map (List.map (place p xy)) = fans'.map (List.map (place p' xy')) :=
  ⟨hv.rearranged h, C67_same_edges_same_fans p xy gs hd p' xy' gs' hd' hv (hv.rearranged h) hne h.sameEdges cfg cfg' hcfg hcfg' w⟩

section Examples

/-- `rooms` with the second room first and listed in the opposite direction from another corner. -/
def roomsTurned : List (List (Coords ℚ)) :=
  [[⟨8, 2⟩, ⟨4, 2⟩, ⟨4, 5⟩, ⟨8, 5⟩], [⟨0, 0⟩, ⟨4, 0⟩, ⟨4, 9⟩, ⟨0, 9⟩], [⟨1, 9⟩, ⟨3, 9⟩, ⟨2, 12⟩]]

/-- The hypotheses are met by `rooms` and `roomsTurned`. -/
example : Describes (PolyList.nested roomsTurned) id (indexedFrom id 0 roomsTurned) ∧ TouchingPolys rooms ∧
    Rearranged rooms roomsTurned := by
  refine ⟨describes_nested roomsTurned id (by decide +kernel), touchingOk_sound (by decide +kernel),
    [[⟨4, 2⟩, ⟨8, 2⟩, ⟨8, 5⟩, ⟨4, 5⟩], [⟨0, 0⟩, ⟨4, 0⟩, ⟨4, 9⟩, ⟨0, 9⟩], [⟨1, 9⟩, ⟨3, 9⟩, ⟨2, 12⟩]], List.Perm.swap _ _ _, ?_⟩
  exact .cons ⟨[⟨4, 2⟩, ⟨8, 2⟩], [⟨8, 5⟩, ⟨4, 5⟩], rfl, .inr rfl⟩ (.cons ⟨[], _, rfl, .inl (List.append_nil _).symm⟩
    (.cons ⟨[], _, rfl, .inl (List.append_nil _).symm⟩ .nil))

end Examples

end Tri
