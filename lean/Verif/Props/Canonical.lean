import Verif.Proof.CanonTop
import Verif.Props.Rearranging
import Verif.Props.Floats

/-!
# Properties: the result depends on the geometry alone (C44)
-/

namespace Tri

variable {I J V V' K : Type} [Field K] [LinearOrder K] [IsStrictOrderedRing K] [DecidableEq I] [DecidableEq J]

section
attribute [local instance] exact

/-- **C44.**  The random order in which edges are inserted does not matter: for a valid input, two runs, with any two
shuffles, with any two schedules of the vertex lookups, and with or without debug checks, end alike for every format,
even one whose operations fail: in the same result or error, with the same final state of the format. -/
theorem C44_shuffle_does_not_matter (p : PolyList I V) (xy : V → Coords K) (gs : List (List (I × Coords K)))
    (hd : Describes p xy gs) (hv : ValidPolys (gs.map (List.map Prod.snd))) (hne : gs ≠ [])
    (cfg cfg' : Cfg) (hcfg : cfg.Valid) (hcfg' : cfg'.Valid) (F : FanFormat I) :
    ∃ r, ∀ fuel ≥ (p.elems.length + 3) ^ 2, triangulate cfg fuel p xy F = r ∧ triangulate cfg' fuel p xy F = r := by
  obtain ⟨N, h⟩ := run_twin hd hv hne hd hv (fun _ _ => Iff.rfl) cfg cfg' hcfg hcfg'
  obtain ⟨_, _, _, _, hF⟩ := run_returns hd hv hne cfg hcfg
  obtain ⟨_, _, _, _, hF'⟩ := run_returns hd hv hne cfg' hcfg'
  obtain ⟨cs0, -, -, -, h0⟩ := hF F
  obtain ⟨cs1, -, -, -, h1⟩ := hF' F
  obtain ⟨cs, cs', r, hc, h3, h4⟩ := h _ (le_max_left N ((p.elems.length + 3) ^ 2)) F.winding
  have hdist : (gs.flatten.map Prod.snd).Nodup := by
    have := hv.distinct
    rwa [← List.map_flatten] at this
  have he : cs = cs' := calls_eq (fun i j ⟨c, hi, hj⟩ => congrArg Prod.fst (List.inj_on_of_nodup_map hdist hi hj rfl)) hc
  have e0 := h0 _ (le_max_right N ((p.elems.length + 3) ^ 2))
  have e1 := h1 _ (le_max_right N ((p.elems.length + 3) ^ 2))
  refine ⟨play F cs0 (.ok ()), fun fuel hf => ⟨h0 fuel hf, ?_⟩⟩
  rw [h1 fuel hf, ← e0, ← e1, h3 F rfl, h4 F rfl, he]

/-- **C44**, for different inputs: if two valid inputs, of any kinds, have the same edges, then whatever the two
configurations, the fans handed over are the same, one by one and corner by corner, if corners are named by their positions. -/
theorem C44_same_edges_same_fans (p : PolyList I V) (xy : V → Coords K) (gs : List (List (I × Coords K))) (hd : Describes p xy gs)
    (p' : PolyList J V') (xy' : V' → Coords K) (gs' : List (List (J × Coords K))) (hd' : Describes p' xy' gs')
    (hv : ValidPolys (gs.map (List.map Prod.snd))) (hv' : ValidPolys (gs'.map (List.map Prod.snd))) (hne : gs ≠ [])
    (h : SameEdges (gs.map (List.map Prod.snd)) (gs'.map (List.map Prod.snd)))
    (cfg cfg' : Cfg) (hcfg : cfg.Valid) (hcfg' : cfg'.Valid) (w : Winding) :
    ∃ fans fans', Returns cfg p xy w fans ∧ Returns cfg' p' xy' w fans' ∧
      fans.map (List.map (place p xy)) = fans'.map (List.map (place p' xy')) := by
  obtain ⟨N, ht⟩ := run_twin hd hv hne hd' hv' h cfg cfg' hcfg hcfg'
  have hne' : gs' ≠ [] := by
    rintro rfl
    obtain ⟨g, hg⟩ := List.exists_mem_of_ne_nil gs hne
    have h3 := hv.three _ (List.mem_map.2 ⟨g, hg, rfl⟩)
    rcases g with _ | ⟨v, g⟩
    · simp at h3
    · have := h.vertices (mem_flat_snd (List.mem_flatten.2 ⟨_, hg, List.mem_cons_self⟩))
      simp at this
  obtain ⟨fans, hr⟩ := (C01_valid_input_succeeds p xy gs hd hv hne cfg hcfg).2 w
  obtain ⟨fans', hr'⟩ := (C01_valid_input_succeeds p' xy' gs' hd' hv' hne' cfg' hcfg').2 w
  refine ⟨fans, fans', hr, hr', ?_⟩
  obtain ⟨g3, N1, hN1⟩ := hr
  obtain ⟨g3', N2, hN2⟩ := hr'
  have f1 : N ≤ max N (max N1 N2) := le_max_left _ _
  have f2 : N1 ≤ max N (max N1 N2) := le_trans (le_max_left _ _) (le_max_right _ _)
  have f3 : N2 ≤ max N (max N1 N2) := le_trans (le_max_right _ _) (le_max_right _ _)
  obtain ⟨cs, cs', r, hc, h1, h2⟩ := ht _ f1 w
  have e1 := hN1 _ f2
  have e2 := hN2 _ f3
  rw [h1 _ rfl] at e1
  rw [h2 _ rfl] at e2
  rw [play_recorder_ok e1, play_recorder_ok e2] at hc
  have := calls_renamed (f := place p xy) (g := place p' xy') (fun i j ⟨c, hi, hj⟩ => by
    rw [place_of hd hi, place_of hd' hj]) hc
  rw [← flatMap_renamed, ← flatMap_renamed] at this
  refine fanCalls_inj ?_ ?_ this
  · intro f hf
    obtain ⟨g, hg, rfl⟩ := List.mem_map.1 hf
    rw [List.length_map]; exact g3 g hg
  · intro f hf
    obtain ⟨g, hg, rfl⟩ := List.mem_map.1 hf
    rw [List.length_map]; exact g3' g hg

/-- **C44**, in particular: nothing depends on the order of the polygons, on the vertex a polygon starts with, on the direction
in which its vertices are listed, or on the kind of list. -/
theorem C44_rearranged_same_fans (p : PolyList I V) (xy : V → Coords K) (gs : List (List (I × Coords K))) (hd : Describes p xy gs)
    (p' : PolyList J V') (xy' : V' → Coords K) (gs' : List (List (J × Coords K))) (hd' : Describes p' xy' gs')
    (hv : ValidPolys (gs.map (List.map Prod.snd))) (hne : gs ≠ [])
    (h : Rearranged (gs.map (List.map Prod.snd)) (gs'.map (List.map Prod.snd)))
    (cfg cfg' : Cfg) (hcfg : cfg.Valid) (hcfg' : cfg'.Valid) (w : Winding) :
    ∃ fans fans', Returns cfg p xy w fans ∧ Returns cfg' p' xy' w fans' ∧
      fans.map (List.map (place p xy)) = fans'.map (List.map (place p' xy')) :=
  C44_same_edges_same_fans p xy gs hd p' xy' gs' hd' hv (hv.rearranged h) hne h.sameEdges cfg cfg' hcfg hcfg' w

end

section
attribute [local instance] exact ieee

/-- **C44** with `f64` and `f32`, for valid polygons on the grids of C42: the shuffle does not matter. -/
theorem C44_floats (f : FloatFormat) (k : Int) (L : Nat)
    (hf : (f = binary64 ∧ L = 25 ∧ -537 ≤ k ∧ k ≤ 484) ∨ (f = binary32 ∧ L = 11 ∧ -74 ≤ k ∧ k ≤ 50))
    (p : PolyList I V) (xy : V → Coords ℚ) (gs : List (List (I × Coords ℚ)))
    (hd : Describes p xy gs) (hv : ValidPolys (gs.map (List.map Prod.snd))) (hne : gs ≠ [])
    (hg : ∀ i v, p.getVertex i = some v →
      ∃ m n : Int, |m| ≤ 2 ^ L ∧ |n| ≤ 2 ^ L ∧ (xy v).x = m * pow2 k ∧ (xy v).y = n * pow2 k)
    (cfg cfg' : Cfg) (hcfg : cfg.Valid) (hcfg' : cfg'.Valid) (F : FanFormat I) :
    ∃ r, ∀ fuel ≥ (p.elems.length + 3) ^ 2, triangulate cfg fuel p (fun v => (xy v).toFl f) F = r ∧
      triangulate cfg' fuel p (fun v => (xy v).toFl f) F = r := by
  have hrun : ∀ cfg fuel, triangulate cfg fuel p (fun v => (xy v).toFl f) F = triangulate cfg fuel p xy F := by
    intro cfg fuel
    rcases hf with ⟨rfl, rfl, h1, h2⟩ | ⟨rfl, rfl, h1, h2⟩
    · exact C41_grid_is_exact binary64 usual64 k 25 (by decide) (by simp only [binary64]; omega) cfg fuel p xy hg F
    · exact C41_grid_is_exact binary32 usual32 k 11 (by decide) (by simp only [binary32]; omega) cfg fuel p xy hg F
  simp only [hrun]
  exact C44_shuffle_does_not_matter p xy gs hd hv hne cfg cfg' hcfg hcfg' F

end

section Examples
attribute [local instance] exact

/-- Insertion of the edges backwards. -/
def Cfg.backwards (mathN : Nat → Nat → Nat) (debug : Bool) : Cfg := ⟨fun _ n => (List.range n).reverse, mathN, debug⟩

theorem Cfg.backwards_valid (f : Nat → Nat → Nat) (d : Bool) : (Cfg.backwards f d).Valid := fun _ _ => List.reverse_perm _

/-- C44: the hypotheses hold for the square with a hole and two insertion orders. -/
example (F : FanFormat (Nat × Nat)) : ∃ r, ∀ fuel ≥ ((PolyList.nested holed).elems.length + 3) ^ 2, triangulate (Cfg.plain (fun _ _ => 0) true) fuel (PolyList.nested holed) id F = r ∧
    triangulate (Cfg.backwards (fun h _ => h) false) fuel (PolyList.nested holed) id F = r :=
  C44_shuffle_does_not_matter _ _ _ holed_describes holed_valid holed_ne _ _ (Cfg.plain_valid _ _) (Cfg.backwards_valid _ _) F

/-- C44: the hypotheses hold for the two forms of the square with a hole. -/
example : ∃ fans fans', Returns (Cfg.plain (fun _ _ => 0) true) (PolyList.nested holed) id .clockwise fans ∧
    Returns (Cfg.backwards (fun _ _ => 0) true) (PolyList.nested holed') id .clockwise fans' ∧
    fans.map (List.map (place (PolyList.nested holed) id)) = fans'.map (List.map (place (PolyList.nested holed') id)) :=
  C44_rearranged_same_fans _ _ _ holed_describes _ _ _ (describes_nested holed' id (by decide +kernel)) holed_valid holed_ne
    holed_rearranged _ _ (Cfg.plain_valid _ _) (Cfg.backwards_valid _ _) _

end Examples

end Tri
