import Verif.Proof.Triangles
import Verif.Props.Mesh
import Verif.Props.Winding

/-!
# C05: the number of triangles
-/

namespace Tri

variable {I V K : Type} [Field K] [LinearOrder K] [IsStrictOrderedRing K] [DecidableEq I]

attribute [local instance] exact

/-- A triangle for each call. -/
theorem fan_calls_length {α : Type} (f : List α) : (fanTriangles f).length = (fanCalls f).length := by
  rcases f with _ | ⟨a, _ | ⟨b, _ | ⟨c, l⟩⟩⟩ <;> simp [fanTriangles, fanCalls]

theorem fans_calls_length {α : Type} (fans : List (List α)) :
    (fans.flatMap fanTriangles).length = (fans.flatMap fanCalls).length := by
  induction fans with
  | nil => rfl
  | cons f fans ih => simp only [List.flatMap_cons, List.length_append, ih, fan_calls_length]

theorem pairs_calls_length {α : Type} : ∀ fans : List (List α × List α),
    (∀ f ∈ fans, (fanTriangles f.2).length = (fanTriangles f.1).length) →
      (fans.flatMap fun f => fanCalls f.2).length = (fans.flatMap fun f => fanCalls f.1).length
  | [], _ => rfl
  | f :: fans, h => by
    have h1 := h f (by simp)
    have h2 := pairs_calls_length fans fun g hg => h g (by simp [hg])
    simp only [List.flatMap_cons, List.length_append, h2, ← fan_calls_length, h1]

/-- The run with the reversed winding hands over as many triangles. -/
theorem reversed_length {p : PolyList I V} {xy : V → Coords K} {cfg : Cfg} {fans fans' : List (List I)}
    (h : Returns cfg p xy .counterclockwise fans) (h' : Returns cfg p xy .clockwise fans') :
    (fans'.flatMap fanTriangles).length = (fans.flatMap fanTriangles).length := by
  obtain ⟨-, N, hN⟩ := h
  obtain ⟨-, N', hN'⟩ := h'
  have k1 := hN (max N N') (le_max_left _ _)
  have k2 := hN' (max N N') (le_max_right _ _)
  obtain ⟨ps, h1, h2, h3, h4⟩ := C19_reversed_winding_partial cfg (max N N') p xy
  rcases h3 with ⟨h5, h6⟩ | ⟨e, h5, -⟩
  · rw [k1] at h5
    rw [k2] at h6
    simp only [Except.ok.injEq] at h5 h6
    rw [fans_calls_length, fans_calls_length, h5, h6, h1, h2]
    exact pairs_calls_length ps fun f hf => (h4 f hf).2.1
  · rw [k1] at h5; cases h5

/-- **C05.**  The number of triangles depends only on the polygons: for one polygon with `n` vertices it is
`n - 2`, and for several it is the number of their vertices less two for each polygon that is no hole, and two more
for each one that is a hole.  This holds for either winding. -/
theorem C05_triangle_count (p : PolyList I V) (xy : V → Coords K) (gs : List (List (I × Coords K)))
    (hd : Describes p xy gs) (hv : ValidPolys (gs.map (List.map Prod.snd))) (hne : gs ≠ []) (cfg : Cfg) (hcfg : cfg.Valid)
    (w : Winding) (fans : List (List I)) (hr : Returns cfg p xy w fans) :
    (fans.flatMap fanTriangles).length + 2 * (gs.length - holes (gs.map (List.map Prod.snd))) =
        gs.flatten.length + 2 * holes (gs.map (List.map Prod.snd)) ∧
      ∀ g, gs = [g] → (fans.flatMap fanTriangles).length = g.length - 2 := by
  have key : (fans.flatMap fanTriangles).length + 2 * (gs.length - holes (gs.map (List.map Prod.snd))) =
        gs.flatten.length + 2 * holes (gs.map (List.map Prod.snd)) := by
    obtain ⟨fans0, hr0⟩ := (C01_valid_input_succeeds p xy gs hd hv hne cfg hcfg).2 .counterclockwise
    have hlen : (fans.flatMap fanTriangles).length = (fans0.flatMap fanTriangles).length := by
      cases w
      · rw [hr.unique hr0]
      · exact reversed_length hr0 hr
    obtain ⟨fwd, hM⟩ := returned_mesh hd hv hne hcfg hr0
    have h1 := hM.length (by rw [placed_map hd]; exact hv)
    rw [placed_map hd, ← List.map_flatten, List.length_map, List.length_map] at h1
    have h2 : holes (gs.map (List.map Prod.snd)) ≤ gs.length := by
      unfold holes
      exact (List.countP_le_length).trans (by simp)
    omega
  refine ⟨key, fun g hg => ?_⟩
  subst hg
  have h1 : holes ([g].map (List.map Prod.snd)) = 0 := by
    simp [holes, isHole_single]
  rw [h1] at key
  simp only [List.length_cons, List.length_nil, List.flatten_cons, List.flatten_nil, List.append_nil] at key
  omega

section Examples

/-- C05: nine vertices, one of two polygons a hole, so nine triangles. -/
example (w : Winding) : ∃ fans, Returns (Cfg.plain (fun _ _ => 0) true) (PolyList.nested holed) id w fans ∧
    (fans.flatMap fanTriangles).length = 9 := by
  obtain ⟨fans, h⟩ := (C01_valid_input_succeeds _ _ _ holed_describes holed_valid holed_ne
    (Cfg.plain (fun _ _ => 0) true) (Cfg.plain_valid _ _)).2 w
  refine ⟨fans, h, ?_⟩
  have h1 := (C05_triangle_count _ _ _ holed_describes holed_valid holed_ne _ (Cfg.plain_valid _ _) _ fans h).1
  have h2 : holes ((indexedFrom (id : Coords ℚ → Coords ℚ) 0 holed).map (List.map Prod.snd)) = 1 := by decide +kernel
  have h3 : (indexedFrom (id : Coords ℚ → Coords ℚ) 0 holed).flatten.length = 9 := by decide +kernel
  have h4 : (indexedFrom (id : Coords ℚ → Coords ℚ) 0 holed).length = 2 := by decide +kernel
  rw [h2, h3, h4] at h1
  omega

end Examples

end Tri
