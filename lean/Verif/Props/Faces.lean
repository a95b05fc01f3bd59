import Verif.Proof.Backed
import Verif.Props.Canonical

/-!
# Properties: how the triangles fit together (C45, C46)
-/

namespace Tri

variable {I V K : Type} [Field K] [LinearOrder K] [IsStrictOrderedRing K] [DecidableEq I]

section
attribute [local instance] exact

/-- **C45**, what holds: the corners of a triangle are three different vertices of the input, at different places, so that
the area of a triangle is zero only if three vertices lie on a line, and all areas are positive if no three vertices do.
(Missing, because it is false, see `C45_zero_area_triangles`: positive areas whenever no three consecutive vertices are on a line.) -/
theorem C45_positive_areas_partial (p : PolyList I V) (xy : V → Coords K) (gs : List (List (I × Coords K)))
    (hd : Describes p xy gs) (hv : ValidPolys (gs.map (List.map Prod.snd))) (hne : gs ≠ []) (cfg : Cfg) (hcfg : cfg.Valid)
    (fans : List (List I)) (hr : Returns cfg p xy .counterclockwise fans) :
    ∀ t ∈ fans.flatMap fanTriangles,
      (place p xy t.1 ≠ place p xy t.2.1 ∧ place p xy t.2.1 ≠ place p xy t.2.2 ∧ place p xy t.2.2 ≠ place p xy t.1) ∧
      (∀ i, Corner t i → ∃ g ∈ gs, ∃ v ∈ g, v.1 = i ∧ v.2 = place p xy i) ∧
      (GeneralPosition (gs.map (List.map Prod.snd)) → 0 < orient (place p xy t.1) (place p xy t.2.1) (place p xy t.2.2)) := by
  obtain ⟨fwd, hM⟩ := returned_mesh hd hv hne hcfg hr
  intro t ht
  refine ⟨hM.dist t ht, fun i hi => ?_, fun hg => ?_⟩
  · obtain ⟨g, hg, hig⟩ := List.mem_flatten.1 (hM.corner_mem ht hi)
    obtain ⟨g', hg', rfl⟩ := List.mem_map.1 hg
    obtain ⟨v, hv', rfl⟩ := List.mem_map.1 hig
    exact ⟨g', hg', v, hv', rfl, (place_of hd (List.mem_flatten.2 ⟨g', hg', hv'⟩)).symm⟩
  · rw [← placed_map hd] at hg
    exact hM.area_pos hg ht

/-- A pentagon without three consecutive vertices on a line. -/
def bent : List (Coords ℚ) := [⟨0, 0⟩, ⟨1, 2⟩, ⟨4, 3⟩, ⟨1, 1⟩, ⟨1, 0⟩]

theorem bent_valid : ValidPolys ([indexed (bent.map id)].map (List.map Prod.snd)) := polysOk_sound (by decide +kernel)

theorem bent_describes : Describes (PolyList.single bent) id [indexed (bent.map id)] :=
  describes_single bent id (by decide +kernel)

theorem bent_returns (cfg : Cfg) (hcfg : cfg.Valid) :
    Returns cfg (PolyList.single bent) id .counterclockwise [[2, 1, 3], [1, 0, 4, 3]] := by
  refine ⟨by decide, ?_⟩
  have h0 : (triangulate (Cfg.plain (fun _ _ => 0) true) 200 (PolyList.single bent) id (recorder Nat .counterclockwise)).2 =
      .ok ([[2, 1, 3], [1, 0, 4, 3]].flatMap fanCalls) := by decide +kernel
  obtain ⟨r, hN⟩ := C44_shuffle_does_not_matter _ _ _ bent_describes bent_valid (by simp) (Cfg.plain (fun _ _ => 0) true) cfg
    (Cfg.plain_valid _ _) hcfg (recorder Nat .counterclockwise)
  refine ⟨max (((PolyList.single bent).elems.length + 3) ^ 2) 200, fun fuel hf => ?_⟩
  obtain ⟨h1, h2⟩ := hN fuel (le_trans (le_max_left _ _) hf)
  rw [h2, ← h1, triangulate_more _ _ _ _ (le_trans (le_max_right _ _) hf) (by rw [h0]; simp), h0]

/-- **C45**, a negative finding: a valid pentagon no three consecutive vertices of which are on a line gives, whatever the
insertion order, a triangle of area zero; and one of its corners is in the middle of a side of another triangle,
of positive area, so that the triangles do not fit together side by side. -/
theorem C45_zero_area_triangles :
    ValidPolys [bent] ∧
    (∀ a ∈ [((0 : Nat), (1 : Nat), (2 : Nat)), (1, 2, 3), (2, 3, 4), (3, 4, 0), (4, 0, 1)],
      ∀ u ∈ bent[a.1]?, ∀ v ∈ bent[a.2.1]?, ∀ w ∈ bent[a.2.2]?, orient u v w ≠ 0) ∧
    ∀ cfg : Cfg, cfg.Valid → ∃ fans, Returns cfg (PolyList.single bent) id .counterclockwise fans ∧
      (∃ t ∈ fans.flatMap fanTriangles, orient (place (PolyList.single bent) id t.1) (place (PolyList.single bent) id t.2.1)
        (place (PolyList.single bent) id t.2.2) = 0) ∧
      ∃ t ∈ fans.flatMap fanTriangles, ∃ s ∈ sides t, ∃ i, i < bent.length ∧ ¬ Corner t i ∧
        0 < orient (place (PolyList.single bent) id t.1) (place (PolyList.single bent) id t.2.1) (place (PolyList.single bent) id t.2.2) ∧
        OnSeg (place (PolyList.single bent) id s.1, place (PolyList.single bent) id s.2) (place (PolyList.single bent) id i) := by
  refine ⟨polysOk_sound (by decide +kernel), by decide +kernel, fun cfg hcfg => ⟨[[2, 1, 3], [1, 0, 4, 3]], ?_, ?_, ?_⟩⟩
  · exact bent_returns cfg hcfg
  · exact ⟨(1, 4, 3), by decide, by decide +kernel⟩
  · refine ⟨(1, 0, 4), by decide, (4, 1), by decide, 3, by decide, by simp [Corner], by decide +kernel, 1 / 2, by norm_num, by norm_num, ?_, ?_⟩
      <;> decide +kernel

/-- **C46.**  The triangles form a surface.  No directed side occurs twice.  An edge of a polygon is a side of exactly
one triangle, in the direction that has the interior on the left.  A pair of vertices that is not an edge is a side in
one direction if and only if it is one in the other, and then of exactly one triangle each.  No two triangles have the same corners. -/
theorem C46_surface (p : PolyList I V) (xy : V → Coords K) (gs : List (List (I × Coords K)))
    (hd : Describes p xy gs) (hv : ValidPolys (gs.map (List.map Prod.snd))) (hne : gs ≠ []) (cfg : Cfg) (hcfg : cfg.Valid)
    (fans : List (List I)) (hr : Returns cfg p xy .counterclockwise fans) :
    ((fans.flatMap fanTriangles).flatMap sides).Nodup ∧
    (∀ u v, ((u, v) ∈ (gs.map (List.map Prod.fst)).flatMap cycleEdges ∨ (v, u) ∈ (gs.map (List.map Prod.fst)).flatMap cycleEdges) →
      ((u, v) ∈ (fans.flatMap fanTriangles).flatMap sides ↔
        InteriorLeft (gs.map (List.map Prod.snd)) (place p xy u) (place p xy v))) ∧
    (∀ u v, (u, v) ∉ (gs.map (List.map Prod.fst)).flatMap cycleEdges → (v, u) ∉ (gs.map (List.map Prod.fst)).flatMap cycleEdges →
      ((u, v) ∈ (fans.flatMap fanTriangles).flatMap sides ↔ (v, u) ∈ (fans.flatMap fanTriangles).flatMap sides)) ∧
    (∀ (i j : Nat) (t t' : I × I × I), (fans.flatMap fanTriangles)[i]? = some t → (fans.flatMap fanTriangles)[j]? = some t' →
      (∀ v, Corner t v → Corner t' v) → i = j) := by
  obtain ⟨fwd, hM⟩ := returned_mesh hd hv hne hcfg hr
  have hv' := hv
  rw [← placed_map hd] at hv'
  have hw := C27_watertight p xy gs hd hv hne cfg hcfg fans hr
  have hc := fun u v => hM.count_le hv' u v
  refine ⟨List.nodup_iff_count_le_one.2 fun e => hc e.1 e.2, fun u v he => ?_, fun u v h1 h2 => ?_, fun i j t t' hi hj h =>
    hM.corners_unique hv' hi hj h⟩
  · have c1 := hc u v
    have c2 := hc v u
    rw [← List.count_pos_iff]
    rcases (hw u v).1 he with ⟨k1, -, k3⟩ | ⟨-, k2, k3⟩
    · unfold net at k3; exact ⟨fun _ => k1, fun _ => by omega⟩
    · unfold net at k3; exact ⟨fun _ => by omega, fun k => absurd k k2⟩
  · have k := (hw u v).2 h1 h2
    unfold net at k
    rw [← List.count_pos_iff, ← List.count_pos_iff]
    omega

/-- **C46.**  Sides do not cross: no side of a triangle passes through the inside of a triangle, and two sides with a point in
common that is not a vertex lie along each other. -/
theorem C46_sides_do_not_cross (p : PolyList I V) (xy : V → Coords K) (gs : List (List (I × Coords K)))
    (hd : Describes p xy gs) (hv : ValidPolys (gs.map (List.map Prod.snd))) (hne : gs ≠ []) (cfg : Cfg) (hcfg : cfg.Valid)
    (fans : List (List I)) (hr : Returns cfg p xy .counterclockwise fans) (q : Coords K) :
    ∀ t ∈ fans.flatMap fanTriangles, ∀ s ∈ sides (placed p xy t), OnSeg s q →
      ∀ t' ∈ fans.flatMap fanTriangles, ¬ InTriangle (placed p xy t') q ∧
        ((∀ g ∈ gs, ∀ v ∈ g, v.2 ≠ q) → ∀ s' ∈ sides (placed p xy t'), OnSeg s' q → Parallel s s') := by
  obtain ⟨fwd, hM⟩ := returned_mesh hd hv hne hcfg hr
  have hv' := hv
  rw [← placed_map hd] at hv'
  have key : ∀ t : I × I × I, ∀ s ∈ sides (placed p xy t), ∃ e ∈ sides t, s = (place p xy e.1, place p xy e.2) := by
    intro t s hs
    simp only [sides, placed, List.mem_cons, List.not_mem_nil, or_false] at hs
    rcases hs with rfl | rfl | rfl
    · exact ⟨(t.1, t.2.1), by simp [sides], rfl⟩
    · exact ⟨(t.2.1, t.2.2), by simp [sides], rfl⟩
    · exact ⟨(t.2.2, t.1), by simp [sides], rfl⟩
  intro t ht s hs ho t' ht'
  obtain ⟨e, he, rfl⟩ := key t s hs
  refine ⟨hM.side_not_in hv' ht ht' he ho, fun hq s' hs' ho' => ?_⟩
  obtain ⟨e', he', rfl⟩ := key t' s' hs'
  refine hM.sides_parallel hv' ht ht' he he' (fun z hz => ?_) ho ho'
  obtain ⟨g, hg, hig⟩ := List.mem_flatten.1 hz
  obtain ⟨g', hg', rfl⟩ := List.mem_map.1 hg
  obtain ⟨v, hvg, rfl⟩ := List.mem_map.1 hig
  rw [place_of hd (List.mem_flatten.2 ⟨g', hg', hvg⟩)]
  exact hq g' hg' v hvg

/-- **C46.**  If no three vertices lie on a line, the triangles fit together side by side: two of them have nothing, a
corner or a whole side in common. -/
theorem C46_side_by_side (p : PolyList I V) (xy : V → Coords K) (gs : List (List (I × Coords K)))
    (hd : Describes p xy gs) (hv : ValidPolys (gs.map (List.map Prod.snd))) (hne : gs ≠ []) (cfg : Cfg) (hcfg : cfg.Valid)
    (fans : List (List I)) (hr : Returns cfg p xy .counterclockwise fans) (hg : GeneralPosition (gs.map (List.map Prod.snd)))
    (i j : Nat) (t t' : I × I × I) (hi : (fans.flatMap fanTriangles)[i]? = some t)
    (hj : (fans.flatMap fanTriangles)[j]? = some t') (hij : i ≠ j) :
    (∀ q, ¬ (InHull (placed p xy t) q ∧ InHull (placed p xy t') q)) ∨
    (∃ v, Corner t v ∧ Corner t' v ∧ ∀ q, InHull (placed p xy t) q ∧ InHull (placed p xy t') q ↔ q = place p xy v) ∨
    ∃ u v, u ≠ v ∧ Corner t u ∧ Corner t' u ∧ Corner t v ∧ Corner t' v ∧
      ∀ q, InHull (placed p xy t) q ∧ InHull (placed p xy t') q ↔ OnSeg (place p xy u, place p xy v) q := by
  obtain ⟨fwd, hM⟩ := returned_mesh hd hv hne hcfg hr
  have hv' := hv
  rw [← placed_map hd] at hv' hg
  exact hM.common_face hv' hg hi hj hij

end

section Examples
attribute [local instance] exact

/-- C46: the hypotheses hold for the square with a hole: the two directions of an edge, and those of a pair that is no edge. -/
example : ∃ fans, Returns (Cfg.plain (fun _ _ => 0) true) (PolyList.nested holed) id .counterclockwise fans ∧
    ((fans.flatMap fanTriangles).flatMap sides).Nodup ∧
    (((0, 0), (0, 1)) ∈ (fans.flatMap fanTriangles).flatMap sides ↔ ((0, 1), (0, 0)) ∉ (fans.flatMap fanTriangles).flatMap sides) ∧
    (((0, 0), (1, 0)) ∈ (fans.flatMap fanTriangles).flatMap sides ↔ ((1, 0), (0, 0)) ∈ (fans.flatMap fanTriangles).flatMap sides) := by
  obtain ⟨fans, h⟩ := (C01_valid_input_succeeds _ _ _ holed_describes holed_valid holed_ne
    (Cfg.plain (fun _ _ => 0) true) (Cfg.plain_valid _ _)).2 .counterclockwise
  obtain ⟨h1, h2, h3, -⟩ := C46_surface _ _ _ holed_describes holed_valid holed_ne _ (Cfg.plain_valid _ _) fans h
  have hw := (C27_watertight _ _ _ holed_describes holed_valid holed_ne _ (Cfg.plain_valid _ _) fans h (0, 0) (0, 1)).1
    (by decide +kernel)
  refine ⟨fans, h, h1, ?_, h3 (0, 0) (1, 0) (by decide +kernel) (by decide +kernel)⟩
  rw [h2 (0, 0) (0, 1) (by decide +kernel), h2 (0, 1) (0, 0) (by decide +kernel)]
  rcases hw with ⟨a, b, -⟩ | ⟨a, b, -⟩
  · exact ⟨fun _ => b, fun _ => a⟩
  · exact ⟨fun k => absurd k b, fun k => absurd a k⟩

/-- A square with a triangular hole, no three vertices on a line. -/
def tilted : List (List (Coords ℚ)) := [[⟨0, 0⟩, ⟨10, 1⟩, ⟨11, 9⟩, ⟨1, 10⟩], [⟨4, 3⟩, ⟨3, 7⟩, ⟨7, 6⟩]]

theorem tilted_valid : ValidPolys ((indexedFrom id 0 tilted).map (List.map Prod.snd)) := polysOk_sound (by decide +kernel)

theorem tilted_describes : Describes (PolyList.nested tilted) id (indexedFrom id 0 tilted) :=
  describes_nested tilted id (by decide +kernel)

theorem tilted_general : GeneralPosition ((indexedFrom id 0 tilted).map (List.map Prod.snd)) := by
  unfold GeneralPosition
  decide +kernel

/-- C45, C46: the hypotheses hold for that one; its triangles have positive areas and fit together. -/
example : ∃ fans, Returns (Cfg.plain (fun _ _ => 0) true) (PolyList.nested tilted) id .counterclockwise fans ∧
    (∀ t ∈ fans.flatMap fanTriangles, 0 < orient (place (PolyList.nested tilted) id t.1)
      (place (PolyList.nested tilted) id t.2.1) (place (PolyList.nested tilted) id t.2.2)) ∧
    ∀ (i j : Nat) t t', (fans.flatMap fanTriangles)[i]? = some t → (fans.flatMap fanTriangles)[j]? = some t' → i ≠ j →
      ∀ q, InHull (placed (PolyList.nested tilted) id t) q → InHull (placed (PolyList.nested tilted) id t') q →
        ∃ v, Corner t v ∧ Corner t' v := by
  have hne : indexedFrom (id : Coords ℚ → Coords ℚ) 0 tilted ≠ [] := by decide +kernel
  obtain ⟨fans, h⟩ := (C01_valid_input_succeeds _ _ _ tilted_describes tilted_valid hne
    (Cfg.plain (fun _ _ => 0) true) (Cfg.plain_valid _ _)).2 .counterclockwise
  refine ⟨fans, h, fun t ht => ((C45_positive_areas_partial _ _ _ tilted_describes tilted_valid hne _ (Cfg.plain_valid _ _) fans h t ht).2.2
    tilted_general), fun i j t t' hi hj hij q h1 h2 => ?_⟩
  rcases C46_side_by_side _ _ _ tilted_describes tilted_valid hne _ (Cfg.plain_valid _ _) fans h tilted_general i j t t' hi hj hij with
    k | ⟨v, k1, k2, -⟩ | ⟨u, v, -, k1, k2, -⟩
  · exact absurd ⟨h1, h2⟩ (k q)
  · exact ⟨v, k1, k2⟩
  · exact ⟨u, k1, k2⟩

/-- C46: a side of the mesh of the pentagon with a flat triangle, which is not crossed. -/
example : ∃ fans, Returns (Cfg.plain (fun _ _ => 0) true) (PolyList.single bent) id .counterclockwise fans ∧
    ∀ t ∈ fans.flatMap fanTriangles, ¬ InTriangle (placed (PolyList.single bent) id t) ⟨1, 3 / 2⟩ := by
  obtain ⟨fans, h⟩ := (C01_valid_input_succeeds _ _ _ bent_describes bent_valid (by simp)
    (Cfg.plain (fun _ _ => 0) true) (Cfg.plain_valid _ _)).2 .counterclockwise
  refine ⟨fans, h, ?_⟩
  have hN : Returns (Cfg.plain (fun _ _ => 0) true) (PolyList.single bent) id .counterclockwise [[2, 1, 3], [1, 0, 4, 3]] :=
    bent_returns _ (Cfg.plain_valid _ _)
  rw [h.unique hN]
  intro t ht
  exact (C46_sides_do_not_cross _ _ _ bent_describes bent_valid (by simp) _ (Cfg.plain_valid _ _) _ hN ⟨1, 3 / 2⟩ (2, 1, 3) (by decide)
    (⟨1, 2⟩, ⟨1, 1⟩) (by decide +kernel) ⟨1 / 2, by norm_num, by norm_num, by norm_num, by norm_num⟩ t ht).1

end Examples

end Tri
