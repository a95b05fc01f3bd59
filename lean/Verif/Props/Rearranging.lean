import Verif.Proof.Rearrange
import Verif.Props.Counting

/-!
# C26: the order of the vertices and polygons
-/

namespace Tri

variable {I I' V V' K : Type} [Field K] [LinearOrder K] [IsStrictOrderedRing K] [DecidableEq I] [DecidableEq I']

attribute [local instance] exact

/-- **C26.**  Let two inputs, of any kinds, have the same polygons, except that these come in another order, from
another start or in the opposite direction.  If the first one is valid, so is the second one.  Whatever the
two configurations, both runs return, with either winding, and equally many triangles.  With the default winding a point on no side
of a triangle is in as many triangles of the one run as of the other, and the total areas agree. -/
theorem C26_rearrangement (p : PolyList I V) (xy : V → Coords K) (gs : List (List (I × Coords K))) (hd : Describes p xy gs)
    (p' : PolyList I' V') (xy' : V' → Coords K) (gs' : List (List (I' × Coords K))) (hd' : Describes p' xy' gs')
    (hv : ValidPolys (gs.map (List.map Prod.snd))) (hne : gs ≠ [])
    (h : Rearranged (gs.map (List.map Prod.snd)) (gs'.map (List.map Prod.snd)))
    (cfg cfg' : Cfg) (hcfg : cfg.Valid) (hcfg' : cfg'.Valid) :
    ValidPolys (gs'.map (List.map Prod.snd)) ∧
    (∀ w, ∃ fans fans', Returns cfg p xy w fans ∧ Returns cfg' p' xy' w fans' ∧
      (fans'.flatMap fanTriangles).length = (fans.flatMap fanTriangles).length) ∧
    ∀ fans fans', Returns cfg p xy .counterclockwise fans → Returns cfg' p' xy' .counterclockwise fans' →
      (∀ q, (∀ t ∈ fans.flatMap fanTriangles, ∀ s ∈ sides (placed p xy t), ¬ OnSeg s q) →
        (∀ t ∈ fans'.flatMap fanTriangles, ∀ s ∈ sides (placed p' xy' t), ¬ OnSeg s q) →
        ((fans'.flatMap fanTriangles).filter fun t => InTriangle (placed p' xy' t) q).length =
          ((fans.flatMap fanTriangles).filter fun t => InTriangle (placed p xy t) q).length) ∧
      ((fans'.flatMap fanTriangles).map fun t => orient (place p' xy' t.1) (place p' xy' t.2.1) (place p' xy' t.2.2)).sum =
        ((fans.flatMap fanTriangles).map fun t => orient (place p xy t.1) (place p xy t.2.1) (place p xy t.2.2)).sum := by
  have hv' := hv.rearranged h
  have hlen : gs'.length = gs.length := by
    obtain ⟨hs, h1, h2⟩ := h
    have := h1.length_eq.trans h2.length_eq
    simpa using this.symm
  have hflat : gs'.flatten.length = gs.flatten.length := by
    obtain ⟨hs, h1, h2⟩ := h
    have := ((same_perm h2).trans h1.flatten.symm).length_eq
    rwa [← List.map_flatten, ← List.map_flatten, List.length_map, List.length_map] at this
  have hne' : gs' ≠ [] := by
    rintro rfl
    exact hne (List.length_eq_zero_iff.1 hlen.symm)
  have r := (C01_valid_input_succeeds p xy gs hd hv hne cfg hcfg).2
  have r' := (C01_valid_input_succeeds p' xy' gs' hd' hv' hne' cfg' hcfg').2
  refine ⟨hv', fun w => ?_, ?_⟩
  · obtain ⟨fans, hr⟩ := r w
    obtain ⟨fans', hr'⟩ := r' w
    refine ⟨fans, fans', hr, hr', ?_⟩
    have c1 := (C05_triangle_count p xy gs hd hv hne cfg hcfg w fans hr).1
    have c2 := (C05_triangle_count p' xy' gs' hd' hv' hne' cfg' hcfg' w fans' hr').1
    rw [holes_rearranged hv h, hlen, hflat] at c2
    omega
  · intro fans fans' hr hr'
    refine ⟨fun q hq hq' => ?_, ?_⟩
    · rw [C02_covers_once p xy gs hd hv hne cfg hcfg fans hr q hq, C02_covers_once p' xy' gs' hd' hv' hne' cfg' hcfg' fans' hr' q hq']
      simp only [inside_rearranged h q]
    · rw [(C04_areas_add_up p xy gs hd hv hne cfg hcfg fans hr).1, (C04_areas_add_up p' xy' gs' hd' hv' hne' cfg' hcfg' fans' hr').1,
        regionArea_rearranged hv h]

section Examples

/-- The square with a hole, the hole first and from another start, the square in the opposite direction. -/
def holed' : List (List (Coords ℚ)) :=
  [[⟨4, 4⟩, ⟨4, 2⟩, ⟨2, 2⟩, ⟨2, 4⟩], [⟨6, 0⟩, ⟨3, 0⟩, ⟨0, 0⟩, ⟨0, 6⟩, ⟨6, 6⟩]]

/-- C26: the hypotheses hold for the two forms of the square with a hole. -/
theorem holed_rearranged : Rearranged ((indexedFrom (id : Coords ℚ → Coords ℚ) 0 holed).map (List.map Prod.snd))
    ((indexedFrom (id : Coords ℚ → Coords ℚ) 0 holed').map (List.map Prod.snd)) := by
  rw [indexedFrom_snd, indexedFrom_snd]
  refine ⟨[_, _], .swap _ _ [], .cons ⟨[⟨2, 2⟩, ⟨2, 4⟩], [⟨4, 4⟩, ⟨4, 2⟩], rfl, .inl rfl⟩
    (.cons ⟨[⟨0, 0⟩, ⟨3, 0⟩, ⟨6, 0⟩], [⟨6, 6⟩, ⟨0, 6⟩], rfl, .inr rfl⟩ .nil)⟩

example : ∃ fans fans', Returns (Cfg.plain (fun _ _ => 0) true) (PolyList.nested holed) id .counterclockwise fans ∧
    Returns (Cfg.plain (fun _ _ => 0) true) (PolyList.nested holed') id .counterclockwise fans' ∧
    (fans'.flatMap fanTriangles).length = (fans.flatMap fanTriangles).length :=
  (C26_rearrangement _ _ _ holed_describes _ _ _ (describes_nested holed' id (by decide +kernel)) holed_valid holed_ne
    holed_rearranged _ _ (Cfg.plain_valid _ _) (Cfg.plain_valid _ _)).2.1 _

end Examples

end Tri
