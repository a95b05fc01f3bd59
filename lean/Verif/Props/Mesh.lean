import Verif.Proof.Nesting
import Verif.Proof.Everywhere
import Verif.Props.Trapezoids
import Verif.Props.Winding

/-!
# C01, C02, C03, C04, C27, C34: the triangles returned for valid input
-/

namespace Tri

variable {I V K : Type} [Field K] [LinearOrder K] [IsStrictOrderedRing K] [DecidableEq I]

attribute [local instance] exact

/-- The recording format is infallible. -/
theorem recorder_infallible (I : Type) (w : Winding) : (recorder I w).Infallible where
  start _ _ _ := ⟨_, rfl⟩
  newFan _ _ _ _ := rfl
  extendFan _ _ := rfl
  build _ := ⟨_, rfl⟩

/-- **C01.**  On valid input every run ends and succeeds: `triangulate` returns an output of the format, whatever the
segment order, the relocation schedule, the build and the (infallible) format.  If `n` is the number of elements of
the index iterator, then no loop takes more than `(n + 3) ^ 2` steps, and the output does not depend on how many more are
allowed.  In particular there is for either winding a list of fans that is handed over. -/
theorem C01_valid_input_succeeds (p : PolyList I V) (xy : V → Coords K) (gs : List (List (I × Coords K)))
    (hd : Describes p xy gs) (hv : ValidPolys (gs.map (List.map Prod.snd))) (hne : gs ≠ []) (cfg : Cfg) (hcfg : cfg.Valid) :
    (∀ F : FanFormat I, F.Infallible → ∃ o s, ∀ fuel ≥ (p.elems.length + 3) ^ 2, triangulate cfg fuel p xy F = (s, .ok o)) ∧
      ∀ w, ∃ fans, Returns cfg p xy w fans := by
  obtain ⟨fans, fwd, hr, -, hF⟩ := run_returns hd hv hne cfg hcfg
  have key : ∀ F : FanFormat I, F.Infallible →
      ∃ o s, ∀ fuel ≥ (p.elems.length + 3) ^ 2, triangulate cfg fuel p xy F = (s, .ok o) := by
    intro F hI
    obtain ⟨cs, h1, h2, -, h3⟩ := hF F
    obtain ⟨o, ho⟩ := play_infallible hI h1 h2
    exact ⟨o, (play F cs (.ok ())).1, fun fuel hf => by rw [h3 fuel hf, ← ho]⟩
  refine ⟨key, fun w => ?_⟩
  cases w
  · exact ⟨fans, hr⟩
  · obtain ⟨o, s, hN⟩ := key (recorder I .clockwise) (recorder_infallible I _)
    generalize (p.elems.length + 3) ^ 2 = N at hN
    obtain ⟨ps, -, h2, h3, h4⟩ := C19_reversed_winding_partial cfg N p xy
    have hps : s = (ps.map Prod.snd).flatMap fanCalls := by
      rw [hN N le_rfl] at h2
      rw [List.flatMap_map]
      exact h2
    have hos : o = s := by
      rw [hN N le_rfl] at h3
      rcases h3 with ⟨-, h⟩ | ⟨e, -, h⟩
      · exact Except.ok.inj h
      · cases h
    refine ⟨ps.map Prod.snd, ?_, N, fun fuel hf => by rw [hN fuel hf, hos, hps]⟩
    intro f hf
    obtain ⟨f', hf', rfl⟩ := List.mem_map.1 hf
    obtain ⟨h5, -, h6 | h6⟩ := h4 f' hf'
    · obtain ⟨r, l, rfl⟩ := h6
      simpa using h5
    · obtain ⟨r, b, x, l, rfl⟩ := h6
      simp

/-- **C47.**  On valid input nothing but the format can fail.  For every format, also one whose operations fail, panic or never
end: with `n` elements of the index iterator, `(n + 3) ^ 2` steps per loop give the final outcome, and it is a success
or else an error of the format; it is a panic, undefined behaviour or an endless loop only if one of the
format's own operations can be. -/
theorem C47_only_the_format_can_fail (p : PolyList I V) (xy : V → Coords K) (gs : List (List (I × Coords K)))
    (hd : Describes p xy gs) (hv : ValidPolys (gs.map (List.map Prod.snd))) (hne : gs ≠ []) (cfg : Cfg) (hcfg : cfg.Valid)
    (F : FanFormat I) :
    ∃ s r, (∀ fuel ≥ (p.elems.length + 3) ^ 2, triangulate cfg fuel p xy F = (s, r)) ∧
      (∀ e, r = .error (.err e) → ∃ e', e = .fanBuilder e') ∧
      ∀ g : Grave, F.Never g → r ≠ .error g.fault := by
  obtain ⟨_, _, _, _, hF⟩ := run_returns hd hv hne cfg hcfg
  obtain ⟨cs, h1, h2, -, h3⟩ := hF F
  refine ⟨(play F cs (.ok ())).1, (play F cs (.ok ())).2, h3, fun e he => ?_, fun g hg => play_never F g hg cs _ (by simp)⟩
  rcases play_blames F h1 h2 with ⟨o, ho⟩ | ⟨e', he'⟩
  · rw [ho] at he; cases he
  · rw [he'] at he
    cases e' with
    | err e' => exact ⟨e', by simpa [liftBuilderErr] using he.symm⟩
    | panic => simp [liftBuilderErr] at he
    | ub => simp [liftBuilderErr] at he
    | timeout => simp [liftBuilderErr] at he

/-- What is known about the triangles of a run. -/
theorem returned_mesh {p : PolyList I V} {xy : V → Coords K} {gs : List (List (I × Coords K))}
    (hd : Describes p xy gs) (hv : ValidPolys (gs.map (List.map Prod.snd))) (hne : gs ≠ []) {cfg : Cfg} (hcfg : cfg.Valid)
    {fans : List (List I)} (hr : Returns cfg p xy .counterclockwise fans) :
    ∃ fwd, MeshI (place p xy) (gs.map (List.map Prod.fst)) (fans.flatMap fanTriangles) fwd := by
  obtain ⟨fans', fwd, hr', hM, -⟩ := run_returns hd hv hne cfg hcfg
  rw [hr.unique hr']
  exact ⟨fwd, hM⟩

/-- **C02.**  The triangles cover the interior exactly once: a point on no side of a triangle lies in exactly one
triangle if it is inside the polygons by the even-odd rule, and in none otherwise. -/
theorem C02_covers_once (p : PolyList I V) (xy : V → Coords K) (gs : List (List (I × Coords K)))
    (hd : Describes p xy gs) (hv : ValidPolys (gs.map (List.map Prod.snd))) (hne : gs ≠ []) (cfg : Cfg) (hcfg : cfg.Valid)
    (fans : List (List I)) (hr : Returns cfg p xy .counterclockwise fans) (q : Coords K)
    (hq : ∀ t ∈ fans.flatMap fanTriangles, ∀ s ∈ sides (placed p xy t), ¬ OnSeg s q) :
    ((fans.flatMap fanTriangles).filter fun t => InTriangle (placed p xy t) q).length =
      if Inside (gs.map (List.map Prod.snd)) q then 1 else 0 := by
  obtain ⟨fwd, hM⟩ := returned_mesh hd hv hne hcfg hr
  have hv' := hv
  rw [← placed_map hd] at hv' ⊢
  exact hM.cover hv' fun t ht => by
    have := hq t ht
    simp only [sides, placed, List.mem_cons, List.not_mem_nil, or_false, forall_eq_or_imp, forall_eq] at this
    exact this

/-- **C02** at every point, on sides and edges too.  No point is strictly inside two triangles, and a point on an edge
of a polygon (a vertex, say) is strictly inside none.  A point on no edge is inside the polygons exactly if it
is in some closed triangle of positive area. -/
theorem C02_every_point (p : PolyList I V) (xy : V → Coords K) (gs : List (List (I × Coords K)))
    (hd : Describes p xy gs) (hv : ValidPolys (gs.map (List.map Prod.snd))) (hne : gs ≠ []) (cfg : Cfg) (hcfg : cfg.Valid)
    (fans : List (List I)) (hr : Returns cfg p xy .counterclockwise fans) (q : Coords K) :
    ((fans.flatMap fanTriangles).filter fun t => InTriangle (placed p xy t) q).length ≤ 1 ∧
      ((∃ e ∈ (gs.map (List.map Prod.snd)).flatMap cycleEdges, OnSeg e q) →
        ∀ t ∈ fans.flatMap fanTriangles, ¬ InTriangle (placed p xy t) q) ∧
      ((∀ e ∈ (gs.map (List.map Prod.snd)).flatMap cycleEdges, ¬ OnSeg e q) →
        (Inside (gs.map (List.map Prod.snd)) q ↔ ∃ t ∈ fans.flatMap fanTriangles,
          orient (place p xy t.1) (place p xy t.2.1) (place p xy t.2.2) ≠ 0 ∧ InHull (placed p xy t) q)) := by
  obtain ⟨fwd, hM⟩ := returned_mesh hd hv hne hcfg hr
  have hv' := hv
  rw [← placed_map hd] at hv' ⊢
  refine ⟨hM.at_most_one hv' q, fun ⟨e, he, ho⟩ t ht => hM.edge_not_in hv' ht fun hoff => hoff e he ho, fun hoff => ?_⟩
  exact ⟨fun hin => hM.inside_hull hv' hoff hin, fun ⟨t, ht, h0, hin⟩ => hM.hull_inside hv' ht h0 hoff hin⟩

/-- **C03.**  With the default winding every triangle is counterclockwise, in the order it is handed over: its
signed area is not negative, and positive if its corners are not collinear. -/
theorem C03_counterclockwise (p : PolyList I V) (xy : V → Coords K) (gs : List (List (I × Coords K)))
    (hd : Describes p xy gs) (hv : ValidPolys (gs.map (List.map Prod.snd))) (hne : gs ≠ []) (cfg : Cfg) (hcfg : cfg.Valid)
    (fans : List (List I)) (hr : Returns cfg p xy .counterclockwise fans) :
    ∀ t ∈ fans.flatMap fanTriangles, 0 ≤ orient (place p xy t.1) (place p xy t.2.1) (place p xy t.2.2) ∧
      (orient (place p xy t.1) (place p xy t.2.1) (place p xy t.2.2) ≠ 0 →
        0 < orient (place p xy t.1) (place p xy t.2.1) (place p xy t.2.2)) := by
  obtain ⟨fwd, hM⟩ := returned_mesh hd hv hne hcfg hr
  exact fun t ht => ⟨hM.pos t ht, fun h => lt_of_le_of_ne (hM.pos t ht) (Ne.symm h)⟩

/-- **C04.**  The areas of the triangles add up to that of the interior, which is the sum of the areas of the
polygons with those of holes counted negatively; for one polygon, the absolute value of the shoelace sum. -/
theorem C04_areas_add_up (p : PolyList I V) (xy : V → Coords K) (gs : List (List (I × Coords K)))
    (hd : Describes p xy gs) (hv : ValidPolys (gs.map (List.map Prod.snd))) (hne : gs ≠ []) (cfg : Cfg) (hcfg : cfg.Valid)
    (fans : List (List I)) (hr : Returns cfg p xy .counterclockwise fans) :
    ((fans.flatMap fanTriangles).map fun t => orient (place p xy t.1) (place p xy t.2.1) (place p xy t.2.2)).sum =
        regionArea (gs.map (List.map Prod.snd)) ∧
      ∀ g, gs = [g] → ((fans.flatMap fanTriangles).map fun t =>
        orient (place p xy t.1) (place p xy t.2.1) (place p xy t.2.2)).sum = |shoelace (g.map Prod.snd)| := by
  obtain ⟨fwd, hM⟩ := returned_mesh hd hv hne hcfg hr
  have hv' := hv
  rw [← placed_map hd] at hv'
  have h := hM.area hv'
  rw [placed_map hd] at h
  refine ⟨h, fun g hg => ?_⟩
  rw [h, hg]
  exact regionArea_single _

/-- **C27.**  The mesh is watertight: the triangles run along an edge of a polygon once more in the direction that
has the interior on the left than in the other one, and between vertices not joined by an edge as often
in both directions.  Every edge has the interior on exactly one side. -/
theorem C27_watertight (p : PolyList I V) (xy : V → Coords K) (gs : List (List (I × Coords K)))
    (hd : Describes p xy gs) (hv : ValidPolys (gs.map (List.map Prod.snd))) (hne : gs ≠ []) (cfg : Cfg) (hcfg : cfg.Valid)
    (fans : List (List I)) (hr : Returns cfg p xy .counterclockwise fans) (u v : I) :
    (((u, v) ∈ (gs.map (List.map Prod.fst)).flatMap cycleEdges ∨ (v, u) ∈ (gs.map (List.map Prod.fst)).flatMap cycleEdges) →
      (InteriorLeft (gs.map (List.map Prod.snd)) (place p xy u) (place p xy v) ∧
          ¬ InteriorLeft (gs.map (List.map Prod.snd)) (place p xy v) (place p xy u) ∧
          net ((fans.flatMap fanTriangles).flatMap sides) u v = 1) ∨
        (InteriorLeft (gs.map (List.map Prod.snd)) (place p xy v) (place p xy u) ∧
          ¬ InteriorLeft (gs.map (List.map Prod.snd)) (place p xy u) (place p xy v) ∧
          net ((fans.flatMap fanTriangles).flatMap sides) u v = -1)) ∧
      ((u, v) ∉ (gs.map (List.map Prod.fst)).flatMap cycleEdges → (v, u) ∉ (gs.map (List.map Prod.fst)).flatMap cycleEdges →
        net ((fans.flatMap fanTriangles).flatMap sides) u v = 0) := by
  obtain ⟨fwd, hM⟩ := returned_mesh hd hv hne hcfg hr
  have hv' := hv
  rw [← placed_map hd] at hv' ⊢
  have hn := hM.net_eq hv' u v
  refine ⟨fun h => ?_, fun h1 h2 => by rw [hn, if_neg h1, if_neg h2]⟩
  by_cases h1 : (u, v) ∈ (gs.map (List.map Prod.fst)).flatMap cycleEdges
  · rw [if_pos h1] at hn
    obtain ⟨a, b⟩ := hM.left_iff hv' h1
    simp only [] at a b
    rw [a, b, hn]
    cases fwd (u, v) <;> simp
  · have h2 := h.resolve_left h1
    rw [if_neg h1, if_pos h2] at hn
    obtain ⟨a, b⟩ := hM.left_iff hv' h2
    simp only [] at a b
    rw [a, b, hn]
    cases fwd (v, u) <;> simp

/-- **C34.**  Every vertex of the input is a corner of some triangle. -/
theorem C34_every_vertex_used (p : PolyList I V) (xy : V → Coords K) (gs : List (List (I × Coords K)))
    (hd : Describes p xy gs) (hv : ValidPolys (gs.map (List.map Prod.snd))) (hne : gs ≠ []) (cfg : Cfg) (hcfg : cfg.Valid)
    (fans : List (List I)) (hr : Returns cfg p xy .counterclockwise fans) :
    ∀ g ∈ gs, ∀ v ∈ g, ∃ t ∈ fans.flatMap fanTriangles, v.1 = t.1 ∨ v.1 = t.2.1 ∨ v.1 = t.2.2 := by
  obtain ⟨fwd, hM⟩ := returned_mesh hd hv hne hcfg hr
  have hv' := hv
  rw [← placed_map hd] at hv'
  exact fun g hg v hvg => hM.used hv'
    (List.mem_flatten.2 ⟨_, List.mem_map.2 ⟨g, hg, rfl⟩, List.mem_map.2 ⟨v, hvg, rfl⟩⟩)

section Examples

/-- The hypotheses hold for the square with a hole. -/
theorem holed_ne : indexedFrom (id : Coords ℚ → Coords ℚ) 0 holed ≠ [] := by decide +kernel

/-- A format that fails when it is asked for a second fan. -/
def oneFanOnly : FanFormat (Nat × Nat) where
  B := List (Nat × Nat)
  E := String
  O := List (Nat × Nat)
  W := Unit
  winding := .counterclockwise
  unused := ()
  start a b c := .ok [a, b, c]
  newFan s _ _ _ := (s, .error (.err "a second fan"))
  extendFan s v := (s ++ [v], .ok ())
  build s := ((), .ok s)
  fail _ _ := ()
  drop _ := ()

/-- C47: the hypotheses hold for the square with a hole and a format that fails. -/
example : ∃ s r, (∀ fuel ≥ ((PolyList.nested holed).elems.length + 3) ^ 2,
    triangulate (Cfg.plain (fun _ _ => 0) true) fuel (PolyList.nested holed) id oneFanOnly = (s, r)) ∧
    r ≠ .error .timeout ∧ r ≠ .error .panic := by
  obtain ⟨s, r, h1, -, h3⟩ := C47_only_the_format_can_fail _ _ _ holed_describes holed_valid holed_ne
    (Cfg.plain (fun _ _ => 0) true) (Cfg.plain_valid _ _) oneFanOnly
  exact ⟨s, r, h1, h3 .timeout ⟨by simp [oneFanOnly], by simp [oneFanOnly, Grave.fault], by simp [oneFanOnly], by simp [oneFanOnly]⟩,
    h3 .panic ⟨by simp [oneFanOnly], by simp [oneFanOnly, Grave.fault], by simp [oneFanOnly], by simp [oneFanOnly]⟩⟩

/-- The fans of the square with a hole exist, and have the properties above. -/
example : ∃ fans, Returns (Cfg.plain (fun _ _ => 0) true) (PolyList.nested holed) id .counterclockwise fans ∧
    ((fans.flatMap fanTriangles).map fun t => orient (place (PolyList.nested holed) id t.1)
      (place (PolyList.nested holed) id t.2.1) (place (PolyList.nested holed) id t.2.2)).sum = 64 := by
  obtain ⟨fans, h⟩ := (C01_valid_input_succeeds _ _ _ holed_describes holed_valid holed_ne
    (Cfg.plain (fun _ _ => 0) true) (Cfg.plain_valid _ _)).2 .counterclockwise
  refine ⟨fans, h, ?_⟩
  rw [(C04_areas_add_up _ _ _ holed_describes holed_valid holed_ne _ (Cfg.plain_valid _ _) fans h).1]
  decide +kernel

/-- The vertices of the square with a hole are in general position with respect to these two points, the first one
of which is in the hole. -/
theorem holed_general : ∀ q ∈ [(⟨31/10, 28/10⟩ : Coords ℚ), ⟨1/7, 2/9⟩],
    ∀ a ∈ ((indexedFrom (id : Coords ℚ → Coords ℚ) 0 holed).map (List.map Prod.fst)).flatten,
    ∀ b ∈ ((indexedFrom (id : Coords ℚ → Coords ℚ) 0 holed).map (List.map Prod.fst)).flatten,
      orient (place (PolyList.nested holed) id a) (place (PolyList.nested holed) id b) q ≠ 0 ∨
        a = b ∧ place (PolyList.nested holed) id a ≠ q := by decide +kernel

/-- C02: the hypotheses hold for a point in the hole, which is not covered, and one outside of it, which is. -/
example : ∃ fans, Returns (Cfg.plain (fun _ _ => 0) true) (PolyList.nested holed) id .counterclockwise fans ∧
    ((fans.flatMap fanTriangles).filter fun t => InTriangle (placed (PolyList.nested holed) id t) ⟨31/10, 28/10⟩).length = 0 ∧
    ((fans.flatMap fanTriangles).filter fun t => InTriangle (placed (PolyList.nested holed) id t) ⟨1/7, 2/9⟩).length = 1 := by
  obtain ⟨fans, h⟩ := (C01_valid_input_succeeds _ _ _ holed_describes holed_valid holed_ne
    (Cfg.plain (fun _ _ => 0) true) (Cfg.plain_valid _ _)).2 .counterclockwise
  obtain ⟨fwd, hM⟩ := returned_mesh holed_describes holed_valid holed_ne (Cfg.plain_valid _ _) h
  have off : ∀ q ∈ [(⟨31/10, 28/10⟩ : Coords ℚ), ⟨1/7, 2/9⟩], ∀ t ∈ fans.flatMap fanTriangles,
      ∀ s ∈ sides (placed (PolyList.nested holed) id t), ¬ OnSeg s q := by
    intro q hq t ht s hs ho
    have h1 := hM.mem t ht
    have key : ∀ a ∈ ((indexedFrom (id : Coords ℚ → Coords ℚ) 0 holed).map (List.map Prod.fst)).flatten,
        ∀ b ∈ ((indexedFrom (id : Coords ℚ → Coords ℚ) 0 holed).map (List.map Prod.fst)).flatten,
        ¬ OnSeg (place (PolyList.nested holed) id a, place (PolyList.nested holed) id b) q := by
      intro a ha b hb hab
      rcases holed_general q hq a ha b hb with k | ⟨rfl, k⟩
      · exact k (orient_onSeg hab)
      · obtain ⟨c, -, -, hx, hy⟩ := hab
        simp only [sub_self, mul_zero, add_zero] at hx hy
        exact k (coords_ext hx.symm hy.symm)
    simp only [sides, placed, List.mem_cons, List.not_mem_nil, or_false] at hs
    rcases hs with rfl | rfl | rfl
    · exact key _ h1.1 _ h1.2.1 ho
    · exact key _ h1.2.1 _ h1.2.2 ho
    · exact key _ h1.2.2 _ h1.1 ho
  refine ⟨fans, h, ?_, ?_⟩
  · rw [C02_covers_once _ _ _ holed_describes holed_valid holed_ne _ (Cfg.plain_valid _ _) fans h _ (off _ (by simp))]
    decide +kernel
  · rw [C02_covers_once _ _ _ holed_describes holed_valid holed_ne _ (Cfg.plain_valid _ _) fans h _ (off _ (by simp))]
    decide +kernel

/-- C02: a corner of the square is strictly inside no triangle; a point that may be on a side is in a closed one. -/
example : ∃ fans, Returns (Cfg.plain (fun _ _ => 0) true) (PolyList.nested holed) id .counterclockwise fans ∧
    (∀ t ∈ fans.flatMap fanTriangles, ¬ InTriangle (placed (PolyList.nested holed) id t) ⟨6, 6⟩) ∧
    ∃ t ∈ fans.flatMap fanTriangles, InHull (placed (PolyList.nested holed) id t) ⟨1, 1⟩ := by
  obtain ⟨fans, h⟩ := (C01_valid_input_succeeds _ _ _ holed_describes holed_valid holed_ne
    (Cfg.plain (fun _ _ => 0) true) (Cfg.plain_valid _ _)).2 .counterclockwise
  have k := fun q => C02_every_point _ _ _ holed_describes holed_valid holed_ne _ (Cfg.plain_valid _ _) fans h q
  refine ⟨fans, h, (k ⟨6, 6⟩).2.1 ⟨(⟨6, 0⟩, ⟨6, 6⟩), by decide +kernel, 1, by decide, by decide, by decide +kernel,
    by decide +kernel⟩, ?_⟩
  obtain ⟨t, ht, -, h2⟩ := ((k ⟨1, 1⟩).2.2 fun e he ho =>
    (by decide +kernel : ∀ e ∈ ((indexedFrom (id : Coords ℚ → Coords ℚ) 0 holed).map (List.map Prod.snd)).flatMap cycleEdges,
      orient e.1 e.2 (⟨1, 1⟩ : Coords ℚ) ≠ 0) e he (orient_onSeg ho)).1 (by decide +kernel)
  exact ⟨t, ht, h2⟩

/-- C03, C27, C34: the hypotheses hold for the square with a hole. -/
example : ∃ fans, Returns (Cfg.plain (fun _ _ => 0) true) (PolyList.nested holed) id .counterclockwise fans ∧
    (∀ t ∈ fans.flatMap fanTriangles, 0 ≤ orient (place (PolyList.nested holed) id t.1)
      (place (PolyList.nested holed) id t.2.1) (place (PolyList.nested holed) id t.2.2)) ∧
    net ((fans.flatMap fanTriangles).flatMap sides) (0, 0) (1, 2) = 0 ∧
    ∃ t ∈ fans.flatMap fanTriangles, (0, 1) = t.1 ∨ (0, 1) = t.2.1 ∨ (0, 1) = t.2.2 := by
  obtain ⟨fans, h⟩ := (C01_valid_input_succeeds _ _ _ holed_describes holed_valid holed_ne
    (Cfg.plain (fun _ _ => 0) true) (Cfg.plain_valid _ _)).2 .counterclockwise
  refine ⟨fans, h, fun t ht =>
    (C03_counterclockwise _ _ _ holed_describes holed_valid holed_ne _ (Cfg.plain_valid _ _) fans h t ht).1,
    (C27_watertight _ _ _ holed_describes holed_valid holed_ne _ (Cfg.plain_valid _ _) fans h _ _).2
      (by decide +kernel) (by decide +kernel), ?_⟩
  exact C34_every_vertex_used _ _ _ holed_describes holed_valid holed_ne _ (Cfg.plain_valid _ _) fans h
    [((0, 0), ⟨0, 0⟩), ((0, 1), ⟨3, 0⟩), ((0, 2), ⟨6, 0⟩), ((0, 3), ⟨6, 6⟩), ((0, 4), ⟨0, 6⟩)] (by decide +kernel)
    ((0, 1), ⟨3, 0⟩) (by decide +kernel)

end Examples

end Tri
