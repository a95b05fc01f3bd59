import Verif.Proof.EdgeFloat
import Verif.Props.Canonical

/-!
# Properties: trapezoidation asks about edges only (C62)
-/

namespace Tri

variable {I J V V' K D : Type} [Field K] [LinearOrder K] [IsStrictOrderedRing K] [DecidableEq I] [DecidableEq J] [Scalar D]

section
attribute [local instance] exact

/-- **C62.**  Arithmetic that need not be exact.  Suppose the coordinates compare as the corners `xy` of a valid input, and the side test
is right for the edges of the polygons (nothing is said about the side of a vertex with respect to two vertices that are not joined).
Then the trapezoidation succeeds in every insertion order.  Whatever the two orders, schedules and builds, from some number of steps
on `triangulate` ends alike for every format, or goes on forever in both cases. -/
theorem C62_reliable_edges_suffice (p : PolyList I V) (xy : V → Coords K) (gs : List (List (I × Coords K)))
    (hd : Describes p xy gs) (hv : ValidPolys (gs.map (List.map Prod.snd))) (hne : gs ≠ []) (xf : V → Coords D)
    (ha : SameEdgeAnswers (gs.map (List.map Prod.fst)) (fun i => (p.getVertex i).map xy) (fun i => (p.getVertex i).map xf))
    (cfg cfg' : Cfg) (hcfg : cfg.Valid) (hcfg' : cfg'.Valid) :
    (∃ N st, ∀ fuel ≥ N, trapezoidize cfg fuel p xf = .ok st) ∧
    (∃ N, ∀ fuel ≥ N, ∀ F : FanFormat I, triangulate cfg fuel p xf F = triangulate cfg' fuel p xf F) ∧
    ∀ w fans, Returns cfg p xf w fans ↔ Returns cfg' p xf w fans := by
  have hdist : (gs.flatten.map Prod.snd).Nodup := by
    have := hv.distinct
    rwa [← List.map_flatten] at this
  have hsame : ∀ i j, SamePoint gs gs i j → i = j := fun i j ⟨c, hi, hj⟩ =>
    congrArg Prod.fst (List.inj_on_of_nodup_map hdist hi hj rfl)
  obtain ⟨N, h⟩ := edge_runs hd hv hne hd hv (fun _ _ => Iff.rfl) ha ha (fun i j h => by rw [hsame i j h]) cfg cfg' hcfg hcfg'
  have heq : ∀ fuel ≥ N, ∀ F : FanFormat I, triangulate cfg fuel p xf F = triangulate cfg' fuel p xf F := by
    intro fuel hf F
    obtain ⟨cs, cs', r, hc, h1, h2⟩ := h fuel hf F.winding
    rw [h1 F rfl, h2 F rfl, calls_eq hsame hc]
  refine ⟨?_, ⟨N, heq⟩, fun w fans => ?_⟩
  · obtain ⟨T, Nx, S, k, st, st', hr, -⟩ := runs_match hd hv hne hd hv (fun _ _ => Iff.rfl) cfg cfg' hcfg hcfg'
    obtain ⟨sf, e1, -⟩ := RelR.ok_left ((hr k le_rfl).1 ▸ trapezoidize_edges hd hv ha cfg k)
    exact ⟨k, sf, fun fuel hf => ((trapezoidize_fle cfg p xf hf).resolve_left (by rw [e1]; simp)).trans e1⟩
  · constructor <;> rintro ⟨h3, M, hM⟩ <;> refine ⟨h3, max N M, fun fuel hf => ?_⟩
    · rw [← heq fuel (le_trans (le_max_left _ _) hf)]
      exact hM fuel (le_trans (le_max_right _ _) hf)
    · rw [heq fuel (le_trans (le_max_left _ _) hf)]
      exact hM fuel (le_trans (le_max_right _ _) hf)

/-- **C62**, for different inputs: nothing depends on the order of the polygons, on the vertex a polygon starts with, on the direction
in which its vertices are listed, or on the kind of list.  If one input is triangulated, then so is the other, with the same fans, corner by
corner. -/
theorem C62_same_edges_same_fans (p : PolyList I V) (xy : V → Coords K) (gs : List (List (I × Coords K))) (hd : Describes p xy gs)
    (p' : PolyList J V') (xy' : V' → Coords K) (gs' : List (List (J × Coords K))) (hd' : Describes p' xy' gs')
    (hv : ValidPolys (gs.map (List.map Prod.snd))) (hv' : ValidPolys (gs'.map (List.map Prod.snd))) (hne : gs ≠ [])
    (h : SameEdges (gs.map (List.map Prod.snd)) (gs'.map (List.map Prod.snd))) (xf : V → Coords D) (xf' : V' → Coords D)
    (ha : SameEdgeAnswers (gs.map (List.map Prod.fst)) (fun i => (p.getVertex i).map xy) (fun i => (p.getVertex i).map xf))
    (ha' : SameEdgeAnswers (gs'.map (List.map Prod.fst)) (fun i => (p'.getVertex i).map xy') (fun i => (p'.getVertex i).map xf'))
    (hx : ∀ i v j v', p.getVertex i = some v → p'.getVertex j = some v' → xy v = xy' v' → xf v = xf' v')
    (cfg cfg' : Cfg) (hcfg : cfg.Valid) (hcfg' : cfg'.Valid) (w : Winding) (fans : List (List I)) (hr : Returns cfg p xf w fans) :
    ∃ fans', Returns cfg' p' xf' w fans' ∧ fans.map (List.map (place p xy)) = fans'.map (List.map (place p' xy')) := by
  have hx' : ∀ i j, SamePoint gs gs' i j → p.at_ xf i = p'.at_ xf' j := by
    rintro i j ⟨c, hi, hj⟩
    obtain ⟨g, hg, hi⟩ := List.mem_flatten.1 hi
    obtain ⟨g', hg', hj⟩ := List.mem_flatten.1 hj
    obtain ⟨v, e1, e2⟩ := Option.map_eq_some_iff.1 (hd.coords g hg _ hi)
    obtain ⟨v', e1', e2'⟩ := Option.map_eq_some_iff.1 (hd'.coords g' hg' _ hj)
    show (p.getVertex i).map xf = (p'.getVertex j).map xf'
    rw [e1, e1', Option.map_some, Option.map_some, hx i v j v' e1 e1' (e2.trans e2'.symm)]
  obtain ⟨N, ht⟩ := edge_runs hd hv hne hd' hv' h ha ha' hx' cfg cfg' hcfg hcfg'
  obtain ⟨h3, M, hM⟩ := hr
  obtain ⟨cs, cs', r, hc, h1, h2⟩ := ht _ (le_max_left N M) w
  have e := hM _ (le_max_right N M)
  rw [h1 _ rfl] at e
  obtain ⟨rfl, a, b, c, t, hcs⟩ := play_recorder_fans e
  rw [play_recorder_ok e] at hc hcs
  obtain ⟨fans', hf, rfl⟩ := calls_split_rel h3 hc
  refine ⟨fans', ⟨?_, max N M, fun fuel hfu => ?_⟩, ?_⟩
  · intro f hf'
    obtain ⟨f0, hk0, hff⟩ := forall₂_mem hf hf'
    rw [← hff.length_eq]
    exact h3 f0 hk0
  · have e' : (triangulate cfg' (max N M) p' xf' (recorder J w)).2 = .ok (fans'.flatMap fanCalls) := by
      rw [h2 _ rfl]
      rw [hcs] at hc
      generalize fans'.flatMap fanCalls = cs' at hc
      cases hc with
      | @cons _ k _ t' hk _ =>
        cases k with
        | extend => exact hk.elim
        | newFan => exact play_recorder_new
    rw [triangulate_more _ _ _ _ hfu (by rw [e']; simp), e']
  · refine map_eq_of_forall₂ (fun f f' hff => map_eq_of_forall₂ ?_ hff) hf
    rintro i j ⟨c, hi, hj⟩
    rw [place_of hd hi, place_of hd' hj]

end

section
attribute [local instance] exact ieee

/-- **C62** for floating point coordinates of the usual size.  It is enough that the side test is reliable for the edges of the polygons. -/
theorem C62_floats (f : FloatFormat) (hf : f.Usual) (p : PolyList I V) (xy : V → Coords ℚ) (gs : List (List (I × Coords ℚ)))
    (hd : Describes p xy gs) (hv : ValidPolys (gs.map (List.map Prod.snd))) (hne : gs ≠ [])
    (hs : ∀ i v, p.getVertex i = some v → f.Sound (xy v))
    (hc : ∀ a b, (a, b) ∈ (gs.map (List.map Prod.snd)).flatMap cycleEdges ∨ (b, a) ∈ (gs.map (List.map Prod.snd)).flatMap cycleEdges →
      below a b → ∀ i v, p.getVertex i = some v → (xy v).y ≠ b.y → (xy v).y ≠ a.y → f.Reliable a b (xy v))
    (cfg cfg' : Cfg) (hcfg : cfg.Valid) (hcfg' : cfg'.Valid) :
    (∃ N st, ∀ fuel ≥ N, trapezoidize cfg fuel p (fun v => (xy v).toFl f) = .ok st) ∧
    (∃ N, ∀ fuel ≥ N, ∀ F : FanFormat I, triangulate cfg fuel p (fun v => (xy v).toFl f) F =
      triangulate cfg' fuel p (fun v => (xy v).toFl f) F) ∧
    ∀ w fans, Returns cfg p (fun v => (xy v).toFl f) w fans ↔ Returns cfg' p (fun v => (xy v).toFl f) w fans :=
  C62_reliable_edges_suffice p xy gs hd hv hne _ (edge_answers_toFl hf hd hs hc) cfg cfg' hcfg hcfg'

/-- **C62** for polygons whose edges are horizontal or vertical.  The coordinates may be any numbers of the format of the usual size that are
multiples of some `2 ^ k` with `emin < 2 k`.  For `f32` these are zero and the numbers between `2 ^ -51` and `2 ^ 61`, for `f64` zero
and the numbers between `2 ^ -484` and `2 ^ 509`. -/
theorem C62_horizontal_and_vertical_edges (f : FloatFormat) (hf : f.Usual) (hp : 4 ≤ f.p) (k : Int) (hk : f.emin < 2 * k) (p : PolyList I V)
    (xy : V → Coords ℚ) (gs : List (List (I × Coords ℚ)))
    (hd : Describes p xy gs) (hv : ValidPolys (gs.map (List.map Prod.snd))) (hne : gs ≠ [])
    (hs : ∀ i v, p.getVertex i = some v → f.Sound (xy v))
    (hg : ∀ i v, p.getVertex i = some v → ∃ m n : Int, (xy v).x = m * pow2 k ∧ (xy v).y = n * pow2 k)
    (hax : ∀ e ∈ (gs.map (List.map Prod.snd)).flatMap cycleEdges, e.1.x = e.2.x ∨ e.1.y = e.2.y)
    (cfg cfg' : Cfg) (hcfg : cfg.Valid) (hcfg' : cfg'.Valid) :
    (∃ N st, ∀ fuel ≥ N, trapezoidize cfg fuel p (fun v => (xy v).toFl f) = .ok st) ∧
    (∃ N, ∀ fuel ≥ N, ∀ F : FanFormat I, triangulate cfg fuel p (fun v => (xy v).toFl f) F =
      triangulate cfg' fuel p (fun v => (xy v).toFl f) F) ∧
    ∀ w fans, Returns cfg p (fun v => (xy v).toFl f) w fans ↔ Returns cfg' p (fun v => (xy v).toFl f) w fans := 
  C62_reliable_edges_suffice p xy gs hd hv hne _ (edge_answers_axis hf hp hk hd hs hg hax) cfg cfg' hcfg hcfg'

/-! ## The example of the README -/

/-- The `f32` nearest to `0.05`. -/
def f32_05 : ℚ := 13421773 * pow2 (-28)

/-- The `f32` nearest to `0.95`. -/
def f32_95 : ℚ := 15938355 * pow2 (-24)

/-- The hollow square (`README.md:20-23`, `lib.rs:17-20`). -/
def readme : List (List (Coords ℚ)) :=
  [[⟨0, 0⟩, ⟨0, 1⟩, ⟨1, 1⟩, ⟨1, 0⟩], [⟨f32_05, f32_05⟩, ⟨f32_05, f32_95⟩, ⟨f32_95, f32_95⟩, ⟨f32_95, f32_05⟩]]

theorem readme_describes : Describes (PolyList.nested readme) id (indexedFrom id 0 readme) :=
  describes_nested readme id (by decide +kernel)

theorem readme_valid : ValidPolys ((indexedFrom id 0 readme).map (List.map Prod.snd)) := polysOk_sound (by decide +kernel)

/-- The numbers of the example. -/
theorem readme_number {q : ℚ} (h : q ∈ [0, 1, f32_05, f32_95]) :
    binary32.Fits q ∧ |q| ≤ pow2 (0 : Nat) ∧ ∃ m : Int, q = m * pow2 (-28) := by
  simp only [List.mem_cons, List.not_mem_nil, or_false] at h
  rcases h with rfl | rfl | rfl | rfl
  · exact ⟨⟨0, 0, by decide +kernel, by decide, by decide⟩, by decide +kernel, 0, by decide +kernel⟩
  · exact ⟨⟨1, 0, by decide +kernel, by decide, by decide⟩, by decide +kernel, 2 ^ 28, by decide +kernel⟩
  · exact ⟨⟨13421773, -28, by decide +kernel, by decide, by decide⟩, by decide +kernel, 13421773, by decide +kernel⟩
  · exact ⟨⟨15938355, -24, by decide +kernel, by decide, by decide⟩, by decide +kernel, 15938355 * 2 ^ 4, by decide +kernel⟩

/-- The fans for the hollow square. -/
def readmeFans : Winding → List (List (Nat × Nat))
  | .counterclockwise => [[(0, 2), (0, 1), (1, 2), (1, 3)], [(0, 3), (0, 2), (1, 3), (1, 0)], [(0, 1), (1, 0), (1, 1), (1, 2)],
      [(0, 0), (0, 3), (1, 0), (0, 1)]]
  | .clockwise => [[(0, 2), (1, 3), (1, 2), (0, 1)], [(1, 3), (1, 0), (0, 3), (0, 2)], [(1, 1), (1, 2), (0, 1), (1, 0)],
      [(0, 0), (0, 1), (1, 0), (0, 3)]]

/-- Side tests for the edges of the hollow square, in any arrangement. -/
theorem readme_answers {gs : List (List (Coords ℚ))} (hne : ∀ g ∈ gs, g ≠ [])
    (hq : ∀ c ∈ gs.flatten, c.x ∈ [0, 1, f32_05, f32_95] ∧ c.y ∈ [0, 1, f32_05, f32_95])
    (hax : ∀ e ∈ gs.flatMap cycleEdges, e.1.x = e.2.x ∨ e.1.y = e.2.y) :
    SameEdgeAnswers ((indexedFrom id 0 gs).map (List.map Prod.fst)) (fun i => ((PolyList.nested gs).getVertex i).map id)
      (fun i => ((PolyList.nested gs).getVertex i).map (Coords.toFl binary32)) := by
  have hm : ∀ {i : Nat × Nat} {v : Coords ℚ}, (PolyList.nested gs).getVertex i = some v → v ∈ gs.flatten := by
    intro i v h
    obtain ⟨g, h1, h2⟩ := Option.bind_eq_some_iff.1 (show (gs[i.1]?.bind fun p => p[i.2]?) = some v from h)
    exact List.mem_flatten.2 ⟨g, List.mem_of_getElem? h1, List.mem_of_getElem? h2⟩
  refine edge_answers_axis usual32 (by decide) (k := -28) (by decide) (xy := id) (describes_nested gs id hne) (fun i v h => ?_) (fun i v h => ?_) ?_
  · obtain ⟨hx, hy⟩ := hq v (hm h)
    exact ⟨(readme_number hx).1, (readme_number hy).1, 0, by decide, (readme_number hx).2.1, (readme_number hy).2.1⟩
  · obtain ⟨hx, hy⟩ := hq v (hm h)
    obtain ⟨m, hm⟩ := (readme_number hx).2.2
    obtain ⟨n, hn⟩ := (readme_number hy).2.2
    exact ⟨m, n, hm, hn⟩
  · rw [indexedFrom_snd]
    simpa using hax

/-- **C62.**  The example of the README, with `f32` coordinates: whatever the insertion order, the schedule and the build, the fans are these,
and exact arithmetic gives the same ones. -/
theorem C62_readme_example (cfg : Cfg) (hcfg : cfg.Valid) (w : Winding) :
    Returns cfg (PolyList.nested readme) (Coords.toFl binary32) w (readmeFans w) ∧ Returns cfg (PolyList.nested readme) id w (readmeFans w) := by
  have hne : indexedFrom id 0 readme ≠ [] := by simp [readme, indexedFrom]
  have h3 : ∀ g ∈ readmeFans w, 3 ≤ g.length := by cases w <;> decide
  have e1 : (triangulate (Cfg.plain (fun _ _ => 0) true) 200 (PolyList.nested readme) (Coords.toFl binary32) (recorder _ w)).2 =
      .ok ((readmeFans w).flatMap fanCalls) := by cases w <;> decide +kernel
  have e2 : (triangulate (Cfg.plain (fun _ _ => 0) true) 200 (PolyList.nested readme) id (recorder _ w)).2 =
      .ok ((readmeFans w).flatMap fanCalls) := by cases w <;> decide +kernel
  have r1 : Returns (Cfg.plain (fun _ _ => 0) true) (PolyList.nested readme) (Coords.toFl binary32) w (readmeFans w) :=
    ⟨h3, 200, fun fuel hf => by rw [triangulate_more _ _ _ _ hf (by rw [e1]; simp), e1]⟩
  have r2 : Returns (Cfg.plain (fun _ _ => 0) true) (PolyList.nested readme) id w (readmeFans w) :=
    ⟨h3, 200, fun fuel hf => by rw [triangulate_more _ _ _ _ hf (by rw [e2]; simp), e2]⟩
  refine ⟨?_, ?_⟩
  · exact ((C62_reliable_edges_suffice (PolyList.nested readme) id _ readme_describes readme_valid hne _
      (readme_answers (by decide +kernel) (by decide +kernel) (by decide +kernel)) _ cfg (Cfg.plain_valid _ _) hcfg).2.2 w _).1 r1
  · obtain ⟨N, hN⟩ := r2.2
    obtain ⟨r, hr⟩ := C44_shuffle_does_not_matter (PolyList.nested readme) id _ readme_describes readme_valid hne
      (Cfg.plain (fun _ _ => 0) true) cfg (Cfg.plain_valid _ _) hcfg (recorder _ w)
    refine ⟨h3, max N (((PolyList.nested readme).elems.length + 3) ^ 2), fun fuel hf => ?_⟩
    have h := hr fuel (le_trans (le_max_right _ _) hf)
    rw [h.2, ← h.1]
    exact hN fuel (le_trans (le_max_left _ _) hf)

/-- The hollow square, the hole first and from another start, the square in the opposite direction. -/
def readme' : List (List (Coords ℚ)) :=
  [[⟨f32_95, f32_95⟩, ⟨f32_95, f32_05⟩, ⟨f32_05, f32_05⟩, ⟨f32_05, f32_95⟩], [⟨1, 0⟩, ⟨1, 1⟩, ⟨0, 1⟩, ⟨0, 0⟩]]

/-- C62: the hypotheses hold for the two forms of the hollow square. -/
example : ∃ fans', Returns (Cfg.backwards (fun _ _ => 0) false) (PolyList.nested readme') (Coords.toFl binary32) .counterclockwise fans' ∧
    (readmeFans .counterclockwise).map (List.map (place (PolyList.nested readme) id)) = fans'.map (List.map (place (PolyList.nested readme') id)) := by
  refine C62_same_edges_same_fans _ id _ readme_describes _ id _ (describes_nested readme' id (by decide +kernel)) readme_valid
    (polysOk_sound (by decide +kernel)) (by simp [readme, indexedFrom]) (Rearranged.sameEdges ?_) _ _
    (readme_answers (by decide +kernel) (by decide +kernel) (by decide +kernel))
    (readme_answers (by decide +kernel) (by decide +kernel) (by decide +kernel)) (fun i v j v' _ _ h => congrArg _ h)
    _ _ (Cfg.plain_valid (fun _ _ => 0) true) (Cfg.backwards_valid _ _) _ _ (C62_readme_example _ (Cfg.plain_valid _ _) _).1
  rw [indexedFrom_snd, indexedFrom_snd]
  exact ⟨[_, _], .swap _ _ [], .cons ⟨[⟨f32_05, f32_05⟩, ⟨f32_05, f32_95⟩], [⟨f32_95, f32_95⟩, ⟨f32_95, f32_05⟩], rfl, .inl rfl⟩
    (.cons ⟨[], [⟨0, 0⟩, ⟨0, 1⟩, ⟨1, 1⟩, ⟨1, 0⟩], rfl, .inr rfl⟩ .nil)⟩

end

end Tri
