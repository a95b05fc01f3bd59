import Verif.Props.Touching
import Verif.Props.Mesh
import Verif.Proof.TouchEvery
import Verif.Proof.TouchTwin
import Verif.Props.Floats

/-!
# C67: edges touched from the right or from above

C61 shows that a vertex in the middle of an edge can be refused.  Here: if every edge that is touched is touched from the right only
(from above only, if it is horizontal), then the input is triangulated.
-/

namespace Tri

section
variable {I V K : Type} [Field K] [LinearOrder K] [IsStrictOrderedRing K] [DecidableEq I]

attribute [local instance] exact

/-- **C67.**  Any two edges meet at most in a common end or one leans on the other from the right (its ends are right of the other one,
above it if that is horizontal, or in the middle of it).  Then every run ends and succeeds, whatever the segment order, the relocation schedule, the build and the
(infallible) format; if `n` is the number of elements of the index iterator, then no loop takes more than `(n + 3) ^ 2` steps. -/
theorem C67_touching_right_succeeds (p : PolyList I V) (xy : V → Coords K) (gs : List (List (I × Coords K)))
    (hd : Describes p xy gs) (hv : TouchingPolys (gs.map (List.map Prod.snd))) (hne : gs ≠ []) (cfg : Cfg) (hcfg : cfg.Valid) :
    (∀ F : FanFormat I, F.Infallible → ∃ o s, ∀ fuel ≥ (p.elems.length + 3) ^ 2, triangulate cfg fuel p xy F = (s, .ok o)) ∧
      ∃ fans, Returns cfg p xy .counterclockwise fans := by
  obtain ⟨fans, hr, -, hF⟩ := run_touch hd hv hne cfg hcfg
  refine ⟨fun F hI => ?_, fans, hr⟩
  obtain ⟨cs, h1, h2, -, h3⟩ := hF F
  obtain ⟨o, ho⟩ := play_infallible hI h1 h2
  exact ⟨o, (play F cs (.ok ())).1, fun fuel hf => by rw [h3 fuel hf, ← ho]⟩

/-- **C67.**  On such input nothing but the format can fail. -/
theorem C67_only_the_format_can_fail (p : PolyList I V) (xy : V → Coords K) (gs : List (List (I × Coords K)))
    (hd : Describes p xy gs) (hv : TouchingPolys (gs.map (List.map Prod.snd))) (hne : gs ≠ []) (cfg : Cfg) (hcfg : cfg.Valid)
    (F : FanFormat I) :
    ∃ s r, (∀ fuel ≥ (p.elems.length + 3) ^ 2, triangulate cfg fuel p xy F = (s, r)) ∧
      (∀ e, r = .error (.err e) → ∃ e', e = .fanBuilder e') ∧
      ∀ g : Grave, F.Never g → r ≠ .error g.fault := by
  obtain ⟨_, _, _, hF⟩ := run_touch hd hv hne cfg hcfg
  obtain ⟨cs, h1, h2, -, h3⟩ := hF F
  refine ⟨(play F cs (.ok ())).1, (play F cs (.ok ())).2, h3, fun e he => ?_, fun g hg => play_never F g hg cs _ (by simp)⟩
  rcases play_blames F h1 h2 with ⟨o, ho⟩ | ⟨e', he'⟩
  · rw [ho] at he; cases he
  · rw [he'] at he
    cases e' with
    | err e' => exact ⟨e', by simpa [liftBuilderErr] using he.symm⟩
    | panic => simp [liftBuilderErr] at he
    | ub => simp [liftBuilderErr] at he
    | timeout => simp [liftBuilderErr] at he

/-- **C67.**  The triangles of such a run have three different vertices of the input as corners, none is clockwise, and they cover the
interior exactly once: a point on no edge and no side lies in exactly one triangle if it is inside by the even-odd rule, and in none
otherwise. -/
theorem C67_touching_right_covers_once (p : PolyList I V) (xy : V → Coords K) (gs : List (List (I × Coords K)))
    (hd : Describes p xy gs) (hv : TouchingPolys (gs.map (List.map Prod.snd))) (hne : gs ≠ []) (cfg : Cfg) (hcfg : cfg.Valid)
    (fans : List (List I)) (hr : Returns cfg p xy .counterclockwise fans) :
    (∀ t ∈ fans.flatMap fanTriangles,
      (t.1 ∈ (gs.map (List.map Prod.fst)).flatten ∧ t.2.1 ∈ (gs.map (List.map Prod.fst)).flatten ∧
        t.2.2 ∈ (gs.map (List.map Prod.fst)).flatten) ∧
      (place p xy t.1 ≠ place p xy t.2.1 ∧ place p xy t.2.1 ≠ place p xy t.2.2 ∧ place p xy t.2.2 ≠ place p xy t.1) ∧
      0 ≤ orient (place p xy t.1) (place p xy t.2.1) (place p xy t.2.2)) ∧
    ∀ q, (∀ e ∈ (gs.map (List.map Prod.snd)).flatMap cycleEdges, ¬ OnSeg e q) →
      (∀ t ∈ fans.flatMap fanTriangles, ∀ s ∈ sides (placed p xy t), ¬ OnSeg s q) →
      ((fans.flatMap fanTriangles).filter fun t => InTriangle (placed p xy t) q).length =
        if Inside (gs.map (List.map Prod.snd)) q then 1 else 0 := by
  obtain ⟨fans', hr', hM, -⟩ := run_touch hd hv hne cfg hcfg
  obtain rfl := hr.unique hr'
  refine ⟨fun t ht => ⟨hM.mem t ht, hM.dist t ht, hM.pos t ht⟩, fun q hq hT => ?_⟩
  rw [← placed_map hd] at hq ⊢
  exact hM.cover hq fun t ht => by
    have := hT t ht
    simp only [sides, placed, List.mem_cons, List.not_mem_nil, or_false, forall_eq_or_imp, forall_eq] at this
    exact this

/-- **C67** at every point.  No point is strictly inside two triangles, and a point on no edge, be it on sides of triangles, is inside
the polygons exactly if it is in some closed triangle of positive area. -/
theorem C67_touching_right_every_point (p : PolyList I V) (xy : V → Coords K) (gs : List (List (I × Coords K)))
    (hd : Describes p xy gs) (hv : TouchingPolys (gs.map (List.map Prod.snd))) (hne : gs ≠ []) (cfg : Cfg) (hcfg : cfg.Valid)
    (fans : List (List I)) (hr : Returns cfg p xy .counterclockwise fans) (q : Coords K) :
    ((fans.flatMap fanTriangles).filter fun t => InTriangle (placed p xy t) q).length ≤ 1 ∧
      ((∀ e ∈ (gs.map (List.map Prod.snd)).flatMap cycleEdges, ¬ OnSeg e q) →
        (Inside (gs.map (List.map Prod.snd)) q ↔ ∃ t ∈ fans.flatMap fanTriangles,
          orient (place p xy t.1) (place p xy t.2.1) (place p xy t.2.2) ≠ 0 ∧ InHull (placed p xy t) q)) := by
  obtain ⟨fans', hr', hM, -⟩ := run_touch hd hv hne cfg hcfg
  obtain rfl := hr.unique hr'
  rw [← placed_map hd]
  exact ⟨hM.at_most_one q, fun hoff => ⟨fun hin => hM.inside_hull hoff hin, fun ⟨t, ht, h0, hin⟩ => hM.hull_inside ht h0 hoff hin⟩⟩

/-- **C67.**  The areas of the triangles add up to the sum of the areas of the polygons, each with one sign, and for one polygon to the
absolute value of its shoelace sum. -/
theorem C67_areas_add_up (p : PolyList I V) (xy : V → Coords K) (gs : List (List (I × Coords K)))
    (hd : Describes p xy gs) (hv : TouchingPolys (gs.map (List.map Prod.snd))) (hne : gs ≠ []) (cfg : Cfg) (hcfg : cfg.Valid)
    (fans : List (List I)) (hr : Returns cfg p xy .counterclockwise fans) :
    (∃ sign : List (I × Coords K) → K, (∀ g, sign g = 1 ∨ sign g = -1) ∧
      ((fans.flatMap fanTriangles).map fun t => orient (place p xy t.1) (place p xy t.2.1) (place p xy t.2.2)).sum =
        (gs.map fun g => sign g * |shoelace (g.map Prod.snd)|).sum) ∧
    ∀ g, gs = [g] → ((fans.flatMap fanTriangles).map fun t =>
      orient (place p xy t.1) (place p xy t.2.1) (place p xy t.2.2)).sum = |shoelace (g.map Prod.snd)| := by
  obtain ⟨fans', hr', hM, -⟩ := run_touch hd hv hne cfg hcfg
  obtain rfl := hr.unique hr'
  obtain ⟨dir, h⟩ := hM.area
  have hsum : ((fans.flatMap fanTriangles).map fun t => orient (place p xy t.1) (place p xy t.2.1) (place p xy t.2.2)).sum =
      (gs.map fun g => (if dir (g.map Prod.fst) then 1 else -1) * shoelace (g.map Prod.snd)).sum := by
    rw [h, List.map_map]
    refine congrArg List.sum (List.map_congr_left fun g hg => ?_)
    have e : (g.map Prod.fst).map (place p xy) = g.map Prod.snd := by
      rw [List.map_map]
      exact List.map_congr_left fun v hv => place_of hd (List.mem_flatten.2 ⟨g, hg, hv⟩)
    simp only [Function.comp_apply, e]
  refine ⟨⟨fun g => (if dir (g.map Prod.fst) then 1 else -1) * (if 0 ≤ shoelace (g.map Prod.snd) then 1 else -1), fun g => ?_, ?_⟩,
    fun g hg => ?_⟩
  · dsimp only
    split <;> split <;> simp
  · rw [hsum]
    refine congrArg List.sum (List.map_congr_left fun g _ => ?_)
    rw [mul_assoc]
    congr 1
    split
    · rename_i h0; rw [abs_of_nonneg h0, one_mul]
    · rename_i h0; rw [abs_of_neg (not_le.1 h0)]; ring
  · have h0 : 0 ≤ ((fans.flatMap fanTriangles).map fun t =>
        orient (place p xy t.1) (place p xy t.2.1) (place p xy t.2.2)).sum :=
      List.sum_nonneg fun x hx => by
        obtain ⟨t, ht, rfl⟩ := List.mem_map.1 hx
        exact hM.pos t ht
    rw [hsum, hg] at h0 ⊢
    simp only [List.map_cons, List.map_nil, List.sum_cons, List.sum_nil, add_zero] at h0 ⊢
    split at h0 <;> simp only [*, if_true, if_false, one_mul, Bool.false_eq_true] at h0 ⊢
    · rw [abs_of_nonneg h0]
    · rw [abs_of_nonpos (by linarith)]; ring

/-- **C67.**  A vertex is a corner of some triangle, unless it is on one vertical or horizontal line with the vertices before and after
it. -/
theorem C67_corners_are_used (p : PolyList I V) (xy : V → Coords K) (gs : List (List (I × Coords K)))
    (hd : Describes p xy gs) (hv : TouchingPolys (gs.map (List.map Prod.snd))) (hne : gs ≠ []) (cfg : Cfg) (hcfg : cfg.Valid)
    (fans : List (List I)) (hr : Returns cfg p xy .counterclockwise fans) (g : List (I × Coords K)) (hg : g ∈ gs)
    (a b c : I × Coords K) (hab : (a, b) ∈ cycleEdges g) (hbc : (b, c) ∈ cycleEdges g)
    (hx : ¬ (a.2.x = b.2.x ∧ c.2.x = b.2.x)) (hy : ¬ (a.2.y = b.2.y ∧ c.2.y = b.2.y)) :
    ∃ t ∈ fans.flatMap fanTriangles, b.1 = t.1 ∨ b.1 = t.2.1 ∨ b.1 = t.2.2 := by
  obtain ⟨fans', hr', hM, -⟩ := run_touch hd hv hne cfg hcfg
  obtain rfl := hr.unique hr'
  have m1 := List.mem_flatMap.2 ⟨g, hg, hab⟩
  have m2 := List.mem_flatMap.2 ⟨g, hg, hbc⟩
  refine hM.used a.1 b.1 c.1 ?_ ?_ ?_ ?_
  · rw [flatMap_cycleEdges_map]; exact List.mem_map.2 ⟨_, m1, rfl⟩
  · rw [flatMap_cycleEdges_map]; exact List.mem_map.2 ⟨_, m2, rfl⟩
  · rw [place_of hd (edge_mem m1).1, place_of hd (edge_mem m1).2, place_of hd (edge_mem m2).2]; exact hx
  · rw [place_of hd (edge_mem m1).1, place_of hd (edge_mem m1).2, place_of hd (edge_mem m2).2]; exact hy

/-- **C67.**  As for valid input (C44), the random order of the edges does not matter: with any two shuffles and schedules, and with or
without debug checks, runs end alike for every format. -/
theorem C67_shuffle_does_not_matter (p : PolyList I V) (xy : V → Coords K) (gs : List (List (I × Coords K)))
    (hd : Describes p xy gs) (hv : TouchingPolys (gs.map (List.map Prod.snd))) (hne : gs ≠ [])
    (cfg cfg' : Cfg) (hcfg : cfg.Valid) (hcfg' : cfg'.Valid) (F : FanFormat I) :
    ∃ r, ∀ fuel ≥ (p.elems.length + 3) ^ 2, triangulate cfg fuel p xy F = r ∧ triangulate cfg' fuel p xy F = r := by
  obtain ⟨N, h⟩ := run_twin_touch hd hv hne hd hv (fun _ _ => Iff.rfl) cfg cfg' hcfg hcfg'
  obtain ⟨_, _, _, hF⟩ := run_touch hd hv hne cfg hcfg
  obtain ⟨_, _, _, hF'⟩ := run_touch hd hv hne cfg' hcfg'
  obtain ⟨cs0, -, -, -, h0⟩ := hF F
  obtain ⟨cs1, -, -, -, h1⟩ := hF' F
  obtain ⟨cs, cs', r, hc, h3, h4⟩ := h _ (le_max_left N ((p.elems.length + 3) ^ 2)) F.winding
  have hdist : (gs.flatten.map Prod.snd).Nodup := by
    have := hv.distinct
    rwa [← List.map_flatten] at this
  have he : cs = cs' := calls_eq (fun i j ⟨c, hi, hj⟩ => congrArg Prod.fst (List.inj_on_of_nodup_map hdist hi hj rfl)) hc
  have e0 := h0 _ (le_max_right N ((p.elems.length + 3) ^ 2))
  have e1 := h1 _ (le_max_right N ((p.elems.length + 3) ^ 2))
  refine ⟨play F cs0 (.ok ()), fun fuel hf => ⟨h0 fuel hf, ?_⟩⟩
  rw [h1 fuel hf, ← e0, ← e1, h3 F rfl, h4 F rfl, he]

end

section
variable {I V : Type} [DecidableEq I]

attribute [local instance] ieee exact

/-- **C67** with `f64` and `f32`: on the grids of C42 such input is triangulated as with exact arithmetic. -/
theorem C67_touching_right_grid (f : FloatFormat) (k : Int) (L : Nat)
    (hf : (f = binary64 ∧ L = 25 ∧ -537 ≤ k ∧ k ≤ 484) ∨ (f = binary32 ∧ L = 11 ∧ -74 ≤ k ∧ k ≤ 50))
    (p : PolyList I V) (xy : V → Coords ℚ) (gs : List (List (I × Coords ℚ)))
    (hd : Describes p xy gs) (hv : TouchingPolys (gs.map (List.map Prod.snd))) (hne : gs ≠ [])
    (hg : ∀ i v, p.getVertex i = some v →
      ∃ m n : Int, |m| ≤ 2 ^ L ∧ |n| ≤ 2 ^ L ∧ (xy v).x = m * pow2 k ∧ (xy v).y = n * pow2 k)
    (cfg : Cfg) (hcfg : cfg.Valid) :
    (∀ F : FanFormat I, F.Infallible → ∃ o s, ∀ fuel ≥ (p.elems.length + 3) ^ 2,
      triangulate cfg fuel p (fun v => (xy v).toFl f) F = (s, .ok o)) ∧
    (∀ w fans, Returns cfg p (fun v => (xy v).toFl f) w fans ↔ Returns cfg p xy w fans) ∧
    ∃ fans, Returns cfg p (fun v => (xy v).toFl f) .counterclockwise fans ∧
      (∀ t ∈ fans.flatMap fanTriangles, 0 ≤ orient (place p xy t.1) (place p xy t.2.1) (place p xy t.2.2)) ∧
      ∀ q, ((fans.flatMap fanTriangles).filter fun t => InTriangle (placed p xy t) q).length ≤ 1 ∧
        ((∀ e ∈ (gs.map (List.map Prod.snd)).flatMap cycleEdges, ¬ OnSeg e q) →
          (Inside (gs.map (List.map Prod.snd)) q ↔ ∃ t ∈ fans.flatMap fanTriangles,
            orient (place p xy t.1) (place p xy t.2.1) (place p xy t.2.2) ≠ 0 ∧ InHull (placed p xy t) q)) := by
  have hrun : ∀ fuel (F : FanFormat I), triangulate cfg fuel p (fun v => (xy v).toFl f) F = triangulate cfg fuel p xy F := by
    intro fuel F
    rcases hf with ⟨rfl, rfl, h1, h2⟩ | ⟨rfl, rfl, h1, h2⟩
    · exact C41_grid_is_exact binary64 usual64 k 25 (by decide) (by simp only [binary64]; omega) cfg fuel p xy hg F
    · exact C41_grid_is_exact binary32 usual32 k 11 (by decide) (by simp only [binary32]; omega) cfg fuel p xy hg F
  obtain ⟨h1, fans, hr⟩ := C67_touching_right_succeeds p xy gs hd hv hne cfg hcfg
  refine ⟨fun F hF => ?_, fun w fans => by simp only [Returns, hrun], fans, ⟨hr.1, ?_⟩,
    fun t ht => ((C67_touching_right_covers_once p xy gs hd hv hne cfg hcfg fans hr).1 t ht).2.2,
    fun q => C67_touching_right_every_point p xy gs hd hv hne cfg hcfg fans hr q⟩
  · obtain ⟨o, s, h⟩ := h1 F hF
    exact ⟨o, s, fun fuel hf => by rw [hrun, h fuel hf]⟩
  · obtain ⟨N, hN⟩ := hr.2
    exact ⟨N, fun fuel hf => by rw [hrun]; exact hN fuel hf⟩

end

section Check
variable {K : Type} [Field K] [LinearOrder K] [IsStrictOrderedRing K]

/-- Enough for `v` to be in the middle of `e`. -/
def midOk (e : Coords K × Coords K) (v : Coords K) : Prop :=
  (orient e.1 e.2 v = 0 ∧ ((e.1.y < v.y ∧ v.y < e.2.y) ∨ (e.2.y < v.y ∧ v.y < e.1.y))) ∨
    (e.1.y = v.y ∧ e.2.y = v.y ∧ ((e.1.x < v.x ∧ v.x < e.2.x) ∨ (e.2.x < v.x ∧ v.x < e.1.x)))

instance (e : Coords K × Coords K) (v : Coords K) : Decidable (midOk e v) := by unfold midOk; infer_instance

theorem midOk_sound {e : Coords K × Coords K} {v : Coords K} (h : midOk e v) : OnSeg e v := by
  obtain ⟨a, b⟩ := e
  have hs : orient b a v = - orient a b v := by unfold orient; ring
  rcases h with ⟨h0, h | h⟩ | ⟨h1, h2, h | h⟩
  · exact onSeg_rev (onSeg_height h.1.le h.2 (by rw [hs, show orient a b v = 0 from h0, neg_zero]))
  · exact onSeg_height h.1.le h.2 h0
  · exact onSeg_flat h1 h2 h.1 h.2
  · exact onSeg_rev (onSeg_flat h2 h1 h.1 h.2)

def leanOk (f e : Coords K × Coords K) : Prop :=
  (f.1 ≠ e.1 ∧ f.1 ≠ e.2 ∧ (RightOf e f.1 ∨ midOk e f.1)) ∧ f.2 ≠ e.1 ∧ f.2 ≠ e.2 ∧ (RightOf e f.2 ∨ midOk e f.2)

instance (f e : Coords K × Coords K) : Decidable (leanOk f e) := by unfold leanOk; infer_instance

theorem leanOk_sound {f e : Coords K × Coords K} (h : leanOk f e) : LeansOn f e := by
  rintro v (rfl | rfl)
  · exact ⟨h.1.1, h.1.2.1, h.1.2.2.imp_right midOk_sound⟩
  · exact ⟨h.2.1, h.2.2.1, h.2.2.2.imp_right midOk_sound⟩

/-- A sufficient check for polygons with touching edges, for examples. -/
def touchingOk (gs : List (List (Coords K))) : Prop :=
  (∀ g ∈ gs, 3 ≤ g.length) ∧ gs.flatten.Nodup ∧
    ∀ e ∈ gs.flatMap cycleEdges, ∀ f ∈ gs.flatMap cycleEdges, segsOk e f ∨ leanOk f e ∨ leanOk e f

instance (gs : List (List (Coords K))) : Decidable (touchingOk gs) := by
  unfold touchingOk; infer_instance

theorem touchingOk_sound {gs : List (List (Coords K))} (h : touchingOk gs) : TouchingPolys gs :=
  ⟨h.1, h.2.1, fun e he f hf hne => (h.2.2 e he f hf).imp (fun k => segsOk_sound k hne)
    (Or.imp leanOk_sound leanOk_sound)⟩

end Check

section Examples

attribute [local instance] exact

/-- A room, a smaller one on its right and a gable on top: both share a part of a wall with the first room. -/
def rooms : List (List (Coords ℚ)) :=
  [[⟨0, 0⟩, ⟨4, 0⟩, ⟨4, 9⟩, ⟨0, 9⟩], [⟨4, 2⟩, ⟨8, 2⟩, ⟨8, 5⟩, ⟨4, 5⟩], [⟨1, 9⟩, ⟨3, 9⟩, ⟨2, 12⟩]]

/-- The hypotheses are met by `rooms`, where vertices are in the middle of edges. -/
example : Describes (PolyList.nested rooms) id (indexedFrom id 0 rooms) ∧
    TouchingPolys ((indexedFrom id 0 rooms).map (List.map Prod.snd)) ∧ Touches rooms := by
  refine ⟨describes_nested rooms id (by decide +kernel), touchingOk_sound (by decide +kernel),
    ⟨4, 2⟩, by decide +kernel, (⟨4, 0⟩, ⟨4, 9⟩), by decide +kernel, midOk_sound (.inl (by decide +kernel)), by decide +kernel,
    by decide +kernel⟩

/-- The coordinates of `rooms` are on the grid of `f64` with `k = 0`. -/
example (i : Nat × Nat) (v : Coords ℚ) (h : (PolyList.nested rooms).getVertex i = some v) :
    ∃ m n : Int, |m| ≤ 2 ^ 25 ∧ |n| ≤ 2 ^ 25 ∧ v.x = m * pow2 0 ∧ v.y = n * pow2 0 := by
  have hm : v ∈ rooms.flatten := by
    obtain ⟨g, h1, h2⟩ := Option.bind_eq_some_iff.1 (show (rooms[i.1]?.bind fun p => p[i.2]?) = some v from h)
    exact List.mem_flatten.2 ⟨g, List.mem_of_getElem? h1, List.mem_of_getElem? h2⟩
  have h1 : ∀ v ∈ rooms.flatten, |v.x.num| ≤ 2 ^ 25 ∧ |v.y.num| ≤ 2 ^ 25 ∧ v.x = v.x.num * pow2 0 ∧ v.y = v.y.num * pow2 0 := by
    decide +kernel
  exact ⟨v.x.num, v.y.num, h1 v hm⟩

/-- They are met by the triangle with a hole that C61 shows to be triangulated, and not by its mirror image. -/
example : TouchingPolys touchingLeft := touchingOk_sound (by decide +kernel)

/-- A triangle with a triangular hole, a corner of which is in the middle of the horizontal side on top. -/
def touchingBelow : List (List (Coords ℚ)) := [[⟨0, 8⟩, ⟨8, 8⟩, ⟨4, 0⟩], [⟨4, 8⟩, ⟨5, 5⟩, ⟨3, 5⟩]]

/-- **C67.**  From below it is different: `touchingBelow` is as documented, and refused with an internal error in every insertion order
and in both kinds of builds. -/
theorem C67_touching_below_is_refused :
    AsDocumented touchingBelow ∧ Touches touchingBelow ∧
    ∀ o o' : List Nat, o.Perm (List.range 3) → o'.Perm (List.range 3) → ∀ dbg, ∀ fuel ≥ 60,
      trapezoidize (ordersCfg [o, o'] dbg) fuel (PolyList.nested touchingBelow) id = .error (.err (.internal .noMatchingSide)) ∧
      ∀ F : FanFormat (Nat × Nat), (triangulate (ordersCfg [o, o'] dbg) fuel (PolyList.nested touchingBelow) id F).2 =
        .error (.err (.trapezoidation (.internal .noMatchingSide))) := by
  refine ⟨asDocumented_of (by decide +kernel) (by decide +kernel) (by decide +kernel),
    ⟨⟨4, 8⟩, by decide +kernel, (⟨0, 8⟩, ⟨8, 8⟩), by decide +kernel, ⟨1 / 2, by norm_num, by norm_num, by norm_num, by norm_num⟩,
      by decide +kernel, by decide +kernel⟩, ?_⟩
  intro o o' ho ho' dbg fuel hf
  have h : ∀ o ∈ (List.range 3).permutations', ∀ o' ∈ (List.range 3).permutations', ∀ dbg : Bool,
      (match trapezoidize (ordersCfg [o, o'] dbg) 60 (PolyList.nested touchingBelow) id with
        | .error (.err (.internal .noMatchingSide)) => true | _ => false) = true := by decide +kernel
  have h := h o (List.mem_permutations'.2 ho) o' (List.mem_permutations'.2 ho') dbg
  have ht : trapezoidize (ordersCfg [o, o'] dbg) fuel (PolyList.nested touchingBelow) id =
      .error (.err (.internal .noMatchingSide)) := by
    split at h
    · next h3 =>
      rcases trapezoidize_fle (ordersCfg [o, o'] dbg) (PolyList.nested touchingBelow) id hf with h' | h'
      · rw [h3] at h'; cases h'
      · rw [h', h3]
    · cases h
  refine ⟨ht, fun F => ?_⟩
  unfold triangulate
  rw [ht]
  rfl

/-- Two triangles on either side of the line `x = 4`, with edges on this line that overlap in a part of each. -/
def offsetWalls : List (List (Coords ℚ)) := [[⟨4, 0⟩, ⟨4, 8⟩, ⟨0, 4⟩], [⟨4, 4⟩, ⟨8, 8⟩, ⟨4, 12⟩]]

/-- **C67.**  An edge that runs along another must not go beyond it: the triangles of `offsetWalls` are on different sides of a line,
and the input is refused with an internal error in every insertion order and in both kinds of builds. -/
theorem C67_offset_walls_are_refused :
    (∀ v ∈ offsetWalls.head!, v.x ≤ 4) ∧ (∀ v ∈ offsetWalls.tail.flatten, 4 ≤ v.x) ∧ offsetWalls.flatten.Nodup ∧
    ∀ o o' : List Nat, o.Perm (List.range 3) → o'.Perm (List.range 3) → ∀ dbg, ∀ fuel ≥ 60,
      trapezoidize (ordersCfg [o, o'] dbg) fuel (PolyList.nested offsetWalls) id = .error (.err (.internal .noMatchingSide)) ∧
      ∀ F : FanFormat (Nat × Nat), (triangulate (ordersCfg [o, o'] dbg) fuel (PolyList.nested offsetWalls) id F).2 =
        .error (.err (.trapezoidation (.internal .noMatchingSide))) := by
  refine ⟨by decide +kernel, by decide +kernel, by decide +kernel, ?_⟩
  intro o o' ho ho' dbg fuel hf
  have h : ∀ o ∈ (List.range 3).permutations', ∀ o' ∈ (List.range 3).permutations', ∀ dbg : Bool,
      (match trapezoidize (ordersCfg [o, o'] dbg) 60 (PolyList.nested offsetWalls) id with
        | .error (.err (.internal .noMatchingSide)) => true | _ => false) = true := by decide +kernel
  have h := h o (List.mem_permutations'.2 ho) o' (List.mem_permutations'.2 ho') dbg
  have ht : trapezoidize (ordersCfg [o, o'] dbg) fuel (PolyList.nested offsetWalls) id =
      .error (.err (.internal .noMatchingSide)) := by
    split at h
    · next h3 =>
      rcases trapezoidize_fle (ordersCfg [o, o'] dbg) (PolyList.nested offsetWalls) id hf with h' | h'
      · rw [h3] at h'; cases h'
      · rw [h', h3]
    · cases h
  refine ⟨ht, fun F => ?_⟩
  unfold triangulate
  rw [ht]
  rfl

/-- C67: the corner of the small room in the middle of the wall is used. -/
example (cfg : Cfg) (hcfg : cfg.Valid) (fans : List (List (Nat × Nat)))
    (hr : Returns cfg (PolyList.nested rooms) id .counterclockwise fans) :
    ∃ t ∈ fans.flatMap fanTriangles, (1, 0) = t.1 ∨ (1, 0) = t.2.1 ∨ (1, 0) = t.2.2 :=
  C67_corners_are_used (PolyList.nested rooms) id (indexedFrom id 0 rooms) (describes_nested rooms id (by decide +kernel))
    (touchingOk_sound (by decide +kernel)) (by simp [rooms, indexedFrom]) cfg hcfg fans hr
    [((1, 0), ⟨4, 2⟩), ((1, 1), ⟨8, 2⟩), ((1, 2), ⟨8, 5⟩), ((1, 3), ⟨4, 5⟩)] (by decide +kernel)
    ((1, 3), ⟨4, 5⟩) ((1, 0), ⟨4, 2⟩) ((1, 1), ⟨8, 2⟩) (by decide +kernel) (by decide +kernel) (by decide +kernel) (by decide +kernel)

/-- A room with a triangular hole at its left wall; a vertex of the hole is in the middle of its side along the wall. -/
def niche : List (List (Coords ℚ)) := [[⟨0, 1⟩, ⟨9, 0⟩, ⟨9, 8⟩, ⟨0, 7⟩], [⟨0, 2⟩, ⟨3, 4⟩, ⟨0, 6⟩, ⟨0, 4⟩]]

theorem niche_touching : TouchingPolys ((indexedFrom id 0 niche).map (List.map Prod.snd)) := touchingOk_sound (by decide +kernel)

/-- **C67.**  The exception is needed: the vertex in the middle of that side is a corner of no triangle, in any order. -/
theorem C67_straight_vertex_may_be_unused (cfg : Cfg) (hcfg : cfg.Valid) (fans : List (List (Nat × Nat)))
    (hr : Returns cfg (PolyList.nested niche) id .counterclockwise fans) :
    ∀ t ∈ fans.flatMap fanTriangles, (1, 3) ≠ t.1 ∧ (1, 3) ≠ t.2.1 ∧ (1, 3) ≠ t.2.2 := by
  have key : Returns cfg (PolyList.nested niche) id .counterclockwise
      [[(0, 2), (0, 3), (1, 2), (1, 1)], [(0, 0), (0, 2), (1, 1), (1, 0)], [(0, 2), (0, 0), (0, 1)]] := by
    obtain ⟨r, h⟩ := C67_shuffle_does_not_matter (PolyList.nested niche) id (indexedFrom id 0 niche)
      (describes_nested niche id (by decide +kernel)) niche_touching (by simp [niche, indexedFrom]) cfg (Cfg.plain (fun _ _ => 0) true) hcfg
      (Cfg.plain_valid _ _) (recorder (Nat × Nat) .counterclockwise)
    have h1 : ((PolyList.nested niche).elems.length + 3) ^ 2 ≤ 200 := by decide +kernel
    have h2 : (triangulate (Cfg.plain (fun _ _ => 0) true) 200 (PolyList.nested niche) id
        (recorder (Nat × Nat) .counterclockwise)).2 = .ok (List.flatMap fanCalls
          [[(0, 2), (0, 3), (1, 2), (1, 1)], [(0, 0), (0, 2), (1, 1), (1, 0)], [(0, 2), (0, 0), (0, 1)]]) := by decide +kernel
    refine ⟨by decide, 200, fun fuel hf => ?_⟩
    rw [(h fuel (h1.trans hf)).1, ← (h 200 h1).2, h2]
  rw [hr.unique key]
  decide

end Examples

end Tri
