import Verif.Proof.CostValid
import Verif.Proof.CostEnough
import Verif.Proof.CanonTop
import Verif.Props.Quadratic
import Verif.Props.Counting
import Verif.Props.Safety

/-!
# Properties: the cost of the triangulation step (C57)

`St.triangulateC` (`Verif/Model/CostTri.lean`) is the triangulation step with a counter: each evaluation of the condition of a
loop and each call of the format adds one.
-/

namespace Tri

section
variable {I V C : Type} [Scalar C] [DecidableEq I]

/-- **C57**: the counter does not change what the step does: for every input, valid or not, with exact numbers or floats, every
trapezoidation and every format, the counted step leaves the same buffer and returns the same result. -/
theorem C57_counts_the_code (fuel : Nat) (p : PolyList I V) (xy : V → Coords C) (st : St I C) (F : FanFormat I) :
    (st.triangulateC fuel p xy F).1 = st.triangulate fuel p xy F :=
  (triangulateC_eq fuel p xy st F).1

/-- **C57**: the counter does not miss the work of a loop: if a run succeeds then it also succeeds, and in the same way, if each
loop may only take as many iterations as were counted in total. -/
theorem C57_count_covers_loops (fuel : Nat) (p : PolyList I V) (xy : V → Coords C) (st : St I C) (F : FanFormat I) (o : F.O)
    (h : (st.triangulate fuel p xy F).2 = .ok o) :
    st.triangulate (st.triangulateC fuel p xy F).2 p xy F = st.triangulate fuel p xy F :=
  triangulateC_enough fuel p xy st F o h _ (Nat.le_refl _)

end

section
variable {K : Type} [Field K] [LinearOrder K] [IsStrictOrderedRing K]
attribute [local instance] exact
variable {I V : Type} [DecidableEq I]

theorem holes_le (vss : List (List (Coords K))) : holes vss ≤ vss.length := by
  unfold holes
  have := List.countP_le_length (p := isHole vss) (l := List.range vss.length)
  rwa [List.length_range] at this

theorem three_mul_le_flatten {α : Type} (gs : List (List α)) (h : ∀ g ∈ gs, 3 ≤ g.length) :
    3 * gs.length ≤ gs.flatten.length := by
  induction gs with
  | nil => simp
  | cons g gs ih =>
    have h1 := h g (by simp)
    have h2 := ih fun g hg => h g (List.mem_cons_of_mem _ hg)
    simp only [List.length_cons, List.flatten_cons, List.length_append]
    omega

theorem cost_several {c n : Nat} (h : 3 * c ≤ 5 * n) (hn : 3 ≤ n) :
    4 * n + 2 + (c ^ 2 + 14 * c) ≤ 3 * n ^ 2 + 28 * n := by
  have h1 : 9 * c ^ 2 ≤ 25 * n ^ 2 := by nlinarith
  have h2 : 3 * n ≤ n ^ 2 := by nlinarith
  omega

theorem cost_single {c n : Nat} (h : c + 2 = n) : 4 * n + 2 + (c ^ 2 + 14 * c) ≤ n ^ 2 + 14 * n := by
  subst h
  nlinarith

/-- **C57**: the triangulation step is at most quadratic: for every valid set of polygons with `n` vertices together, every
insertion order, every schedule and every format, also one that fails, it takes at most `3 n² + 28 n` evaluations of loop
conditions and calls of the format, and for a single polygon at most `n² + 14 n`. -/
theorem C57_quadratic_bound (p : PolyList I V) (xy : V → Coords K) (gs : List (List (I × Coords K)))
    (hd : Describes p xy gs) (hv : ValidPolys (gs.map (List.map Prod.snd))) (hne : gs ≠ []) (cfg : Cfg) (hcfg : cfg.Valid) :
    ∃ st, ∀ fuel ≥ (p.elems.length + 3) ^ 2, trapezoidize cfg fuel p xy = .ok st ∧
      ∀ F : FanFormat I,
        (st.triangulateC fuel p xy F).2 ≤ 3 * gs.flatten.length ^ 2 + 28 * gs.flatten.length ∧
        ∀ g, gs = [g] → (st.triangulateC fuel p xy F).2 ≤ g.length ^ 2 + 14 * g.length := by
  choose st hst using run_cost hd hv hne cfg hcfg
  have hN := fun w => hst w _ (Nat.le_refl _)
  have hsame : ∀ w, st w = st .clockwise := fun w => Except.ok.inj ((hN w).1.symm.trans (hN .clockwise).1)
  refine ⟨st .clockwise, fun fuel hf => ⟨(hst .clockwise fuel hf).1, fun F => ?_⟩⟩
  obtain ⟨h1, h2, h3⟩ := hst F.winding fuel hf
  rw [hsame F.winding] at h1 h2 h3
  generalize st .clockwise = s at h1 h2 h3
  clear hN hsame hst st
  -- the sizes
  obtain ⟨es, vss, h4, h5, -, -, -, h6, h6', h7⟩ := C23_sizes cfg hcfg fuel p xy s h1
  obtain ⟨es', h8, h9⟩ := hd.elems
  have h10 : es = es' := List.map_injective_iff.2 (Option.some_injective _) (h4.symm.trans h8)
  have h11 : (polygonsOf es).flatten.length = gs.flatten.length := by
    rw [h10, h9, ← List.map_flatten, List.length_map]
  have h12 : vss.flatten.length = gs.flatten.length := by
    rw [← h11, ← h5, ← List.map_flatten, List.length_map]
  -- the search for the top trapezoid
  have he : enough (conts p.elems) ≤ fuel := conts_enough p (square_enough hf)
  have hr := trapezoidize_ranked cfg hcfg p xy he
  rw [h1] at hr
  obtain ⟨hw, ht, hn, hs⟩ := hr
  unfold enough at he
  have h15 := h3 (s.ns.length + s.ss.length + 1) (by omega) (fun h' => by
    have := topTrapezoid_ranked (E := IsErr) (fun e => ⟨e, rfl⟩) ht.deep hw.qs _ 0 hw.root (.inl (Nat.lt_succ_self _))
    rw [h'] at this
    obtain ⟨e, he⟩ := this
    cases he)
  have h16 := (triangulateC_eq fuel p xy s F).2.1
  -- the number of calls
  obtain ⟨hA, hB⟩ := C01_valid_input_succeeds p xy gs hd hv hne cfg hcfg
  obtain ⟨fans, hret⟩ := hB F.winding
  obtain ⟨o, t, ho⟩ := hA (recorder I F.winding) (recorder_infallible I F.winding)
  obtain ⟨-, N, hN⟩ := id hret
  have h17 : o = fans.flatMap fanCalls := by
    have a := hN (max N ((p.elems.length + 3) ^ 2)) (Nat.le_max_left _ _)
    rw [ho _ (Nat.le_max_right _ _)] at a
    exact Except.ok.inj a
  have h18 : (innerTrace F.winding fuel p xy s).calls = fans.flatMap fanCalls := by
    have a := ho fuel hf
    rw [triangulate, h1] at a
    have b := triangulate_eq_play fuel p xy s (recorder I F.winding)
    rw [show (recorder I F.winding).winding = F.winding from rfl] at b
    have c : (s.triangulate fuel p xy (recorder I F.winding)).2 = .ok o := congrArg Prod.snd a
    rw [b] at c
    rw [play_recorder_ok c, h17]
  obtain ⟨h19, h20⟩ := C05_triangle_count p xy gs hd hv hne cfg hcfg F.winding fans hret
  rw [fans_calls_length, ← h18] at h19
  simp only [fans_calls_length, ← h18] at h20
  have hh := holes_le (gs.map (List.map Prod.snd))
  rw [List.length_map] at hh
  have hm := three_mul_le_flatten gs (fun g hg => by
    have := hv.three _ (List.mem_map_of_mem hg)
    rwa [List.length_map] at this)
  have hp : 1 ≤ gs.length := List.length_pos_iff.2 hne
  generalize (innerTrace F.winding fuel p xy s).calls.length = c at *
  have h21 : (s.triangulateC fuel p xy F).2 ≤ 4 * gs.flatten.length + 2 + (c ^ 2 + 14 * c) := by omega
  constructor
  · generalize gs.flatten.length = n at *
    have h22 : 3 * c ≤ 5 * n := by omega
    exact h21.trans (cost_several h22 (by omega))
  · intro g hg
    have h22 := h20 g hg
    have h23 : gs.flatten.length = g.length := by simp [hg]
    rw [h23] at h21 hm
    exact h21.trans (cost_single (by omega))

/-- **C57**: the bound is attained up to a constant: for every `k ≥ 1` there is a valid polygon with `2 k + 2` vertices on which
every successful run counts at least `k²`, whatever the insertion order, the schedule and the format. -/
theorem C57_quadratic_attained {k : Nat} (hk : 1 ≤ k) :
    ∃ vs : List (Coords ℚ), ValidPolys [vs] ∧ vs.length = 2 * k + 2 ∧
    ∀ (cfg : Cfg), cfg.Valid → ∀ (F : FanFormat Nat) (fuel : Nat) (st : St Nat ℚ),
      trapezoidize cfg fuel (PolyList.single vs) id = .ok st → ∀ o : F.O,
      (st.triangulate fuel (PolyList.single vs) id F).2 = .ok o →
      k ^ 2 < (st.triangulateC fuel (PolyList.single vs) id F).2 := by
  refine ⟨cusp k, cusp_valid hk, cusp_length k, fun cfg hcfg F fuel st hst o h => ?_⟩
  have h1 := C57_count_covers_loops fuel _ _ st F o h
  rw [← h1] at h
  exact cusp_needs hk cfg hcfg F hst h

/-- C57: the hypotheses hold for the pentagon, for which the bound is 95, and this run takes 25. -/
example : ∃ st, trapezoidize (Cfg.plain (fun _ h => h) true) 100 (PolyList.single pentagon) id = .ok st ∧
    ∀ F : FanFormat Nat, (st.triangulateC 100 (PolyList.single pentagon) id F).2 ≤ 95 := by
  obtain ⟨st, h⟩ := C57_quadratic_bound (PolyList.single pentagon) id [indexed (pentagon.map id)]
    (describes_single _ _ (by decide +kernel)) (polysOk_sound (by decide +kernel)) (by simp)
    (Cfg.plain (fun _ h => h) true) (Cfg.plain_valid _ _)
  obtain ⟨h1, h2⟩ := h 100 (by decide +kernel)
  exact ⟨st, h1, fun F => (h2 F).2 _ rfl⟩

example : (trapezoidize (Cfg.plain (fun _ h => h) true) 100 (PolyList.single pentagon) id).map
    (fun st => (st.triangulateC 100 (PolyList.single pentagon) id (recorder Nat .clockwise)).2) = .ok 25 := by
  decide +kernel

end

end Tri
