import Verif.Props.CostAll
import Verif.Props.CostFloat
import Verif.Props.CostTri
import Verif.Props.TouchRight
import Verif.Proof.TouchCost

/-!
# C67: what edges touched from the right or from above cost
-/

namespace Tri

open Finset

variable {I V K : Type} [Field K] [LinearOrder K] [IsStrictOrderedRing K] [DecidableEq I]

attribute [local instance] ieee exact

/-- **C67.**  The trapezoidation costs no more than for valid input (C50, C55): on average over the insertion orders at most
`80 n (log* n + 1) + 31 (m - 1) n (log n + 1)` for `m` polygons with `n` vertices together. -/
theorem C67_expected_cost (p : PolyList I V) (xy : V → Coords K) (gs : List (List (I × Coords K)))
    (hd : Describes p xy gs) (hv : TouchingPolys (gs.map (List.map Prod.snd))) (mathN : Nat → Nat → Nat) (hm : MathN mathN) :
    ∃ cost, CostsAll p xy mathN gs cost ∧
      (∑ σ, (cost σ : ℝ)) / Fintype.card (∀ j : Fin gs.length, Equiv.Perm (Fin (gs.get j).length)) ≤
        80 * gs.flatten.length * (logStar gs.flatten.length + 1) +
        31 * (gs.length - 1 : ℕ) * gs.flatten.length * (Real.logb 2 gs.flatten.length + 1) := by
  obtain ⟨P, hctx, -⟩ := exists_touchCtx hd hv (ghosts := []) (by simp)
  exact ctx_expected_cost hctx mathN hm

/-- **C67**, as C53 for valid input with several polygons: averaged over all choices of an insertion order for each polygon, the
trapezoidation leaves at most `8 n + 1 + 2 (m - 1) n (log n + 1)` query nodes. -/
theorem C67_query_nodes_mean_polygons (p : PolyList I V) (xy : V → Coords K) (gs : List (List (I × Coords K)))
    (hd : Describes p xy gs) (hv : TouchingPolys (gs.map (List.map Prod.snd))) (mathN : Nat → Nat → Nat) :
    ∃ N, ∃ nodes : (∀ j : Fin gs.length, Equiv.Perm (Fin (gs.get j).length)) → Nat,
      (∀ σ (cfg : Cfg), cfg.mathN = mathN →
        (∀ j : Fin gs.length, cfg.order j (gs.get j).length = List.ofFn (fun i => (σ j i).val)) → ∀ fuel ≥ N,
          (trapezoidize cfg fuel p xy).map (fun st => st.qs.length) = .ok (nodes σ)) ∧
      (∑ σ, (nodes σ : ℝ)) / Fintype.card (∀ j : Fin gs.length, Equiv.Perm (Fin (gs.get j).length)) ≤
        8 * gs.flatten.length + 1 + 2 * (gs.length - 1 : ℕ) * gs.flatten.length * (Real.logb 2 gs.flatten.length + 1) := by
  obtain ⟨P, hctx, -⟩ := exists_touchCtx hd hv (ghosts := []) (by simp)
  exact ctx_query_nodes_mean_polygons hd hctx mathN

/-- **C67**, as C57 for valid input: for `n` vertices together, every insertion order, every schedule and every format, also one
that fails, the triangulation step takes at most `9 n² + 70 n` evaluations of loop conditions and calls of the format. -/
theorem C67_triangulation_step_is_quadratic (p : PolyList I V) (xy : V → Coords K) (gs : List (List (I × Coords K)))
    (hd : Describes p xy gs) (hv : TouchingPolys (gs.map (List.map Prod.snd))) (hne : gs ≠ []) (cfg : Cfg) (hcfg : cfg.Valid) :
    ∃ st, ∀ fuel ≥ (p.elems.length + 3) ^ 2, trapezoidize cfg fuel p xy = .ok st ∧
      ∀ F : FanFormat I, (st.triangulateC fuel p xy F).2 ≤ 9 * gs.flatten.length ^ 2 + 70 * gs.flatten.length := by
  choose st hst using run_cost_wide hd hv hne cfg hcfg
  have hN := fun w => hst w _ (Nat.le_refl _)
  have hsame : ∀ w, st w = st .clockwise := fun w => Except.ok.inj ((hN w).1.symm.trans (hN .clockwise).1)
  refine ⟨st .clockwise, fun fuel hf => ⟨(hst .clockwise fuel hf).1, fun F => ?_⟩⟩
  obtain ⟨h1, h3⟩ := hst F.winding fuel hf
  rw [hsame F.winding] at h1 h3
  generalize st .clockwise = s at h1 h3
  -- the sizes
  obtain ⟨es, vss, h4, h5, -, -, -, h6, h6', h7⟩ := C23_sizes cfg hcfg fuel p xy s h1
  obtain ⟨es', h8, h9⟩ := hd.elems
  have h10 : es = es' := List.map_injective_iff.2 (Option.some_injective _) (h4.symm.trans h8)
  have h11 : (polygonsOf es).flatten.length = gs.flatten.length := by
    rw [h10, h9, ← List.map_flatten, List.length_map]
  have h12 : vss.flatten.length = gs.flatten.length := by
    rw [← h11, ← h5, ← List.map_flatten, List.length_map]
  -- the search for the top trapezoid
  have he : enough (conts p.elems) ≤ fuel := conts_enough p (square_enough hf)
  have hr := trapezoidize_ranked cfg hcfg p xy he
  rw [h1] at hr
  obtain ⟨hw, ht, hn, hs⟩ := hr
  unfold enough at he
  obtain ⟨t, h14, h15⟩ := h3 (s.ns.length + s.ss.length + 1) (by omega) (fun h' => by
    have := topTrapezoid_ranked (E := IsErr) (fun e => ⟨e, rfl⟩) ht.deep hw.qs _ 0 hw.root (.inl (Nat.lt_succ_self _))
    rw [h'] at this
    obtain ⟨e, he⟩ := this
    cases he)
  have h16 := (triangulateC_eq fuel p xy s F).2.1
  have hm := three_mul_le_flatten gs (fun g hg => by
    have := hv.three _ (List.mem_map_of_mem hg)
    rwa [List.length_map] at this)
  have hp : 1 ≤ gs.length := List.length_pos_iff.2 hne
  generalize gs.flatten.length = n at *
  have h17 : t ≤ 3 * n + 2 := by omega
  have h18 : (s.triangulateC fuel p xy F).2 ≤ 4 * n + 2 + (t ^ 2 + 14 * t) := by omega
  have h19 : t ^ 2 ≤ (3 * n + 2) ^ 2 := Nat.pow_le_pow_left h17 2
  refine h18.trans ?_
  nlinarith

/-- **C67**, as C59 for valid input: with `f64` or `f32` coordinates on a grid the trapezoidation and the triangulation step have the
same bounds as with exact coordinates. -/
theorem C67_grid_cost (f : FloatFormat) (k : Int) (L : Nat)
    (hf : (f = binary64 ∧ L = 25 ∧ -537 ≤ k ∧ k ≤ 484) ∨ (f = binary32 ∧ L = 11 ∧ -74 ≤ k ∧ k ≤ 50))
    (p : PolyList I V) (xy : V → Coords ℚ) (gs : List (List (I × Coords ℚ)))
    (hd : Describes p xy gs) (hv : TouchingPolys (gs.map (List.map Prod.snd))) (hne : gs ≠ [])
    (hg : ∀ i v, p.getVertex i = some v →
      ∃ m n : Int, |m| ≤ 2 ^ L ∧ |n| ≤ 2 ^ L ∧ (xy v).x = m * pow2 k ∧ (xy v).y = n * pow2 k) :
    (∀ mathN, MathN mathN → ∃ (N : Nat) (cost : (∀ j : Fin gs.length, Equiv.Perm (Fin (gs.get j).length)) → Nat),
      (∀ σ, ∀ cfg : Cfg, cfg.mathN = mathN →
        (∀ j : Fin gs.length, cfg.order j (gs.get j).length = List.ofFn (fun i => (σ j i).val)) → ∀ fuel ≥ N,
          ∃ st, trapezoidizeC cfg fuel p (fun v => (xy v).toFl f) = .ok (st, cost σ)) ∧
      (∑ σ, (cost σ : ℝ)) / Fintype.card (∀ j : Fin gs.length, Equiv.Perm (Fin (gs.get j).length)) ≤
        80 * gs.flatten.length * (logStar gs.flatten.length + 1) +
        31 * (gs.length - 1 : ℕ) * gs.flatten.length * (Real.logb 2 gs.flatten.length + 1)) ∧
    ∀ cfg : Cfg, cfg.Valid → ∀ fuel ≥ (p.elems.length + 3) ^ 2,
      ∃ st, trapezoidize cfg fuel p (fun v => (xy v).toFl f) = .ok st ∧
        ∀ F : FanFormat I,
          (st.triangulateC fuel p (fun v => (xy v).toFl f) F).2 ≤ 9 * gs.flatten.length ^ 2 + 70 * gs.flatten.length := by
  constructor
  · intro mathN hm
    obtain ⟨cost, ⟨N, h1⟩, h2⟩ := C67_expected_cost p xy gs hd hv mathN hm
    refine ⟨N, cost, fun σ cfg hc ho fuel hN => ?_, h2⟩
    obtain ⟨st, h1⟩ := h1 σ
    have h3 := (C59_cost_depends_on_answers cfg fuel p xy p _ rfl (grid_answers f k L hf p xy hg)).1
    rw [h1 cfg hc ho fuel hN] at h3
    cases h4 : trapezoidizeC cfg fuel p (fun v => (xy v).toFl f) with
    | error e => rw [h4] at h3; cases h3
    | ok r =>
      rw [h4] at h3
      exact ⟨r.1, congrArg Except.ok (Prod.ext rfl (Except.ok.inj h3))⟩
  · intro cfg hcfg fuel hfuel
    obtain ⟨st, h1⟩ := C67_triangulation_step_is_quadratic p xy gs hd hv hne cfg hcfg
    obtain ⟨h1, h2⟩ := h1 fuel hfuel
    obtain ⟨h3, h4⟩ := C59_cost_depends_on_answers cfg fuel p xy p _ rfl (grid_answers f k L hf p xy hg)
    have h5 := C50_counts_the_code cfg fuel p xy
    have h6 := C50_counts_the_code cfg fuel p (fun v => (xy v).toFl f)
    rw [h1] at h5
    cases h7 : trapezoidizeC cfg fuel p xy with
    | error e => rw [h7] at h5; cases h5
    | ok r =>
      cases h8 : trapezoidizeC cfg fuel p (fun v => (xy v).toFl f) with
      | error e => rw [h7, h8] at h3; cases h3
      | ok r' =>
        rw [h8] at h6
        refine ⟨r'.1, h6.symm, fun F => ?_⟩
        rw [h4 st r'.1 h1 h6.symm fuel F]
        exact h2 F

/-- C67: the hypotheses hold for the three rooms and the exact schedule. -/
example : ∃ cost, CostsAll (PolyList.nested rooms) id exactMathN (indexedFrom id 0 rooms) cost := by
  obtain ⟨cost, h, -⟩ := C67_expected_cost (PolyList.nested rooms) id (indexedFrom id 0 rooms)
    (describes_nested rooms id (by decide +kernel)) (touchingOk_sound (by decide +kernel)) exactMathN exactMathN_ok
  exact ⟨cost, h⟩

/-- C67: the hypotheses hold for the three rooms, with any valid configuration. -/
example (cfg : Cfg) (hcfg : cfg.Valid) : ∃ st, ∀ fuel ≥ ((PolyList.nested rooms).elems.length + 3) ^ 2,
    trapezoidize cfg fuel (PolyList.nested rooms) id = .ok st :=
  let ⟨st, h⟩ := C67_triangulation_step_is_quadratic (PolyList.nested rooms) id (indexedFrom id 0 rooms)
    (describes_nested rooms id (by decide +kernel)) (touchingOk_sound (by decide +kernel)) (by simp [rooms, indexedFrom]) cfg hcfg
  ⟨st, fun fuel hf => (h fuel hf).1⟩

/-- C67: the hypotheses hold for the three rooms in `f32`, the coordinates of which are small integers. -/
example (cfg : Cfg) (hcfg : cfg.Valid) : ∀ fuel ≥ ((PolyList.nested rooms).elems.length + 3) ^ 2,
    ∃ st, trapezoidize cfg fuel (PolyList.nested rooms) (Coords.toFl binary32) = .ok st := by
  have h1 : ∀ v ∈ rooms.flatten, |v.x.num| ≤ 2 ^ 11 ∧ |v.y.num| ≤ 2 ^ 11 ∧ v.x = v.x.num * pow2 0 ∧ v.y = v.y.num * pow2 0 := by
    decide +kernel
  have hg : ∀ i v, (PolyList.nested rooms).getVertex i = some v →
      ∃ m n : Int, |m| ≤ 2 ^ 11 ∧ |n| ≤ 2 ^ 11 ∧ (id v).x = m * pow2 0 ∧ (id v).y = n * pow2 0 := by
    intro i v h
    obtain ⟨g, k1, k2⟩ := Option.bind_eq_some_iff.1 (show (rooms[i.1]?.bind fun p => p[i.2]?) = some v from h)
    exact ⟨_, _, h1 v (List.mem_flatten.2 ⟨g, List.mem_of_getElem? k1, List.mem_of_getElem? k2⟩)⟩
  intro fuel hfuel
  obtain ⟨st, h, -⟩ := (C67_grid_cost binary32 0 11 (.inr ⟨rfl, rfl, by decide, by decide⟩) (PolyList.nested rooms) id
    (indexedFrom id 0 rooms) (describes_nested rooms id (by decide +kernel)) (touchingOk_sound (by decide +kernel))
    (by simp [rooms, indexedFrom]) hg).2 cfg hcfg fuel hfuel
  exact ⟨st, h⟩

end Tri
