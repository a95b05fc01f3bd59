import Mathlib.NumberTheory.Harmonic.Bounds
import Verif.Proof.CostAll
import Verif.Proof.LogStar
import Verif.Props.Cost
import Verif.Props.CostMany
import Verif.Props.Nodes

/-!
# Properties: what trapezoidation costs for several polygons, on average (C55)

C51 shows that the bound of the documentation does not hold for several polygons.  This is a bound that does.
-/

namespace Tri

open Finset

variable {I V K : Type} [Field K] [LinearOrder K] [IsStrictOrderedRing K] [DecidableEq I]

section bounds

theorem harm_le (n : Nat) {N : Nat} (h : n ≤ N) (h1 : 1 ≤ N) : (harm n : ℝ) ≤ 1 + Real.logb 2 N := by
  have e : harm n = harmonic n := by
    unfold harm harmonic
    simp only [one_div, Nat.cast_add, Nat.cast_one]
  have hN : (1 : ℝ) ≤ N := by exact_mod_cast h1
  have hl2 : Real.log N ≤ Real.logb 2 N := by
    unfold Real.logb
    have h0 : 0 ≤ Real.log N := Real.log_nonneg hN
    have := Real.log_two_lt_d9
    have := Real.log_two_gt_d9
    rw [le_div_iff₀ (by linarith)]
    nlinarith
  rcases Nat.eq_zero_or_pos n with rfl | hn
  · have : 0 ≤ Real.logb 2 N := Real.logb_nonneg (by norm_num) hN
    simp [harm]
    linarith
  · rw [e]
    have h2 := harmonic_le_one_add_log n
    have h3 : Real.log n ≤ Real.log N := Real.log_le_log (by exact_mod_cast hn) (by exact_mod_cast h)
    linarith

theorem meanStages_sum (M n : Nat) (m : Nat → Nat) :
    ((∑ i ∈ range n, meanStage M n m i : ℚ) : ℝ) = 6 * n + 24 * ∑ i ∈ range n, gap m i + 2 * M * (harm n : ℝ) +
      6 * n * ((range n).filter fun i => relocAt m i = true).card + 2 * M * relocSum m n n := by
  have h1 : ∑ i ∈ range n, meanStage M n m i = 6 * n + 24 * ∑ i ∈ range n, ∑ l ∈ Ico (since m i) i, 1 / (l + 1 : ℚ) +
      2 * M * harm n + 6 * n * ((range n).filter fun i => relocAt m i = true).card +
      2 * M * ∑ i ∈ range n, if relocAt m i then (n : ℚ) / (i + 2) else 0 := by
    have h2 : ∀ i, (if relocAt m i then 6 * (n : ℚ) + 2 * M * (n / (i + 2 : ℚ)) else 0) =
        (if relocAt m i then 6 * (n : ℚ) else 0) + 2 * M * if relocAt m i then (n : ℚ) / (i + 2) else 0 := by
      intro i; split <;> simp
    simp only [meanStage, h2]
    rw [sum_add_distrib, sum_add_distrib, sum_add_distrib, sum_add_distrib, ← mul_sum, ← mul_sum, ← mul_sum, sum_const,
      card_range, nsmul_eq_mul, sum_ite, sum_const_zero, sum_const, nsmul_eq_mul, harm]
    ring
  rw [h1]
  unfold gap relocSum
  push_cast
  simp only [apply_ite (Rat.cast : ℚ → ℝ)]
  push_cast
  ring

end bounds

section
attribute [local instance] exact

/-- `cost` is what the trapezoidation of the polygons `gs` of `p` costs, for every choice of an order for each polygon. -/
def CostsAll (p : PolyList I V) (xy : V → Coords K) (mathN : Nat → Nat → Nat) (gs : List (List (I × Coords K)))
    (cost : (∀ j : Fin gs.length, Equiv.Perm (Fin (gs.get j).length)) → Nat) : Prop :=
  ∃ N, ∀ σ, ∃ st, ∀ cfg : Cfg, cfg.mathN = mathN →
    (∀ j : Fin gs.length, cfg.order j (gs.get j).length = List.ofFn (fun i => (σ j i).val)) →
    ∀ fuel ≥ N, trapezoidizeC cfg fuel p xy = .ok (st, cost σ)

/-- The bound of C55 for any polygons drawn in a plane. -/
theorem ctx_expected_cost {P : Plane K} {p : PolyList I V} {xy : V → Coords K} {gs : List (List (I × Coords K))}
    (hctx : PolysCtx P p xy gs) (mathN : Nat → Nat → Nat) (hm : MathN mathN) :
    ∃ cost, CostsAll p xy mathN gs cost ∧
      (∑ σ, (cost σ : ℝ)) / Fintype.card (∀ j : Fin gs.length, Equiv.Perm (Fin (gs.get j).length)) ≤
        80 * gs.flatten.length * (logStar gs.flatten.length + 1) +
        31 * (gs.length - 1 : ℕ) * gs.flatten.length * (Real.logb 2 gs.flatten.length + 1) := by
  obtain ⟨N, cost, st, h1, h2, -⟩ := trapezoidizeC_runs hctx mathN
  refine ⟨cost, ⟨N, fun σ => ⟨st σ, h1 σ⟩⟩, ?_⟩
  have hT : (0 : ℝ) < Fintype.card (∀ j : Fin gs.length, Equiv.Perm (Fin (gs.get j).length)) := by
    exact_mod_cast Fintype.card_pos
  have h3 := (Rat.cast_le (K := ℝ)).2 (mean_costs hctx mathN h2)
  push_cast at h3
  rw [div_le_iff₀ hT, mul_comm]
  refine h3.trans (mul_le_mul_of_nonneg_left ?_ hT.le)
  set n := gs.flatten.length with hn
  have key : ∀ j ∈ range gs.length, (meanPoly gs mathN j : ℝ) ≤ 80 * (poly gs j).length * (logStar n + 1) +
      24 * (gs.length - 1 : ℕ) * (poly gs j).length * (1 + Real.logb 2 n) +
      (if j = 0 then 0 else 7 * n * (1 + Real.logb 2 n)) := by
    intro j hj
    have hj := mem_range.1 hj
    have hp : PolyCtx P p xy (poly gs j) := by rw [poly_get hj]; exact hctx.poly _ (List.get_mem gs ⟨j, hj⟩)
    have hle : ∀ i < gs.length, (poly gs i).length ≤ n := by
      intro i hi
      rw [hn, ← poly_sum gs]
      exact single_le_sum (f := fun i => (poly gs i).length) (fun _ _ => Nat.zero_le _) (mem_range.2 hi)
    have hlen := hp.len
    have hjn := hle j hj
    have hn1 : 1 ≤ n := by omega
    obtain ⟨h5, h6, h7⟩ := mathN_sums hm hlen
    have h6' : (((range (poly gs j).length).filter fun i => relocAt (mathN (poly gs j).length) i = true).card : ℝ) ≤
        logStar (poly gs j).length + 2 := by exact_mod_cast h6
    have h8 : (2 : ℝ) ≤ logStar (poly gs j).length := by exact_mod_cast logStar_gt_one hlen
    have hmono : (logStar (poly gs j).length : ℝ) ≤ logStar n := by exact_mod_cast logStar_mono hjn
    have hnr : (1 : ℝ) ≤ n := by exact_mod_cast hn1
    have hlog : 0 ≤ Real.logb 2 n := Real.logb_nonneg (by norm_num) hnr
    have hlog' : Real.logb 2 (poly gs j).length ≤ Real.logb 2 n :=
      Real.logb_le_logb_of_le (by norm_num) (by exact_mod_cast (by omega : 0 < (poly gs j).length)) (by exact_mod_cast hjn)
    have hlen0 : (0 : ℝ) ≤ (poly gs j).length := Nat.cast_nonneg _
    have hM0 : (0 : ℝ) ≤ (oldW gs j).card := Nat.cast_nonneg _
    have hM : ((oldW gs j).card : ℝ) ≤ if j = 0 then 0 else (n : ℝ) := by
      split
      · next h => subst h; exact_mod_cast (le_of_eq (oldW_card gs 0).2)
      · exact_mod_cast (oldW_card gs j).1
    have hH : ((∑ i ∈ range j, harm (poly gs i).length : ℚ) : ℝ) ≤ (gs.length - 1 : ℕ) * (1 + Real.logb 2 n) := by
      push_cast
      calc (∑ i ∈ range j, (harm (poly gs i).length : ℝ)) ≤ ∑ _i ∈ range j, (1 + Real.logb 2 n) :=
            sum_le_sum fun i hi => harm_le _ (hle i (by have := mem_range.1 hi; omega)) hn1
        _ = j * (1 + Real.logb 2 n) := by rw [sum_const, card_range, nsmul_eq_mul]
        _ ≤ _ := mul_le_mul_of_nonneg_right (by exact_mod_cast (by omega : j ≤ gs.length - 1)) (by linarith)
    have hHj := harm_le _ hjn hn1
    unfold meanPoly
    rw [Rat.cast_add, meanStages_sum]
    push_cast at hH ⊢
    have a1 : (oldW gs j).card * ((harm (poly gs j).length : ℝ) + relocSum (mathN (poly gs j).length) (poly gs j).length (poly gs j).length) ≤
        (if j = 0 then 0 else (n : ℝ)) * (7 / 2 * (1 + Real.logb 2 n)) := by
      refine (mul_le_mul_of_nonneg_left (b := _) (c := 7 / 2 * (1 + Real.logb 2 n)) (by linarith) hM0).trans ?_
      exact mul_le_mul_of_nonneg_right hM (by linarith)
    have a2 : (poly gs j).length * (24 * ∑ i ∈ range j, (harm (poly gs i).length : ℝ)) ≤
        (poly gs j).length * (24 * ((gs.length - 1 : ℕ) * (1 + Real.logb 2 n))) :=
      mul_le_mul_of_nonneg_left (by linarith) hlen0
    have a3 : ((poly gs j).length : ℝ) * (((range (poly gs j).length).filter fun i => relocAt (mathN (poly gs j).length) i = true).card : ℝ) ≤
        (poly gs j).length * (logStar n + 2) := mul_le_mul_of_nonneg_left (h6'.trans (by linarith)) hlen0
    have a4 : ((poly gs j).length : ℝ) * (23 / 5 + 3 / 2 * logStar (poly gs j).length) ≤
        (poly gs j).length * (23 / 5 + 3 / 2 * logStar n) := mul_le_mul_of_nonneg_left (by linarith) (by positivity)
    have a7 : ((poly gs j).length : ℝ) * 2 ≤ (poly gs j).length * logStar n :=
      mul_le_mul_of_nonneg_left (h8.trans hmono) hlen0
    have a5 : (if j = 0 then 0 else (n : ℝ)) * (7 / 2 * (1 + Real.logb 2 n)) * 2 =
        if j = 0 then 0 else 7 * n * (1 + Real.logb 2 n) := by
      split
      · ring
      · ring
    have a6 : 0 ≤ (logStar n : ℝ) := Nat.cast_nonneg _
    nlinarith
  refine (sum_le_sum key).trans ?_
  rw [sum_add_distrib, sum_add_distrib, ← sum_mul, ← sum_mul, ← mul_sum, ← mul_sum]
  have hs : (∑ j ∈ range gs.length, ((poly gs j).length : ℝ)) = n := by
    rw [hn, ← poly_sum gs]
    push_cast
    rfl
  have hz : (∑ j ∈ range gs.length, if j = 0 then 0 else 7 * (n : ℝ) * (1 + Real.logb 2 n)) =
      (gs.length - 1 : ℕ) * (7 * n * (1 + Real.logb 2 n)) := by
    cases hg : gs.length with
    | zero => simp
    | succ m =>
      rw [sum_range_succ']
      simp
  rw [hs, hz]
  apply le_of_eq
  ring

/-- **C55**: if the schedule of relocations is `math_n`, computed with errors of at most two percent in each operation, then for
a valid set of `m` polygons with `n` vertices together, averaged over all choices of an insertion order for each polygon, the trapezoidation costs at most
`80 n (log* n + 1) + 31 (m - 1) n (log n + 1)`. -/
theorem C55_expected_cost_polygons (p : PolyList I V) (xy : V → Coords K) (gs : List (List (I × Coords K)))
    (hd : Describes p xy gs) (hv : ValidPolys (gs.map (List.map Prod.snd))) (mathN : Nat → Nat → Nat) (hm : MathN mathN) :
    ∃ cost, CostsAll p xy mathN gs cost ∧
      (∑ σ, (cost σ : ℝ)) / Fintype.card (∀ j : Fin gs.length, Equiv.Perm (Fin (gs.get j).length)) ≤
        80 * gs.flatten.length * (logStar gs.flatten.length + 1) +
        31 * (gs.length - 1 : ℕ) * gs.flatten.length * (Real.logb 2 gs.flatten.length + 1) := by
  obtain ⟨P, hctx, -⟩ := exists_polysCtx hd hv (ghosts := []) (by simp)
  exact ctx_expected_cost hctx mathN hm

/-- The number of query nodes, for polygons in a plane. -/
theorem ctx_query_nodes_mean_polygons {P : Plane K} {p : PolyList I V} {xy : V → Coords K} {gs : List (List (I × Coords K))}
    (hd : Describes p xy gs) (hctx : PolysCtx P p xy gs) (mathN : Nat → Nat → Nat) :
    ∃ N, ∃ nodes : (∀ j : Fin gs.length, Equiv.Perm (Fin (gs.get j).length)) → Nat,
      (∀ σ (cfg : Cfg), cfg.mathN = mathN →
        (∀ j : Fin gs.length, cfg.order j (gs.get j).length = List.ofFn (fun i => (σ j i).val)) → ∀ fuel ≥ N,
          (trapezoidize cfg fuel p xy).map (fun st => st.qs.length) = .ok (nodes σ)) ∧
      (∑ σ, (nodes σ : ℝ)) / Fintype.card (∀ j : Fin gs.length, Equiv.Perm (Fin (gs.get j).length)) ≤
        8 * gs.flatten.length + 1 + 2 * (gs.length - 1 : ℕ) * gs.flatten.length * (Real.logb 2 gs.flatten.length + 1) := by
  obtain ⟨N, cost, st, h1, -, h3⟩ := trapezoidizeC_runs hctx mathN
  choose x h4 h5 using h3
  set n := gs.flatten.length with hn
  have h6 : ∀ σ, (st σ).qs.length = 1 + 4 * n + x σ := by
    intro σ
    let ord : Nat → Nat → List Nat := fun k m => if h : k < gs.length then
      if m = (gs.get ⟨k, h⟩).length then List.ofFn (fun i => (σ ⟨k, h⟩ i).val) else List.range m else List.range m
    let cfg : Cfg := ⟨ord, mathN, false⟩
    have hcfg : cfg.Valid := by
      intro k m
      show (ord k m).Perm _
      simp only [ord]
      split
      · split
        · next h => subst h; exact ofFn_perm _
        · exact .refl _
      · exact .refl _
    have h7 : trapezoidize cfg N p xy = .ok (st σ) := by
      rw [← C50_counts_the_code, h1 σ cfg rfl (fun j => by
        show ord _ _ = _
        simp only [ord]
        rw [dif_pos j.isLt]
        exact if_pos trivial) N (Nat.le_refl _)]
      rfl
    obtain ⟨es, vss, h8, h9, -, -, -, h10, h11, -⟩ := C23_sizes cfg hcfg N p xy _ h7
    obtain ⟨es', h12, h13⟩ := hd.elems
    have h14 : es = es' := List.map_injective_iff.2 (Option.some_injective _) (h8.symm.trans h12)
    have h15 : vss.flatten.length = n := by
      have := congrArg (fun l => l.flatten.length) (h9.trans (h14 ▸ h13))
      simp only [← List.map_flatten, List.length_map] at this
      rw [this, hn]
    have h16 := h4 σ
    unfold St.Nodes at h16
    simp only [St.init, List.length_nil, List.length_singleton] at h16
    omega
  refine ⟨N, fun σ => (st σ).qs.length, fun σ cfg hm ho fuel hf => ?_, ?_⟩
  · rw [← C50_counts_the_code, h1 σ cfg hm ho fuel hf]
    rfl
  have hT : (0 : ℝ) < Fintype.card (∀ j : Fin gs.length, Equiv.Perm (Fin (gs.get j).length)) := by
    exact_mod_cast Fintype.card_pos
  have h7 : (∑ σ, ((st σ).qs.length : ℚ)) ≤ Fintype.card (Orders gs) * ((1 + 4 * n) + ∑ j ∈ range gs.length,
        (4 * (poly gs j).length + 2 * (oldW gs j).card * harm (poly gs j).length)) := by
    calc (∑ σ, ((st σ).qs.length : ℚ)) ≤ ∑ σ : Orders gs, ((1 + 4 * (n : ℚ)) +
            ∑ j ∈ range gs.length, (polyPasses P gs (orderOf σ j) j : ℚ)) :=
          sum_le_sum fun σ _ => by rw [h6]; exact_mod_cast Nat.add_le_add_left (h5 σ) _
      _ ≤ _ := by
          rw [sum_add_distrib, sum_const, card_univ, nsmul_eq_mul, mul_add (_ : ℚ) (1 + 4 * (n : ℚ))]
          exact add_le_add (le_refl _) (mean_allPasses hctx)
  have h8 := (Rat.cast_le (K := ℝ)).2 h7
  push_cast at h8
  rw [div_le_iff₀ hT, mul_comm]
  refine h8.trans (mul_le_mul_of_nonneg_left ?_ hT.le)
  have key : ∀ j ∈ range gs.length, (4 * (poly gs j).length + 2 * (oldW gs j).card * (harm (poly gs j).length : ℝ)) ≤
      4 * (poly gs j).length + (if j = 0 then 0 else 2 * n * (1 + Real.logb 2 n)) := by
    intro j hj
    have hj := mem_range.1 hj
    have hlen : 3 ≤ (poly gs j).length := by rw [poly_get hj]; exact (hctx.poly _ (List.get_mem gs ⟨j, hj⟩)).len
    have hjn : (poly gs j).length ≤ n := by
      rw [hn, ← poly_sum gs]
      exact single_le_sum (f := fun i => (poly gs i).length) (fun _ _ => Nat.zero_le _) (mem_range.2 hj)
    have hHj := harm_le _ hjn (by omega)
    split
    · next h =>
      subst h
      rw [(oldW_card gs 0).2]
      simp
    · have hM : ((oldW gs j).card : ℝ) ≤ n := by exact_mod_cast (oldW_card gs j).1
      have hM0 : (0 : ℝ) ≤ (oldW gs j).card := Nat.cast_nonneg _
      have hlog : 0 ≤ Real.logb 2 n := Real.logb_nonneg (by norm_num) (by exact_mod_cast (by omega : 1 ≤ n))
      have : ((oldW gs j).card : ℝ) * harm (poly gs j).length ≤ n * (1 + Real.logb 2 n) :=
        (mul_le_mul_of_nonneg_left hHj hM0).trans (mul_le_mul_of_nonneg_right hM (by linarith))
      linarith
  have h9 := sum_le_sum key
  rw [sum_add_distrib (f := fun j => 4 * ((poly gs j).length : ℝ)) (g := fun j => if j = 0 then 0 else 2 * n * (1 + Real.logb 2 n)),
    ← mul_sum] at h9
  have hs : (∑ j ∈ range gs.length, ((poly gs j).length : ℝ)) = n := by
    rw [hn, ← poly_sum gs]
    push_cast
    rfl
  have hz : (∑ j ∈ range gs.length, if j = 0 then 0 else 2 * (n : ℝ) * (1 + Real.logb 2 n)) =
      (gs.length - 1 : ℕ) * (2 * n * (1 + Real.logb 2 n)) := by
    cases hg : gs.length with
    | zero => simp
    | succ m =>
      rw [sum_range_succ']
      simp
  rw [hs, hz] at h9
  linarith

/-- **C53**, on average, for several polygons: for a valid set of `m` polygons with `n` vertices together and any schedule, averaged
over all choices of an insertion order for each polygon, the trapezoidation leaves at most
`8 n + 1 + 2 (m - 1) n (log n + 1)` query nodes. -/
theorem C53_query_nodes_mean_polygons (p : PolyList I V) (xy : V → Coords K) (gs : List (List (I × Coords K)))
    (hd : Describes p xy gs) (hv : ValidPolys (gs.map (List.map Prod.snd))) (mathN : Nat → Nat → Nat) :
    ∃ N, ∃ nodes : (∀ j : Fin gs.length, Equiv.Perm (Fin (gs.get j).length)) → Nat,
      (∀ σ (cfg : Cfg), cfg.mathN = mathN →
        (∀ j : Fin gs.length, cfg.order j (gs.get j).length = List.ofFn (fun i => (σ j i).val)) → ∀ fuel ≥ N,
          (trapezoidize cfg fuel p xy).map (fun st => st.qs.length) = .ok (nodes σ)) ∧
      (∑ σ, (nodes σ : ℝ)) / Fintype.card (∀ j : Fin gs.length, Equiv.Perm (Fin (gs.get j).length)) ≤
        8 * gs.flatten.length + 1 + 2 * (gs.length - 1 : ℕ) * gs.flatten.length * (Real.logb 2 gs.flatten.length + 1) := by
  obtain ⟨P, hctx, -⟩ := exists_polysCtx hd hv (ghosts := []) (by simp)
  exact ctx_query_nodes_mean_polygons hd hctx mathN

end

section Examples

attribute [local instance] exact

/-- C55: the hypotheses hold for `m` triangles below each other, for which C51 shows that the cost is at least
`m (m + 1) / 2`; here they are with all their vertices. -/
example (m : Nat) : ∃ cost, CostsAll (PolyList.nested (triangles m)) id exactMathN (indexedFrom id 0 (triangles m)) cost ∧
    (∑ σ, (cost σ : ℝ)) / Fintype.card (∀ j : Fin (indexedFrom id 0 (triangles m)).length,
        Equiv.Perm (Fin ((indexedFrom id 0 (triangles m)).get j).length)) ≤
      80 * (indexedFrom id 0 (triangles m)).flatten.length * (logStar (indexedFrom id 0 (triangles m)).flatten.length + 1) +
      31 * ((indexedFrom id 0 (triangles m)).length - 1 : ℕ) * (indexedFrom id 0 (triangles m)).flatten.length *
        (Real.logb 2 (indexedFrom id 0 (triangles m)).flatten.length + 1) :=
  C55_expected_cost_polygons (PolyList.nested (triangles m)) id (indexedFrom id 0 (triangles m))
    (describes_nested (triangles m) (id : Coords ℚ → Coords ℚ) (by
      intro vs hvs
      have := (triangles_valid m).three vs hvs
      rintro rfl; simp at this))
    (by rw [indexedFrom_snd]; simpa using triangles_valid m) exactMathN exactMathN_ok

end Examples

end Tri
