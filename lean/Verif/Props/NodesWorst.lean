import Verif.Proof.Comb
import Verif.Props.Nodes
import Verif.Props.CostWorst
import Verif.Props.DebugCost
import Mathlib.Tactic.Linarith

/-!
# Properties: the worst case is quadratic (C53, C58)

The bounds of C53 and C58 cannot be improved beyond a constant factor, not even for valid polygons.
-/

namespace Tri

attribute [local instance] exact

theorem comb_elems (k m : Nat) : (PolyList.single (combPoly k m)).elems.length = 2 * k + m + 2 := by
  simp [PolyList.single, comb_length]

/-- **C53.**  There are valid polygons with `n = 4 * k + 2` vertices, and an order of their sides that the shuffle can give, for which the
trapezoidation leaves at least `n² / 4` query nodes. -/
theorem C53_quadratically_many_nodes (k : Nat) (hk : 1 ≤ k) (cfg : Cfg) (hcfg : cfg.Valid)
    (ho : cfg.order 0 (4 * k + 2) = startAt (2 * k) (4 * k + 2)) :
    (combPoly k (2 * k)).length = 4 * k + 2 ∧ ValidPolys [combPoly k (2 * k)] ∧
      ∃ st, (4 * k + 2) ^ 2 ≤ 4 * st.qs.length ∧
        ∀ fuel ≥ 2 * (4 * k + 2) + 3, trapezoidize cfg fuel (PolyList.single (combPoly k (2 * k))) id = .ok st := by
  have hn : 2 * k + 2 * k + 2 = 4 * k + 2 := by ring
  refine ⟨by rw [comb_length, hn], comb_valid hk, ?_⟩
  obtain ⟨N, st, hc, hN⟩ := comb_nodes (m := 2 * k) hk cfg.mathN
  rw [hn] at hN
  have hN := hN cfg rfl ho
  obtain ⟨r, hr, -⟩ := C37_trapezoidation_ends cfg hcfg (PolyList.single (combPoly k (2 * k))) (id : Coords ℚ → Coords ℚ)
  rw [comb_elems, hn] at hr
  have hr' := hr (max N (2 * (4 * k + 2) + 3)) (le_max_right _ _)
  rw [hN _ (le_max_left _ _)] at hr'
  subst hr'
  refine ⟨st, ?_, hr⟩
  obtain ⟨es, vss, h1, h2, -, -, -, -, -, h3⟩ := C23_sizes cfg hcfg _ (PolyList.single (combPoly k (2 * k))) (id : Coords ℚ → Coords ℚ) st (hr _ (le_refl _))
  have h4 : vss.flatten.length = 4 * k + 2 := by
    have hd := describes_single (combPoly k (2 * k)) (id : Coords ℚ → Coords ℚ) (by
      intro h; have := comb_length k (2 * k); rw [h] at this; simp at this)
    obtain ⟨es', hes, hpoly⟩ := hd.elems
    have : es = es' := List.map_injective_iff.2 (Option.some_injective _) (h1.symm.trans hes)
    subst this
    rw [← List.length_map (f := Prod.fst), List.map_flatten, h2, hpoly]
    simp [indexed, comb_length, hn]
  rw [h4] at h3
  nlinarith

/-- **C58.**  For the same polygons and the same order the trapezoidation makes at least `n² / 4 - 3 n` iterations. -/
theorem C58_quadratic_cost (k : Nat) (hk : 1 ≤ k) (cfg : Cfg) (hcfg : cfg.Valid)
    (ho : cfg.order 0 (4 * k + 2) = startAt (2 * k) (4 * k + 2)) :
    ∀ fuel ≥ 2 * (4 * k + 2) + 3,
      (4 * k + 2) ^ 2 ≤ 4 * (trapezoidizeT cfg fuel (PolyList.single (combPoly k (2 * k))) id).1 + 12 * (4 * k + 2) := by
  intro fuel hf
  obtain ⟨N, st, hc, hN⟩ := comb_nodes (m := 2 * k) hk cfg.mathN
  have hn : 2 * k + 2 * k + 2 = 4 * k + 2 := by ring
  rw [hn] at hN
  have hN := hN cfg rfl ho
  obtain ⟨r, hr, -⟩ := C37_trapezoidation_ends cfg hcfg (PolyList.single (combPoly k (2 * k))) (id : Coords ℚ → Coords ℚ)
  rw [comb_elems, hn] at hr
  have hr' := hr (max N (2 * (4 * k + 2) + 3)) (le_max_right _ _)
  rw [hN _ (le_max_left _ _)] at hr'
  subst hr'
  have h := hr fuel hf
  obtain ⟨es, vss, h1, h2, -, -, -, s1, s2, h3⟩ := C23_sizes cfg hcfg _ (PolyList.single (combPoly k (2 * k))) (id : Coords ℚ → Coords ℚ) st h
  have h4 : vss.flatten.length = 4 * k + 2 := by
    have hd := describes_single (combPoly k (2 * k)) (id : Coords ℚ → Coords ℚ) (by
      intro h; have := comb_length k (2 * k); rw [h] at this; simp at this)
    obtain ⟨es', hes, hpoly⟩ := hd.elems
    have : es = es' := List.map_injective_iff.2 (Option.some_injective _) (h1.symm.trans hes)
    subst this
    rw [← List.length_map (f := Prod.fst), List.map_flatten, h2, hpoly]
    simp [indexed, comb_length, hn]
  have hC := C50_counts_the_code cfg fuel (PolyList.single (combPoly k (2 * k))) (id : Coords ℚ → Coords ℚ)
  rw [h] at hC
  cases hrC : trapezoidizeC cfg fuel (PolyList.single (combPoly k (2 * k))) (id : Coords ℚ → Coords ℚ) with
  | error e => rw [hrC] at hC; cases hC
  | ok r =>
    rw [hrC] at hC
    obtain ⟨st', c⟩ := r
    cases hC
    have h5 := (trapezoidizeC_nodes hrC).2
    have h6 := (C58_counts_the_code cfg fuel (PolyList.single (combPoly k (2 * k))) (id : Coords ℚ → Coords ℚ)).2 _ _ hrC
    simp only at s1 s2 h3 h5 hc h6
    rw [h6]
    rw [h4] at s1 s2 h3
    rw [s1, s2] at h5
    rw [h3] at hc
    nlinarith

/-! ### The hypotheses are met -/

theorem startAt_perm {s n : Nat} (h : s ≤ n) : (startAt s n).Perm (List.range n) := by
  have e : List.range n = List.range s ++ (List.range (n - s)).map (s + ·) := by
    rw [← List.range_add, show s + (n - s) = n by omega]
  rw [startAt, e]
  exact List.perm_append_comm

/-- First the second half of the sides, then the others. -/
def Cfg.late (debug : Bool) : Cfg := ⟨fun _ n => startAt (n / 2 - 1) n, fun _ _ => 1, debug⟩

theorem Cfg.late_valid (debug : Bool) : (Cfg.late debug).Valid := fun _ _ => startAt_perm (by omega)

example (k : Nat) (hk : 1 ≤ k) (d : Bool) : ∃ st, (4 * k + 2) ^ 2 ≤ 4 * st.qs.length ∧
    ∀ fuel ≥ 2 * (4 * k + 2) + 3, trapezoidize (Cfg.late d) fuel (PolyList.single (combPoly k (2 * k))) id = .ok st :=
  (C53_quadratically_many_nodes k hk _ (Cfg.late_valid d) (by
    show startAt ((4 * k + 2) / 2 - 1) _ = _
    rw [show (4 * k + 2) / 2 - 1 = 2 * k by omega])).2.2

/-- With 10 vertices there are 66 query nodes: 25 more than the least number. -/
example : (trapezoidize (Cfg.late false) 23 (PolyList.single (combPoly 2 4)) id).map (fun st => st.qs.length) = .ok 66 := by
  decide +kernel

end Tri
