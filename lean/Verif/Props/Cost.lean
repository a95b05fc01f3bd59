import Mathlib.NumberTheory.Harmonic.Defs
import Verif.Proof.CostMean
import Verif.Proof.LogStar
import Verif.Proof.ValidPlane
import Verif.Proof.Describe
import Verif.Proof.ValidCheck
import Verif.Props.Winding
import Verif.Props.Trapezoids

/-!
# Properties: what trapezoidation costs (C50)

The cost is the number of loop iterations and query nodes visited, see `Model/Cost.lean`.
-/

namespace Tri

open Finset

section
variable {I V C : Type} [Scalar C] [DecidableEq I]

/-- **C50**, what is counted is the code: without the count, the counting version is the trapezoidation itself, for every
input, valid or not, with exact numbers or floats. -/
theorem C50_counts_the_code (cfg : Cfg) (fuel : Nat) (p : PolyList I V) (xy : V → Coords C) :
    (trapezoidizeC cfg fuel p xy).map Prod.fst = trapezoidize cfg fuel p xy := by
  have h := St.buildC_fst cfg fuel p xy
  unfold trapezoidizeC trapezoidize
  rw [← h]
  cases St.buildC cfg fuel p xy <;> rfl

end

variable {I V K : Type} [Field K] [LinearOrder K] [IsStrictOrderedRing K] [DecidableEq I]

section
attribute [local instance] exact

/-- `cost` is what the trapezoidation of the one polygon of `p`, with `n` vertices, costs, for every order in which
its sides are inserted.  The result and the cost do not depend on the debug checks. -/
def Costs (p : PolyList I V) (xy : V → Coords K) (mathN : Nat → Nat → Nat) (n : Nat) (cost : Equiv.Perm (Fin n) → Nat) : Prop :=
  ∃ N, ∀ σ : Equiv.Perm (Fin n), ∃ st, ∀ cfg : Cfg, cfg.mathN = mathN → cfg.order 0 n = List.ofFn (fun i => (σ i).val) →
    ∀ fuel ≥ N, trapezoidizeC cfg fuel p xy = .ok (st, cost σ)

/-- **C50**, any schedule: for a valid polygon with `n` vertices, averaged over all orders of insertion, the trapezoidation
costs at most `n (8 + 24 H n + 6 R)`, where `H n` is the harmonic number, if the schedule asks for at most `R` relocations:
the next one is due after the last step, or at a step that has passed. In the worst case, it costs at most
`n (4 + 8 n + R (4 + 2 n))`. -/
theorem C50_expected_cost_any_schedule (p : PolyList I V) (xy : V → Coords K) (g : List (I × Coords K))
    (hd : Describes p xy [g]) (hv : ValidPolys [g.map Prod.snd]) (mathN : Nat → Nat → Nat) (R : Nat)
    (hR : g.length ≤ mathN g.length (R + 1) ∨ (0 < R ∧ mathN g.length (R + 1) ≤ mathN g.length R)) :
    ∃ cost, Costs p xy mathN g.length cost ∧
      (∑ σ, (cost σ : ℚ)) ≤ g.length.factorial * (g.length * (8 + 24 * harmonic g.length + 6 * R)) ∧
      ∀ σ, cost σ ≤ g.length * (4 + 8 * g.length + R * (4 + 2 * g.length)) := by
  obtain ⟨P, hctx, -⟩ := exists_polysCtx hd (by simpa using hv) (ghosts := []) (by simp)
  obtain ⟨N, cost, st, h1, h2, -⟩ := trapezoidizeC_run hctx mathN
  have hr := relocs_le hR
  have hrq : (((range g.length).filter fun i => relocAt (mathN g.length) i = true).card : ℚ) ≤ R := by exact_mod_cast hr
  have hn0 : (0 : ℚ) ≤ g.length := Nat.cast_nonneg _
  refine ⟨cost, ⟨N, fun σ => ⟨st σ, h1 σ⟩⟩, (mean_cost (hctx.poly g (by simp)) _ h2).trans (mul_le_mul_of_nonneg_left ?_ (Nat.cast_nonneg _)), ?_⟩
  · have h3 : ∑ i ∈ range g.length, ∑ l ∈ Ico (since (mathN g.length) i) i, 1 / (l + 1 : ℚ) ≤
        g.length * harmonic g.length := by
      calc _ ≤ ∑ _i ∈ range g.length, harmonic g.length := sum_le_sum fun i hi => by
            unfold harmonic
            simp only [one_div, Nat.cast_add, Nat.cast_one]
            refine sum_le_sum_of_subset_of_nonneg (fun l hl => ?_) (fun l _ _ => by positivity)
            have := (mem_Ico.1 hl).2
            have := mem_range.1 hi
            exact mem_range.2 (by omega)
        _ = _ := by rw [sum_const, card_range, nsmul_eq_mul]
    nlinarith
  · intro σ
    refine (h2 σ).trans ?_
    calc _ ≤ ∑ i ∈ range g.length, (4 + 8 * g.length + if relocAt (mathN g.length) i then
            4 * g.length + 2 * g.length * g.length else 0) := sum_le_sum fun i hi => stage_le g _ _ (mem_range.1 hi)
      _ = g.length * (4 + 8 * g.length) + ((range g.length).filter fun i => relocAt (mathN g.length) i = true).card *
            (4 * g.length + 2 * g.length * g.length) := by
          rw [sum_add_distrib, sum_const, card_range, smul_eq_mul, sum_ite, sum_const_zero, sum_const, smul_eq_mul, add_zero]
      _ ≤ g.length * (4 + 8 * g.length) + R * (4 * g.length + 2 * g.length * g.length) :=
          Nat.add_le_add_left (Nat.mul_le_mul_right _ hr) _
      _ = _ := by ring

/-- **C50**, the claim of the documentation: if the schedule of relocations is `math_n`, computed with errors of at most two
percent in each operation, then for a valid polygon with `n` vertices, averaged over all orders of insertion, the
trapezoidation costs at most `80 n (log* n + 1)`. -/
theorem C50_expected_cost_log_star (p : PolyList I V) (xy : V → Coords K) (g : List (I × Coords K))
    (hd : Describes p xy [g]) (hv : ValidPolys [g.map Prod.snd]) (mathN : Nat → Nat → Nat) (hm : MathN mathN) :
    ∃ cost, Costs p xy mathN g.length cost ∧
      (∑ σ, (cost σ : ℝ)) / g.length.factorial ≤ 80 * g.length * (logStar g.length + 1) := by
  obtain ⟨P, hctx, -⟩ := exists_polysCtx hd (by simpa using hv) (ghosts := []) (by simp)
  obtain ⟨N, cost, st, h1, h2, -⟩ := trapezoidizeC_run hctx mathN
  have h3 := mean_cost (hctx.poly g (by simp)) _ h2
  have h4 : (∑ σ, (cost σ : ℝ)) ≤ g.length.factorial * (8 * g.length + 24 * ∑ i ∈ range g.length, gap (mathN g.length) i +
      6 * g.length * ((range g.length).filter fun i => relocAt (mathN g.length) i = true).card) := by
    have h4 := (Rat.cast_le (K := ℝ)).2 h3
    push_cast at h4
    exact h4
  obtain ⟨h5, h6, -⟩ := mathN_sums hm (hctx.poly g (by simp)).len
  have h6' : (((range g.length).filter fun i => relocAt (mathN g.length) i = true).card : ℝ) ≤ logStar g.length + 2 := by
    exact_mod_cast h6
  have h7 : (2 : ℝ) ≤ logStar g.length := by exact_mod_cast logStar_gt_one (hctx.poly g (by simp)).len
  refine ⟨cost, ⟨N, fun σ => ⟨st σ, h1 σ⟩⟩, ?_⟩
  have hf : (0 : ℝ) < g.length.factorial := by exact_mod_cast Nat.factorial_pos _
  have hn0 : (0 : ℝ) ≤ g.length := Nat.cast_nonneg _
  rw [div_le_iff₀ hf]
  refine h4.trans ?_
  rw [mul_comm]
  refine mul_le_mul_of_nonneg_right ?_ hf.le
  nlinarith

end

section Examples

/-- C50: the hypothesis about the schedule can be met, by exact computation. -/
noncomputable def exactMathN (n h : Nat) : Nat :=
  open Classical in if (∃ j < h, logs n j ≤ 0) ∨ logs n h < 0 then 0 else if logs n h = 0 then n else ⌈(n : ℝ) / logs n h⌉₊

theorem exactMathN_ok : MathN exactMathN := by
  have near : ∀ x, Approx x x := by intro x; unfold Approx; simp only [sub_self, abs_zero]; positivity
  intro n
  refine ⟨logs n, rfl, fun h _ => by rw [logs_succ]; exact near _, fun h => ⟨fun hp => ?_, fun hp h0 => ?_, fun hp => ?_⟩⟩
  · refine ⟨_, near _, .inl ?_⟩
    unfold exactMathN
    rw [if_neg, if_neg (hp h (le_refl _)).ne']
    rintro (⟨j, hj, hj'⟩ | hn)
    · exact not_le.2 (hp j hj.le) hj'
    · exact lt_asymm hn (hp h (le_refl _))
  · unfold exactMathN
    rw [if_neg, if_pos h0]
    rintro (⟨j, hj, hj'⟩ | hn)
    · exact not_le.2 (hp j hj) hj'
    · exact hn.ne h0
  · unfold exactMathN
    rw [if_pos hp]

attribute [local instance] exact

/-- C50: the hypotheses hold for a pentagon. -/
example : ∃ cost, Costs (PolyList.single pentagon) id exactMathN 5 cost ∧
    (∑ σ, (cost σ : ℝ)) / Nat.factorial 5 ≤ 80 * 5 * (logStar 5 + 1) :=
  C50_expected_cost_log_star (PolyList.single pentagon) id (indexed (pentagon.map id)) (describes_single _ _ (by decide +kernel))
    (polysOk_sound (by decide +kernel)) exactMathN exactMathN_ok

/-- C50: the hypotheses hold for a pentagon and a schedule with one relocation. -/
example : ∃ cost, Costs (PolyList.single pentagon) id (fun _ _ => 2) 5 cost ∧
    (∑ σ, (cost σ : ℚ)) ≤ Nat.factorial 5 * (5 * (8 + 24 * harmonic 5 + 6 * 1)) ∧ ∀ σ, cost σ ≤ 5 * (4 + 8 * 5 + 1 * (4 + 2 * 5)) :=
  C50_expected_cost_any_schedule (PolyList.single pentagon) id (indexed (pentagon.map id))
    (describes_single _ _ (by decide +kernel)) (polysOk_sound (by decide +kernel)) (fun _ _ => 2) 1 (.inr ⟨by decide, by decide⟩)

/-- C50: one run, with a relocation after every step but the first, costs 24. -/
example : (trapezoidizeC (Cfg.plain (fun _ h => h) true) 40 (PolyList.single pentagon) id).map Prod.snd = .ok 24 := by
  decide +kernel

end Examples

end Tri
