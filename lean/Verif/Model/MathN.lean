import Mathlib.Analysis.SpecialFunctions.Log.Base

/-!
# The schedule of relocations

`math_n` (`math.rs:15-21`) computes with `f64`.  The model of the trapezoidation takes an arbitrary function in its
place; here is what is known of its values if `log2` and the division are not too far off.
-/

namespace Tri

/-- `y` is `x` with a relative error of at most two percent.  (For `f64`, `log2` and `/` are more than `10 ^ 10` times better.) -/
def Approx (y x : ℝ) : Prop := |y - x| ≤ |x| / 50

/-- What `math_n` (`math.rs:15-21`) computes.  `nf h` is the value of `nf` after `h` iterations of `nf = nf.log2()`
(`math.rs:16-19`).  As long as it is positive, the result is the quotient, rounded up; a result that is too large for a `usize`,
or the division by zero, gives the largest `usize`, of which only that it is at least `n` is said.  A negative quotient,
and the logarithm of a number that is not positive (`-∞` or NaN), gives zero in the end.  Simplified: `n as f64` is exact, as
it is for `n ≤ 2 ^ 53`. -/
def MathN (mathN : Nat → Nat → Nat) : Prop :=
  ∀ n : Nat, ∃ nf : Nat → ℝ, nf 0 = n ∧ (∀ h, 0 < nf h → Approx (nf (h + 1)) (Real.logb 2 (nf h))) ∧
    ∀ h, ((∀ j ≤ h, 0 < nf j) → ∃ q : ℝ, Approx q (n / nf h) ∧ (mathN n h = ⌈q⌉₊ ∨ n ≤ q ∧ n ≤ mathN n h)) ∧
      ((∀ j < h, 0 < nf j) → nf h = 0 → n ≤ mathN n h) ∧
      ((∃ j < h, nf j ≤ 0) ∨ nf h < 0 → mathN n h = 0)

end Tri
