import Mathlib.Analysis.SpecialFunctions.Log.Base

/-!
# The iterated logarithm
-/

namespace Tri

/-- `log* n`: how often the binary logarithm must be applied to `n` to get to a number that is at most one. -/
noncomputable def logStar (n : Nat) : Nat := sInf {h | (Real.logb 2)^[h] (n : ℝ) ≤ 1}

end Tri
