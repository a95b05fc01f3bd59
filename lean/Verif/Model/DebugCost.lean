import Verif.Model.Trapezoidation

/-!
# What the consistency check of debug builds counts
-/

namespace Tri

variable {I C : Type}

namespace St

/-- `check_consistency_query_node` (`trapezoidation.rs:577-592`) with the number that it returns: how many times it was called.  The number is not
bounded here; `checkQueryW` (`Model/Words.lean`) has machine words. -/
def checkQueryC (st : St I C) : Nat → Nat → Res IErr Nat
  | 0, _ => .error .timeout
  | fuel + 1, qi => do
    match ← getU st.qs qi with
    | .branch l r _ => do
      let a ← checkQueryC st fuel l
      let b ← checkQueryC st fuel r
      .ok (a + b + 1)
    | .sink ti => do
      let _ ← getU st.ts ti
      .ok (0 + 1)

end St

end Tri
