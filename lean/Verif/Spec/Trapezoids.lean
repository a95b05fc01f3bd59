import Verif.Spec.Polygon

/-!
# What a trapezoid is, geometrically
-/

namespace Tri

variable {I V K : Type} [Field K] [LinearOrder K] [IsStrictOrderedRing K]

/-- `q` is strictly inside trapezoid `t` of `st`: above its lower and below its upper vertex in the order of the
library, and strictly right of its left and left of its right segment. -/
structure Contains (st : St I K) (t : Trapezoid) (q : Coords K) : Prop where
  above : ∀ d, t.down = some d → ∃ n, st.ns[d]? = some n ∧ below n.c q
  beneath : ∀ u, t.up = some u → ∃ n, st.ns[u]? = some n ∧ below q n.c
  right_of : ∀ l, t.left = some l → ∃ s, st.ss[l]? = some s ∧ orient s.cMin s.cMax q < 0
  left_of : ∀ r, t.right = some r → ∃ s, st.ss[r]? = some s ∧ 0 < orient s.cMin s.cMax q

end Tri
