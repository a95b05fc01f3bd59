import Mathlib.Algebra.Group.Int.Defs
import Verif.Spec.Format
import Verif.Spec.Input

/-!
# Directed edges of triangles and of closed polygons
-/

namespace Tri

variable {α : Type}

/-- The directed sides of a triangle. -/
def sides (t : α × α × α) : List (α × α) := [(t.1, t.2.1), (t.2.1, t.2.2), (t.2.2, t.1)]

/-- How many more times `es` runs from `u` to `v` than from `v` to `u`. -/
def net [DecidableEq α] (es : List (α × α)) (u v : α) : Int :=
  (es.count (u, v) : Int) - (es.count (v, u) : Int)

end Tri
