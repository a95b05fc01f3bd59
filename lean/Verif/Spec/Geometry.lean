import Mathlib.Algebra.Order.Field.Basic
import Verif.Spec.Exact

/-!
# Geometric vocabulary over an ordered field
-/

namespace Tri

section
variable {K : Type} [Field K] [LinearOrder K] [IsStrictOrderedRing K]

/-- Twice the signed area of the triangle `a b c`: positive iff `c` is strictly left of the directed
line from `a` to `b`. -/
def orient (a b c : Coords K) : K := (b.x - a.x) * (c.y - a.y) - (b.y - a.y) * (c.x - a.x)

/-- The order of the library on points: by `y`, then by `x`. -/
def below (a b : Coords K) : Prop := a.y < b.y ∨ (a.y = b.y ∧ a.x < b.x)

/-- A chain of points going down, all inner points of which are strictly left (or right) of the line
from the last up to the first. -/
structure Mountain (left : Bool) (first : Coords K) (inner : List (Coords K)) (last : Coords K) :
    Prop where
  down : (first :: inner ++ [last]).Pairwise fun a b => below b a
  side : ∀ c ∈ inner, if left then 0 < orient last first c else orient last first c < 0

end

/-- The laws of a comparison that may be undefined (IEEE comparison satisfies them, as does every
linear order). -/
structure LawfulCmp (C : Type) [Scalar C] : Prop where
  swap_lt : ∀ a b : C, Scalar.cmp a b = some .lt ↔ Scalar.cmp b a = some .gt
  swap_eq : ∀ a b : C, Scalar.cmp a b = some .eq ↔ Scalar.cmp b a = some .eq
  lt_lt : ∀ a b c : C, Scalar.cmp a b = some .lt → Scalar.cmp b c = some .lt → Scalar.cmp a c = some .lt
  lt_eq : ∀ a b c : C, Scalar.cmp a b = some .lt → Scalar.cmp b c = some .eq → Scalar.cmp a c = some .lt
  eq_lt : ∀ a b c : C, Scalar.cmp a b = some .eq → Scalar.cmp b c = some .lt → Scalar.cmp a c = some .lt
  eq_eq : ∀ a b c : C, Scalar.cmp a b = some .eq → Scalar.cmp b c = some .eq → Scalar.cmp a c = some .eq

end Tri
