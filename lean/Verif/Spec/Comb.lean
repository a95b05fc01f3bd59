import Verif.Model.Core
import Mathlib.Algebra.Order.Ring.Rat

/-!
# Polygons with a large search structure

Long strokes beside each other, and to the right of them a staircase.  If the sides of the staircase are inserted first and
then the strokes from the left to the right, each stroke cuts one trapezoid for each step.
-/

namespace Tri

/-- Vertex `j` of the polygon: the ends of the strokes have numbers below `2 k`, the corners of the stairs follow. -/
def combP (k m j : Nat) : Coords ℚ :=
  ⟨j, if j = 0 ∨ j = 2 * k + m + 1 then -2 else if 2 * k ≤ j then ((j - 2 * k : Nat) : ℚ) else if j % 2 = 1 then m + 1 else -1⟩

/-- The polygon with `2 k` strokes and `m` steps. -/
def combPoly (k m : Nat) : List (Coords ℚ) := (List.range (2 * k + m + 2)).map (combP k m)

/-- First the sides from number `s` on, then the others. -/
def startAt (s n : Nat) : List Nat := (List.range (n - s)).map (s + ·) ++ List.range s

end Tri
