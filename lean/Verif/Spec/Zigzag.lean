import Verif.Model.Core
import Mathlib.Algebra.Order.Ring.Rat

/-!
# Polygons that make the search structure branch a lot

A chain of long strokes, each a little shorter than the one before, with short strokes between them.  Every long stroke is
to the right of everything before it, and merges the trapezoids there.
-/

namespace Tri

/-- Vertex `j` of the polygon: the strokes are `4 i, 4 i + 1` (long) and `4 i + 2, 4 i + 3` (short). -/
def zigP (k j : Nat) : Coords ℚ :=
  ⟨j, if j % 4 = 0 then ((j / 4 : Nat) : ℚ) - (k + 3) else if j % 4 = 1 then (k + 3) - ((j / 4 : Nat) : ℚ)
    else if j % 4 = 3 then -1 else if j = 4 * k + 2 then -(k + 3) else 1⟩

/-- The polygon with `k + 1` long and `k` short strokes. -/
def zigzag (k : Nat) : List (Coords ℚ) := (List.range (4 * k + 3)).map (zigP k)

/-- First the sides with even numbers, which are the strokes, then the others. -/
def evenOdd (n : Nat) : List Nat := (List.range ((n + 1) / 2)).map (2 * ·) ++ (List.range (n / 2)).map (2 * · + 1)

end Tri
