import Mathlib.Order.Defs.LinearOrder
import Mathlib.Algebra.Order.Ring.Int
import Verif.Model.Triangulate

/-!
# Exact coordinates

Coordinates in a linear order with exact `-` and `*` (`ℤ`, `ℚ`, `ℝ`, any ordered field), as opposed to
floating point numbers.
-/

namespace Tri

/-- The coordinate operations of an exactly computed, linearly ordered number type. -/
@[reducible] def exact (K : Type) [Zero K] [Sub K] [Mul K] [LinearOrder K] : Scalar K where
  eq a b := decide (a = b)
  lt a b := decide (a < b)
  cmp a b := some (if a < b then .lt else if a = b then .eq else .gt)
  sub a b := a - b
  mul a b := a * b
  zero := 0

/-- A configuration without shuffling and with the given relocation schedule. -/
def Cfg.plain (mathN : Nat → Nat → Nat) (debug : Bool) : Cfg := ⟨fun _ n => List.range n, mathN, debug⟩

theorem Cfg.plain_valid (f : Nat → Nat → Nat) (d : Bool) : (Cfg.plain f d).Valid :=
  fun _ _ => List.Perm.refl _

/-- Points of the integer grid, for examples. -/
abbrev ipt (x y : Int) : Coords Int := ⟨x, y⟩

attribute [local instance] exact

/-- A non-convex polygon used in examples. -/
def dart : List (Coords Int) := [ipt 0 0, ipt 4 1, ipt 1 2, ipt 2 5]

end Tri
