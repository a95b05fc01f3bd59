import Mathlib.Algebra.Order.Ring.Rat
import Mathlib.Algebra.Field.Rat
import Verif.Model.Core

/-!
# Model: floating point coordinates

The coordinates of the library are a type with `num_traits::real::Real` (`inputs/vertex.rs:13`), in practice `f32`
or `f64`.  This file models the operations of these types that the library uses (`Scalar`), after
IEEE 754: binary floating point numbers with subnormal numbers, infinities and NaN, rounding to the
nearest number and to an even one in case of a tie.

Simplified: the two zeros are one value.  None of the operations used tells them apart: there is no division
and no look at the sign of a number, only comparisons, for which they are equal.
-/

namespace Tri

/-- A binary format: `p` bits of precision, numbers are multiples of `2 ^ emin`, and less than `2 ^ emax`. -/
structure FloatFormat where
  p : Nat
  emin : Int
  emax : Int

/-- `f32`. -/
def binary32 : FloatFormat := ⟨24, -149, 128⟩

/-- `f64`. -/
def binary64 : FloatFormat := ⟨53, -1074, 1024⟩

/-- `2 ^ e`. -/
def pow2 (e : Int) : ℚ := if 0 ≤ e then ((2 ^ e.toNat : Nat) : ℚ) else mkRat 1 (2 ^ (-e).toNat)

/-- The greatest `e` with `2 ^ e ≤ |q|`, for `q` not zero. -/
def ilog2 (q : ℚ) : Int :=
  let e := (q.num.natAbs.log2 : Int) - (q.den.log2 : Int)
  if pow2 e ≤ |q| then e else e - 1

/-- The nearest integer, the even one if there are two. -/
def roundEven (q : ℚ) : Int :=
  let r := q - q.floor
  if r < 1 / 2 then q.floor
  else if 1 / 2 < r then q.floor + 1
  else if q.floor % 2 = 0 then q.floor else q.floor + 1

/-- The nearest number with `p` bits that is a multiple of `2 ^ emin`. -/
def FloatFormat.nearest (f : FloatFormat) (q : ℚ) : ℚ :=
  if q = 0 then 0
  else
    let e := max (ilog2 q + 1 - f.p) f.emin
    roundEven (q / pow2 e) * pow2 e

/-- A floating point number: finite (and then given by its value), infinite, or not a number. -/
inductive Fl (f : FloatFormat) where
  | fin (q : ℚ)
  | inf (neg : Bool)
  | nan
deriving DecidableEq

/-- The floating point number that the exact result `q` is rounded to. -/
def FloatFormat.round (f : FloatFormat) (q : ℚ) : Fl f :=
  if |f.nearest q| < pow2 f.emax then .fin (f.nearest q) else .inf (decide (q < 0))

/-- The operations of `f32` and `f64`. -/
@[reducible] def ieee (f : FloatFormat) : Scalar (Fl f) where
  eq
    | .fin a, .fin b => decide (a = b)
    | .inf s, .inf t => s == t
    | _, _ => false
  lt
    | .fin a, .fin b => decide (a < b)
    | .fin _, .inf t => !t
    | .inf s, .fin _ => s
    | .inf s, .inf t => s && !t
    | _, _ => false
  cmp
    | .fin a, .fin b => some (if a < b then .lt else if a = b then .eq else .gt)
    | .fin _, .inf t => some (if t then .gt else .lt)
    | .inf s, .fin _ => some (if s then .lt else .gt)
    | .inf s, .inf t => some (if s = t then .eq else if s then .lt else .gt)
    | _, _ => none
  sub
    | .fin a, .fin b => f.round (a - b)
    | .fin _, .inf t => .inf !t
    | .inf s, .fin _ => .inf s
    | .inf s, .inf t => if s = t then .nan else .inf s
    | _, _ => .nan
  mul
    | .fin a, .fin b => f.round (a * b)
    | .fin a, .inf t => if a = 0 then .nan else .inf (t != decide (a < 0))
    | .inf s, .fin b => if b = 0 then .nan else .inf (s != decide (b < 0))
    | .inf s, .inf t => .inf (s != t)
    | _, _ => .nan
  zero := .fin 0

/-- Exact coordinates as floating point coordinates, for points that have a floating point representation. -/
def Coords.toFl (f : FloatFormat) (c : Coords ℚ) : Coords (Fl f) := ⟨.fin c.x, .fin c.y⟩

end Tri
