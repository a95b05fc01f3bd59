import Verif.Model.Float
import Verif.Spec.Exact

/-!
# When floating point side tests can be trusted
-/

namespace Tri

/-- `q` is a number of the format: an integer of at most `p` bits (or `2 ^ p`) times a power of two. -/
def FloatFormat.Fits (f : FloatFormat) (q : ℚ) : Prop := ∃ m k : Int, q = m * pow2 k ∧ |m| ≤ 2 ^ f.p ∧ f.emin ≤ k

/-- Formats with at least two bits that hold integers up to a hundred or so. -/
structure FloatFormat.Usual (f : FloatFormat) : Prop where
  two : 2 ≤ f.p
  big : 6 ≤ f.emax
  small : f.emin ≤ 0

theorem usual32 : binary32.Usual := ⟨by decide, by decide, by decide⟩

theorem usual64 : binary64.Usual := ⟨by decide, by decide, by decide⟩

/-- A point whose coordinates are numbers of the format, and so far from the overflow threshold that the
products of differences of coordinates do not overflow. -/
def FloatFormat.Sound (f : FloatFormat) (c : Coords ℚ) : Prop :=
  f.Fits c.x ∧ f.Fits c.y ∧ ∃ g : Nat, 2 * (g : Int) + 6 ≤ f.emax ∧ |c.x| ≤ pow2 g ∧ |c.y| ≤ pow2 g

/-- The two products whose comparison tells on which side of the line through `u` and `v` the point `w` is. -/
def sideProducts (u v w : Coords ℚ) : ℚ × ℚ := ((u.x - v.x) * (w.y - v.y), (u.y - v.y) * (w.x - v.x))

/-- `w` is so far from the line through `u` and `v` that rounding does not matter. -/
def FloatFormat.Clear (f : FloatFormat) (u v w : Coords ℚ) : Prop :=
  4 * pow2 (-f.p) * (|(sideProducts u v w).1| + |(sideProducts u v w).2|) + pow2 f.emin <
    |(sideProducts u v w).1 - (sideProducts u v w).2|

/-- Everything that is computed to find out on which side of the line through `u` and `v` the point `w` is, is
a number of the format. -/
def FloatFormat.NoRounding (f : FloatFormat) (u v w : Coords ℚ) : Prop :=
  f.Fits (u.x - v.x) ∧ f.Fits (u.y - v.y) ∧ f.Fits (w.x - v.x) ∧ f.Fits (w.y - v.y) ∧
    f.Fits (sideProducts u v w).1 ∧ f.Fits (sideProducts u v w).2

/-- Rounding does not change the answer on which side of the line through `u` and `v` the point `w` is: it is clear, or nothing is rounded, or
all three are on one vertical line. -/
def FloatFormat.Reliable (f : FloatFormat) (u v w : Coords ℚ) : Prop :=
  f.Clear u v w ∨ f.NoRounding u v w ∨ (u.x = v.x ∧ w.x = v.x)

end Tri
