import Verif.Model.Trapezoidation

/-!
# The shuffle of the insertion order

`add_polygon` puts the segments in a random order (`trapezoidation.rs:352-355`) with `SliceRandom::shuffle` of the crate `rand`
(`Cargo.toml:18`), whose source is not in the repository.  Modelled is the documented algorithm of version 0.8 (Fisher and Yates):
`for i in (1..len).rev() { self.swap(i, gen_index(rng, i + 1)) }`.

What the random number generator answers is a parameter: `d i` is the number below `i + 1` drawn for position `i`.
-/

namespace Tri

/-- `slice::swap`, for positions within the list. -/
def swapAt (xs : List Nat) (i j : Nat) : List Nat := (xs.set i (xs.getD j 0)).set j (xs.getD i 0)

/-- The numbers drawn for a list of `len` elements, one below `i + 1` for each position `i` (the one for position 0, which is
always 0, is not drawn by the code). -/
abbrev Draws (len : Nat) : Type := (i : Fin len) → Fin (i.val + 1)

/-- The iterations of the shuffle for the positions `i, i - 1, …, 1`. -/
def shuffleFrom (d : Nat → Nat) : Nat → List Nat → List Nat
  | 0, xs => xs
  | i + 1, xs => shuffleFrom d i (swapAt xs (i + 1) (d (i + 1)))

/-- `segment_order` (`trapezoidation.rs:354-355`) for a polygon with `len` segments. -/
def shuffledOrder (len : Nat) (d : Draws len) : List Nat :=
  shuffleFrom (fun i => if h : i < len then (d ⟨i, h⟩).val else 0) (len - 1) (List.range len)

end Tri
