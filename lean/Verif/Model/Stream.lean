import Verif.Model.Triangulate

/-!
# Index iterators that need not end

`PolyList.elems` is the list of all that the index iterator of a polygon list yields.  `build` (`trapezoidation.rs:257-287`) does not
wait for the end of the iterator: it adds each polygon when it is complete.  Here is `build` once more, with an iterator that is asked for one element at a
time, so that also iterators are covered that never end.
-/

namespace Tri

variable {I V C : Type}

/-- An `Iterator` as `iter_indices` (`inputs/polygon_list.rs:155-156`) returns it, passed through `Into::into`: what `next()` returns in each state, and the
next state.  `none` is the end of the iteration, `some none` a call that panics. -/
structure IndexIter (I : Type) where
  S : Type
  start : S
  next : S → Option (Option (Elem I)) × S

namespace IndexIter

/-- The state after `n` calls. -/
def after (it : IndexIter I) : Nat → it.S
  | 0 => it.start
  | n + 1 => (it.next (it.after n)).2

/-- What call number `n` returns. -/
def nth (it : IndexIter I) (n : Nat) : Option (Option (Elem I)) := (it.next (it.after n)).1

/-- The iterator of `impl PolygonList for D: Deref<Target=[P]>` (`inputs/polygon_list.rs:221-256`, `290-293`). -/
def nested (pss : List (List V)) : IndexIter (Nat × Nat) where
  S := VecVecIter
  start := ⟨0, 0⟩
  next := fun s => ((s.next pss).1.map some, (s.next pss).2)

end IndexIter

namespace St

variable [Scalar C] [DecidableEq I]

/-- The loop of `build` (`trapezoidation.rs:266-284`).  After the iterator has ended there is one more `NewPolygon`. -/
def buildIter (cfg : Cfg) (fuel : Nat) (p : PolyList I V) (xy : V → Coords C) (it : IndexIter I) :
    Nat → it.S → BuildLoop I C → Res TrapErr (BuildLoop I C)
  | 0, _, _ => .error .timeout
  | n + 1, s, l =>
    match it.next s with
    | (none, _) => buildStep cfg fuel p xy l (some .newPolygon)
    | (some e, s) => do
      let l ← buildStep cfg fuel p xy l e
      buildIter cfg fuel p xy it n s l

end St

/-- `PolygonList::trapezoidize` (`inputs/polygon_list.rs:172-174`) for a polygon list with the iterator `it`; only `get_vertex` is taken from `p`. -/
def trapezoidizeIter [Scalar C] [DecidableEq I] (cfg : Cfg) (fuel : Nat) (p : PolyList I V) (xy : V → Coords C) (it : IndexIter I) :
    Res TrapErr (St I C) := do
  let l ← St.buildIter cfg fuel p xy it fuel it.start ⟨St.init, [], 0⟩
  .ok l.st

/-- `PolygonList::triangulate` (`inputs/polygon_list.rs:177-179`) for a polygon list with the iterator `it`. -/
def triangulateIter [Scalar C] [DecidableEq I] (cfg : Cfg) (fuel : Nat) (p : PolyList I V) (xy : V → Coords C) (it : IndexIter I)
    (F : FanFormat I) : F.W × Res (TriErr F.E) F.O :=
  match Res.mapErr TriErr.trapezoidation (trapezoidizeIter cfg fuel p xy it) with
  | .ok st => st.triangulate fuel p xy F
  | .error e => (F.unused, .error e)

end Tri
