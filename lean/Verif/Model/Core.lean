/-!
# Model core: outcomes, checked and unchecked indexing, coordinates

Everything in `Verif/Model` transcribes Rust from `/repo/src`.  The conventions are:

* a Rust `Result<T, E>` is `Except (Fault E) T`; besides `Err(e)` (`Fault.err e`) a run can stop
  because of a panic (`Fault.panic`), because an *unchecked* access is out of range
  (`Fault.ub`, undefined behaviour in Rust), or because the model's step budget for a
  `while`/`loop` is used up (`Fault.timeout`, the code is still running);
* a Rust `&mut self` method returns the new value;
* `Vec<T>`, `SmallVec`, `Box<[T]>` and slices are `List T`; `Idx<T>` (`idx.rs:4`, a `NonZeroUsize`
  holding index + 1) is the `Nat` it stands for.  `usize` is `Nat`; overflow is the subject of `Model/Words.lean`.
-/

namespace Tri

/-- The ways in which a modelled computation stops without producing its value. -/
inductive Fault (ε : Type) where
  /-- `Err(e)` was returned -/
  | err (e : ε)
  /-- the code panicked (checked index out of range, `usize` underflow in a debug build,
  `conversion_panic`, `debug_assert!`, a failed consistency check) -/
  | panic
  /-- an unchecked access (`get_unchecked`) was out of range -/
  | ub
  /-- the step budget of the model was used up: the modelled loop is still running -/
  | timeout
deriving DecidableEq, Repr

/-- Outcome of a modelled computation with Rust error type `ε`. -/
abbrev Res (ε α : Type) := Except (Fault ε) α

/-- Changes the Rust error type, as `map_err` does. -/
def Res.mapErr {ε ε' α : Type} (f : ε → ε') : Res ε α → Res ε' α
  | .ok a => .ok a
  | .error (.err e) => .error (.err (f e))
  | .error .panic => .error .panic
  | .error .ub => .error .ub
  | .error .timeout => .error .timeout

/-- `impl Index<Idx<T>> for Vec<T>` (`idx.rs:162-171`) and `find_trapezoid_from_root`'s direct
`get_unchecked` (`trapezoidation.rs:34`): an unchecked read. -/
def getU {ε α : Type} (xs : List α) (i : Nat) : Res ε α :=
  match xs[i]? with
  | some a => .ok a
  | none => .error .ub

/-- `impl Index<Idx<T>> for [T]` (`idx.rs:179-185`) and ordinary slice indexing: a checked read. -/
def getP {ε α : Type} (xs : List α) (i : Nat) : Res ε α :=
  match xs[i]? with
  | some a => .ok a
  | none => .error .panic

/-- `impl IndexMut<Idx<T>> for Vec<T>` (`idx.rs:173-177`) and for `[T]` (`idx.rs:187-191`) followed
by an update of the element: checked. -/
def modP {ε α : Type} (xs : List α) (i : Nat) (f : α → α) : Res ε (List α) :=
  match xs[i]? with
  | some a => .ok (xs.set i (f a))
  | none => .error .panic

/-- `usize` subtraction: underflow panics (debug builds; it wraps in release builds, which the model
treats as the same fault). -/
def subP {ε : Type} (a b : Nat) : Res ε Nat :=
  if b ≤ a then .ok (a - b) else .error .panic

/-- The operations the code uses on coordinates (`num_traits::real::Real`, `inputs/vertex.rs:13`):
`==`, `<`, `partial_cmp`, `-`, `*` and `zero()`.  No law is assumed about them here, so that
theorems stated over an arbitrary `Scalar` also cover `f32`/`f64` with rounding, infinities and
NaN. -/
class Scalar (C : Type) where
  /-- `PartialEq::eq` -/
  eq : C → C → Bool
  /-- `PartialOrd::lt` -/
  lt : C → C → Bool
  /-- `PartialOrd::partial_cmp` -/
  cmp : C → C → Option Ordering
  /-- `Sub::sub` -/
  sub : C → C → C
  /-- `Mul::mul` -/
  mul : C → C → C
  /-- `Zero::zero` -/
  zero : C

/-- `Coords<C>` (`inputs/vertex.rs:21-29`). -/
structure Coords (C : Type) where
  x : C
  y : C
deriving DecidableEq, Repr

variable {C : Type} [Scalar C]

/-- `Coords::zero` (`inputs/vertex.rs:28`). -/
def Coords.zero : Coords C := ⟨Scalar.zero, Scalar.zero⟩

/-- `impl PartialOrd for Coords<C>` (`inputs/vertex.rs:54-64`): lexicographic, `y` first. -/
def Coords.partialCmp (a b : Coords C) : Option Ordering :=
  match Scalar.cmp a.y b.y with
  | none => none
  | some .eq => Scalar.cmp a.x b.x
  | some o => some o

/-- `a < b` through the default `PartialOrd::lt`. -/
def Coords.ltB (a b : Coords C) : Bool := a.partialCmp b == some .lt

/-- `a > b` through the default `PartialOrd::gt`. -/
def Coords.gtB (a b : Coords C) : Bool := a.partialCmp b == some .gt

/-- `a <= b` through the default `PartialOrd::le`. -/
def Coords.leB (a b : Coords C) : Bool :=
  match a.partialCmp b with
  | some .lt => true
  | some .eq => true
  | _ => false

/-- `is_left_of_line` (`math.rs:5-13`). -/
def isLeftOfLine (cMin cMax c : Coords C) : Bool :=
  if Scalar.eq c.y cMax.y then Scalar.lt c.x cMax.x
  else if Scalar.eq c.y cMin.y then Scalar.lt c.x cMin.x
  else
    Scalar.lt (Scalar.mul (Scalar.sub cMin.x cMax.x) (Scalar.sub c.y cMax.y))
      (Scalar.mul (Scalar.sub cMin.y cMax.y) (Scalar.sub c.x cMax.x))

/-- The messages of `InternalError` (`errors.rs:26-41`).  The code builds strings; the model keeps
one constructor per message and drops the formatted details and the backtrace. -/
inductive IErr where
  /-- `nexus.rs:128` -/
  | nexusNotTwo
  /-- `nexus.rs:137` -/
  | notConnected
  /-- `nexus.rs:181` -/
  | alreadyTwo
  /-- `nexus.rs:193` -/
  | notContained
  /-- `nexus.rs:229` -/
  | invalidSegNexus
  /-- `nexus.rs:287` -/
  | fewerThanTwo
  /-- `trapezoidation.rs:420` -/
  | containingNotFound
  /-- `trapezoidation.rs:496` and `:509` -/
  | segMinNotFound
  /-- `trapezoidation.rs:543` -/
  | noMatchingSide
  /-- `trapezoidation.rs:675` -/
  | topReachedX
  /-- `trapezoidation.rs:694` -/
  | innerPolygon
  /-- `trapezoidation.rs:788` and `:804` -/
  | expectedSingle
  /-- `trapezoidation.rs:803` and `:816` -/
  | emptyBranchStack
  /-- `trapezoidation.rs:807` -/
  | invalidTrapezoidation
  /-- `trapezoidation.rs:828` -/
  | invalidI
  /-- `trapezoidation.rs:848` -/
  | expectedOnTop
  /-- `trapezoidation.rs:871` -/
  | mismatchedMonotone
  /-- `trapezoidation.rs:873` -/
  | mismatchedBranch
  /-- `trapezoidation.rs:875` -/
  | partialMonotones
  /-- `monotone.rs:36` -/
  | monotoneTooShort (n : Nat)
  /-- `monotone.rs:174` -/
  | remaining (n : Nat)
  /-- `fan_builder_state.rs:19`, `:37` and `:58` -/
  | builderState
deriving DecidableEq, Repr

/-- `TrapezoidationError` (`errors.rs:8-13`). -/
inductive TrapErr where
  | notEnoughVertices (n : Nat)
  | internal (e : IErr)
deriving DecidableEq, Repr

/-- `TriangulationError<FBError>` (`errors.rs:54-66`). -/
inductive TriErr (E : Type) where
  | trapezoidation (e : TrapErr)
  | noVertices
  | internal (e : IErr)
  | fanBuilder (e : E)
deriving DecidableEq, Repr

/-- The `zot` crate's `Zot<T>` (zero, one or two values).  The crate is a dependency that is not in
the sandbox; its behaviour here is part of the trusted base. -/
inductive Zot (α : Type) where
  | zero
  | one (a : α)
  | two (a b : α)
deriving DecidableEq, Repr

namespace Zot
variable {α β : Type}

/-- `Zot::first` -/
def first : Zot α → Option α
  | zero => none
  | one a => some a
  | two a _ => some a

/-- `Zot::second` -/
def second : Zot α → Option α
  | two _ b => some b
  | _ => none

/-- `Zot::last` -/
def last : Zot α → Option α
  | zero => none
  | one a => some a
  | two _ b => some b

/-- `Zot::from_options`: packs the values that are present. -/
def fromOptions : Option α → Option α → Zot α
  | some a, some b => two a b
  | some a, none => one a
  | none, some b => one b
  | none, none => zero

/-- `Zot::map` -/
def map (f : α → β) : Zot α → Zot β
  | zero => zero
  | one a => one (f a)
  | two a b => two (f a) (f b)

end Zot

/-- The `zot` crate's `Ot<T>` (one or two values). -/
inductive Ot (α : Type) where
  | one (a : α)
  | two (a b : α)
deriving DecidableEq, Repr

/-- `Ot::iter` / `Ot::into_iter` -/
def Ot.toList {α : Type} : Ot α → List α
  | .one a => [a]
  | .two a b => [a, b]

/-- `TriangleWinding` (`outputs/triangle_winding.rs:3-8`). -/
inductive Winding where
  | counterclockwise
  | clockwise
deriving DecidableEq, Repr

/-- `TriangleWinding::reverse` (`outputs/triangle_winding.rs:12-17`). -/
def Winding.reverse : Winding → Winding
  | .counterclockwise => .clockwise
  | .clockwise => .counterclockwise

end Tri
