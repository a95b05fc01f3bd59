import Verif.Model.Trapezoidation
import Verif.Model.Outputs

/-!
# Model of `FanBuilderState` and of monotone polygon triangulation

The Rust functions `Monotone::build_fans` and `Trapezoidation::triangulate_inner` are generic in the
fan format.  In the model they are generic in a monad `m` that offers the two operations those
functions use on the format (`FanBuilderState::new_fan`, `FanBuilder::extend_fan`) and early return;
`FBM F` is the instance for an actual format `F`.
-/

namespace Tri

variable {I V C : Type}

/-- The operations generic triangulation code uses: start a fan, extend the current fan, stop. -/
class FanM (I : outParam Type) (m : Type → Type) extends Monad m where
  newFan : I → I → I → m Unit
  extendFan : I → m Unit
  stop : {α : Type} → Fault IErr → m α

/-- Internal errors, panics etc. raised by the triangulation code itself. -/
def FanM.lift {m : Type → Type} [FanM I m] {α : Type} : Res IErr α → m α
  | .ok a => pure a
  | .error e => FanM.stop e

/-- `FanBuilderState` (`fan_builder_state.rs:6-10`).  `Uninitialized` holds the format value, which
is the record `F` itself; `Error(None)` keeps what is left of the caller's storage. -/
inductive FBS (F : FanFormat I) where
  | uninit
  | init (b : F.B)
  | error (b : F.B)
  | dead (w : F.W)

/-- Computations over a `&mut FanBuilderState` that may stop early; the state reached is kept. -/
def FBM (F : FanFormat I) (α : Type) : Type := FBS F → FBS F × Res (TriErr F.E) α

/-- `From<FBError> for TriangulationError<FBError>` (`errors.rs:78-82`). -/
def liftBuilderErr {E : Type} : Fault E → Fault (TriErr E)
  | .err e => .err (.fanBuilder e)
  | .panic => .panic
  | .ub => .ub
  | .timeout => .timeout

/-- `TriangulationError::InternalError` around an error of the triangulation code. -/
def liftInternal {E : Type} : Fault IErr → Fault (TriErr E)
  | .err e => .err (.internal e)
  | .panic => .panic
  | .ub => .ub
  | .timeout => .timeout

/-- `FanBuilderState::new_fan` (`fan_builder_state.rs:13-39`).  `mem::replace(self, Error(None))`
leaves `Error(None)` behind when `initialize` fails and when the state already was `Error`. -/
def FBS.newFan (F : FanFormat I) (v0 v1 v2 : I) : FBM F Unit := fun s =>
  match s with
  | .init b =>
    match F.newFan b v0 v1 v2 with
    | (b, .ok ()) => (.init b, .ok ())
    | (b, .error e) => (.error b, .error (liftBuilderErr e))
  | .uninit =>
    match F.start v0 v1 v2 with
    | .ok b => (.init b, .ok ())
    | .error (e, w) => (.dead w, .error (liftBuilderErr e))
  | .error b => (.dead (F.drop b), .error (.err (.internal .builderState)))
  | .dead w => (.dead w, .error (.err (.internal .builderState)))

/-- `fb.extend_fan(v)?` on the `&mut FB::Builder` that `new_fan` returned: a reference into the
`Initialized` state (`fan_builder_state.rs:14-21`, `monotone.rs:95`, `154`).  In the Rust code the
reference exists only after a successful `new_fan`; the other cases are unreachable and modelled as
the internal error. -/
def FBS.extendFan (F : FanFormat I) (v : I) : FBM F Unit := fun s =>
  match s with
  | .init b =>
    match F.extendFan b v with
    | (b, .ok ()) => (.init b, .ok ())
    | (b, .error e) => (.init b, .error (liftBuilderErr e))
  | s => (s, .error (.err (.internal .builderState)))

instance (F : FanFormat I) : FanM I (FBM F) where
  pure a := fun s => (s, .ok a)
  bind x f := fun s =>
    match x s with
    | (s, .ok a) => f a s
    | (s, .error e) => (s, .error e)
  newFan := FBS.newFan F
  extendFan := FBS.extendFan F
  stop e := fun s => (s, .error (liftInternal e))

/-- What dropping the state leaves of the caller's storage (used when the call unwinds). -/
def FBS.dropped {F : FanFormat I} : FBS F → F.W
  | .uninit => F.unused
  | .init b => F.drop b
  | .error b => F.drop b
  | .dead w => w

/-- `FanBuilderState::complete` (`fan_builder_state.rs:41-66`).  Faults other than `Err` do not reach
`complete`: the call unwinds (or never returns) and the state is dropped.  Simplified: a state `Error` together with
`Ok(())` (`fan_builder_state.rs:56-64`) is a failed `debug_assert!` in a debug build and the internal error "Unknown error" in
a release build; here it is a panic in both.  It does not occur: C38 says that there is no such panic. -/
def FBS.complete {F : FanFormat I} (s : FBS F) (r : Res (TriErr F.E) Unit) :
    F.W × Res (TriErr F.E) F.O :=
  match s, r with
  | .init b, .ok () =>
    match F.build b with
    | (w, .ok o) => (w, .ok o)
    | (w, .error e) => (w, .error (liftBuilderErr e))
  | .uninit, .ok () => (F.unused, .error (.err .noVertices))
  | .uninit, .error (.err e) => (F.unused, .error (.err e))
  | .dead w, .error (.err e) => (w, .error (.err e))
  | .init b, .error (.err e) => (F.fail b e, .error (.err e))
  | .error b, .error (.err e) => (F.fail b e, .error (.err e))
  | .error b, .ok () => (F.drop b, .error .panic)
  | .dead w, .ok () => (w, .error .panic)
  | s, .error .panic => (s.dropped, .error .panic)
  | s, .error .ub => (s.dropped, .error .ub)
  | s, .error .timeout => (s.dropped, .error .timeout)

/-- `MonotoneBuilder` (`monotone.rs:8-12`); `vec` is `first :: rest` (it is created with one element
and only ever grows). -/
structure MonoB (I C : Type) where
  first : I × Coords C
  rest : List (I × Coords C)
  diffX : Bool
  diffY : Bool
deriving DecidableEq, Repr

/-- `Monotone` (`monotone.rs:48-55`). -/
structure Mono (I C : Type) where
  arr : List (I × Coords C)
  skippedTop : Nat
  pendingTop : Nat
  isLeftChain : Bool
deriving DecidableEq, Repr

namespace MonoB
variable [Scalar C]

/-- `MonotoneBuilder::new` (`monotone.rs:15-21`). -/
def new (vi : I) (c : Coords C) : MonoB I C := ⟨(vi, c), [], false, false⟩

/-- `MonotoneBuilder::add_vertex` (`monotone.rs:23-32`). -/
def addVertex (b : MonoB I C) (vi : I) (c : Coords C) : MonoB I C where
  first := b.first
  rest := b.rest ++ [(vi, c)]
  diffX := if !b.diffX && !Scalar.eq c.x b.first.2.x then true else b.diffX
  diffY := if !b.diffY && !Scalar.eq c.y b.first.2.y then true else b.diffY

/-- `MonotoneBuilder::build` (`monotone.rs:34-45`) with `Monotone::new` (`78-85`). -/
def build (b : MonoB I C) : Res IErr (Option (Mono I C)) :=
  match b.rest with
  | v1 :: v2 :: tl =>
    if b.diffX && b.diffY then
      let last := (v2 :: tl).getLast (by simp)
      .ok (some ⟨b.first :: v1 :: v2 :: tl, 2, 2, isLeftOfLine last.2 b.first.2 v1.2⟩)
    else .ok none
  | _ => .error (.err (.monotoneTooShort (b.rest.length + 1)))

end MonoB

namespace Mono

/-- `Monotone::skipped_peek` (`monotone.rs:179-181`). -/
def skippedPeek (M : Mono I C) : Res IErr (I × Coords C) := do
  getP M.arr (← subP M.skippedTop 1)

/-- `Monotone::skipped_peek2` (`monotone.rs:184-186`). -/
def skippedPeek2 (M : Mono I C) : Res IErr ((I × Coords C) × (I × Coords C)) := do
  let a ← getP M.arr (← subP M.skippedTop 2)
  let b ← getP M.arr (← subP M.skippedTop 1)
  .ok (a, b)

/-- `Monotone::skipped_pop` (`monotone.rs:189-192`). -/
def skippedPop (M : Mono I C) : Res IErr ((I × Coords C) × Mono I C) := do
  let top ← subP M.skippedTop 1
  let a ← getP M.arr top
  .ok (a, { M with skippedTop := top })

/-- `Monotone::pending_peek` (`monotone.rs:195-197`). -/
def pendingPeek (M : Mono I C) : Res IErr (I × Coords C) := getP M.arr M.pendingTop

/-- `Monotone::remaining_vertices` (`monotone.rs:199-201`). -/
def remaining (M : Mono I C) : Res IErr Nat := do
  let d ← subP M.arr.length M.pendingTop
  .ok (d + M.skippedTop)

/-- `slice::swap`: panics when an index is out of range. -/
def swapP {α : Type} (xs : List α) (i j : Nat) : Res IErr (List α) := do
  let a ← getP xs i
  let b ← getP xs j
  .ok ((xs.set i b).set j a)

/-- The conditional swap in `Monotone::transfer_pending` (`monotone.rs:204-206`). -/
def swapIfNe {α : Type} (xs : List α) (i j : Nat) : Res IErr (List α) :=
  if i ≠ j then swapP xs i j else .ok xs

/-- `Monotone::transfer_pending` (`monotone.rs:203-209`). -/
def transferPending (M : Mono I C) : Res IErr (Mono I C) := do
  let arr ← swapIfNe M.arr M.skippedTop M.pendingTop
  .ok { M with arr := arr, skippedTop := M.skippedTop + 1, pendingTop := M.pendingTop + 1 }

/-- `Monotone::reset_position` (`monotone.rs:211-215`). -/
def resetPosition (M : Mono I C) : Mono I C :=
  { M with arr := M.arr.take M.skippedTop, skippedTop := 2, pendingTop := 2 }

/-- `Monotone::has_pending` (`monotone.rs:217`). -/
def hasPending (M : Mono I C) : Bool := decide (M.pendingTop < M.arr.length)

/-- The array position in `Monotone::deferred_index` (`monotone.rs:220-224`). -/
def deferredPos (M : Mono I C) (isBacktracking : Bool) (i : Nat) : Res IErr Nat :=
  if isBacktracking then .ok (M.skippedTop + i)
  else do
    let a ← subP M.pendingTop 1
    subP a i

/-- `Monotone::deferred_index` (`monotone.rs:219-226`). -/
def deferredIndex (M : Mono I C) (isBacktracking : Bool) (i : Nat) : Res IErr I := do
  let index ← deferredPos M isBacktracking i
  let e ← getP M.arr index
  .ok e.1

/-- `Monotone::can_triangulate` (`monotone.rs:228-235`). -/
def canTriangulate [Scalar C] (M : Mono I C) : Res IErr Bool :=
  if 2 ≤ M.skippedTop ∧ M.hasPending = true then do
    let cMin ← M.pendingPeek
    let (cMax, c) ← M.skippedPeek2
    .ok (M.isLeftChain == isLeftOfLine cMin.2 cMax.2 c.2)
  else .ok false

/-- `BuilderOrDeferredTris` (`monotone.rs:88-91`). -/
inductive Bodt where
  | builder
  | deferred (dt : Nat)

variable {m : Type → Type} [FanM I m]

/-- `BuilderOrDeferredTris::add_triangle` (`monotone.rs:93-99`). -/
def Bodt.addTriangle (b : Bodt) (vi : I) : m Bodt :=
  match b with
  | .builder => do
    FanM.extendFan vi
    pure .builder
  | .deferred dt => pure (.deferred (dt + 1))

variable [Scalar C]

/-- The backtracking loop (`monotone.rs:130-133`). -/
def backLoop : Nat → Mono I C → Bodt → m (Mono I C × Bodt)
  | 0, _, _ => FanM.stop .timeout
  | fuel + 1, M, b => do
    let go ← FanM.lift M.canTriangulate
    if go then do
      let (_, M) ← FanM.lift M.skippedPop
      let v ← FanM.lift M.skippedPeek
      let b ← b.addTriangle v.1
      backLoop fuel M b
    else pure (M, b)

/-- The advancing loop (`monotone.rs:136-141`). -/
def advLoop : Nat → Mono I C → Bodt → m (Mono I C × Bodt)
  | 0, _, _ => FanM.stop .timeout
  | fuel + 1, M, b => do
    let go ← FanM.lift M.canTriangulate
    if go then do
      let (_, M) ← FanM.lift M.skippedPop
      let v ← FanM.lift M.pendingPeek
      let b ← b.addTriangle v.1
      let M ← FanM.lift M.transferPending
      advLoop fuel M b
    else pure (M, b)

/-- `for i in 1..dt { fb.extend_fan(self.deferred_index(is_backtracking, i))? }`
(`monotone.rs:153-157`), as the calls for `i, i+1, …` (`n` of them). -/
def extendDeferred (M : Mono I C) (isBacktracking : Bool) (i : Nat) : Nat → m Unit
  | 0 => pure ()
  | n + 1 => do
    let v ← FanM.lift (M.deferredIndex isBacktracking i)
    FanM.extendFan v
    extendDeferred M isBacktracking (i + 1) n

/-- The root and the first outer vertex of a deferred fan (`monotone.rs:146-151`). -/
def deferredBase (M : Mono I C) (isBacktracking : Bool) : Res IErr (I × I) :=
  if isBacktracking then do
    let v0 ← M.pendingPeek
    let v1 ← M.skippedPeek
    .ok (v0.1, v1.1)
  else do
    let (v0, v1) ← M.skippedPeek2
    .ok (v0.1, v1.1)

/-- Emission of a deferred fan of `dt` triangles (`monotone.rs:145-158`). -/
def emitDeferred (M : Mono I C) (isBacktracking : Bool) (dt : Nat) : m Unit := do
  let (v0, v1) ← FanM.lift (deferredBase M isBacktracking)
  let v2 ← FanM.lift (M.deferredIndex isBacktracking 0)
  FanM.newFan v0 v1 v2
  extendDeferred M isBacktracking 1 (dt - 1)

/-- The start of a fan: either the base triangle is emitted at once or the fan is deferred
(`monotone.rs:113-120`). -/
def startFan (w : Winding) (isLeftChain isBacktracking : Bool) (vi0 vi1 vi2 : I) : m Bodt :=
  if (isBacktracking ^^ isLeftChain) ^^ (w == .clockwise) then do
    FanM.newFan (if !isLeftChain then vi2 else vi0) vi1 (if !isLeftChain then vi0 else vi2)
    pure Bodt.builder
  else pure (Bodt.deferred 1)

/-- The further triangles of a fan (`monotone.rs:124-142`).  The two loops pop a vertex or consume a
pending one at each iteration; their step budget is the array length plus one. -/
def growFan (isBacktracking : Bool) (M : Mono I C) (bodt : Bodt) : m (Mono I C × Bodt) :=
  if isBacktracking then do
    let (_, M) ← FanM.lift M.skippedPop
    let v ← FanM.lift M.skippedPeek
    let bodt ← bodt.addTriangle v.1
    backLoop (M.arr.length + 1) M bodt
  else do
    let M ← FanM.lift M.transferPending
    advLoop (M.arr.length + 1) M bodt

/-- Deferred fans are emitted at the end (`monotone.rs:145-158`). -/
def finishFan (isBacktracking : Bool) (M : Mono I C) : Bodt → m Unit
  | .builder => pure ()
  | .deferred dt => emitDeferred M isBacktracking dt

/-- One fan: the body of `if self.can_triangulate()` (`monotone.rs:104-158`). -/
def fanStep (w : Winding) (M : Mono I C) : m (Mono I C) := do
  let (v1, M) ← FanM.lift M.skippedPop
  let v0 ← FanM.lift M.skippedPeek
  let v2 ← FanM.lift M.pendingPeek
  let isBacktracking ← FanM.lift M.canTriangulate
  let bodt ← startFan w M.isLeftChain isBacktracking v0.1 v1.1 v2.1
  let (M, bodt) ← growFan isBacktracking M bodt
  finishFan isBacktracking M bodt
  pure M

/-- `if self.can_triangulate() { .. }` (`monotone.rs:103-159`). -/
def maybeFan (w : Winding) (M : Mono I C) : m (Mono I C) := do
  let b ← FanM.lift M.canTriangulate
  if b then fanStep w M else pure M

/-- `if self.has_pending() { self.transfer_pending() } else { self.reset_position() }`
(`monotone.rs:161-167`). -/
def advancePosition (M : Mono I C) : Res IErr (Mono I C) :=
  if M.hasPending then M.transferPending else .ok M.resetPosition

/-- `Monotone::build_fans` (`monotone.rs:87-176`). -/
def buildFans (w : Winding) : Nat → Mono I C → m Unit
  | 0, _ => FanM.stop .timeout
  | fuel + 1, M => do
    let r ← FanM.lift M.remaining
    if 3 ≤ r then do
      let M ← maybeFan w M
      let M ← FanM.lift M.advancePosition
      buildFans w fuel M
    else if r = 2 then pure ()
    else FanM.stop (.err (.remaining r))

end Mono

end Tri
