import Verif.Model.Wild
import Verif.Model.Triangulate

/-!
# Model of triangulation with user code that may answer anything

The second half of `Model/Wild.lean`: `FanBuilderState`, `Monotone` and `Trapezoidation::triangulate`.  The output
format is user code too: each of its operations succeeds, reports some error or, if `up`, panics.  What a format stores
does not matter then; of `FanBuilderState` only the variant is kept.  `E` and `O` are `FanBuilder::Error` and `Output`.

Coordinates are `Copy` (`num_traits::real::Real`), so that copying them calls no user code; cloning an index does.
-/

namespace Tri

variable {I C E O : Type}

/-- `FanBuilderState` (`fan_builder_state.rs:6-10`) without its content. -/
inductive Phase where
  | uninit
  | init
  | error
  | dead

/-- The possible outcomes of a computation over a `&mut FanBuilderState`. -/
def WildM (E α : Type) : Type := Phase → Phase × Res (TriErr E) α → Prop

namespace WildM

variable {α : Type}

instance : Monad (WildM E) where
  pure a := fun s r => r = (s, .ok a)
  bind X K := fun s r => ∃ x, X s x ∧
    match x with
    | (s, .ok a) => K a s r
    | (s, .error e) => r = (s, .error e)

/-- Internal errors and panics of the triangulation code itself. -/
def lift (x : Res IErr α) : WildM E α := fun s r => r = (s, match x with
  | .ok a => .ok a
  | .error e => .error (liftInternal e))

/-- The computation stops. -/
def stop (e : Fault IErr) : WildM E α := fun s r => r = (s, .error (liftInternal e))

/-- A call of user code: any result at all or, if `up`, a panic. -/
def call (up : Bool) (α : Type) : WildM E α := fun s r =>
  (∃ a, r = (s, .ok a)) ∨ (up = true ∧ r = (s, .error .panic))

/-- `FanBuilderState::new_fan` (`fan_builder_state.rs:13-39`).  The indices do not matter.  A panic of the format leaves
`Error(None)` behind (`mem::replace`), which nobody looks at. -/
def newFan (up : Bool) : WildM E Unit := fun s r =>
  match s with
  | .init => r = (.init, .ok ()) ∨ (∃ e, r = (.error, .error (.err (.fanBuilder e)))) ∨
      (up = true ∧ r = (.error, .error .panic))
  | .uninit => r = (.init, .ok ()) ∨ (∃ e, r = (.dead, .error (.err (.fanBuilder e)))) ∨
      (up = true ∧ r = (.dead, .error .panic))
  | .error => r = (.dead, .error (.err (.internal .builderState)))
  | .dead => r = (.dead, .error (.err (.internal .builderState)))

/-- `fb.extend_fan(v)?` (`monotone.rs:95`, `154`). -/
def extendFan (up : Bool) : WildM E Unit := fun s r =>
  match s with
  | .init => r = (.init, .ok ()) ∨ (∃ e, r = (.init, .error (.err (.fanBuilder e)))) ∨
      (up = true ∧ r = (.init, .error .panic))
  | s => r = (s, .error (.err (.internal .builderState)))

end WildM

/-- `FanBuilderState::complete` (`fan_builder_state.rs:41-66`).  `build` and `fail` are the format's.  Simplified as
`FBS.complete` is: a state `Error` with `Ok(())` is a panic in both kinds of builds. -/
def Phase.complete (up : Bool) (s : Phase) (x : Res (TriErr E) Unit) : Res (TriErr E) O → Prop := fun r =>
  match s, x with
  | .init, .ok () => (∃ o, r = .ok o) ∨ (∃ e, r = .error (.err (.fanBuilder e))) ∨ (up = true ∧ r = .error .panic)
  | .uninit, .ok () => r = .error (.err .noVertices)
  | .uninit, .error (.err e) => r = .error (.err e)
  | .dead, .error (.err e) => r = .error (.err e)
  | .init, .error (.err e) => r = .error (.err e) ∨ (up = true ∧ r = .error .panic)
  | .error, .error (.err e) => r = .error (.err e) ∨ (up = true ∧ r = .error .panic)
  | .error, .ok () => r = .error .panic
  | .dead, .ok () => r = .error .panic
  | _, .error .panic => r = .error .panic
  | _, .error .ub => r = .error .ub
  | _, .error .timeout => r = .error .timeout

namespace WildM

/-- `MonotoneBuilder::add_vertex` (`monotone.rs:23-32`) with `n.vertex()`, which clones the index (`nexus.rs:132`). -/
def addVertex (up : Bool) (b : MonoB I C) (c : Coords C) : WildM E (MonoB I C) := do
  let vi ← call up I
  let dx ← call up Bool
  let dy ← call up Bool
  pure ⟨b.first, b.rest ++ [(vi, c)], if b.diffX then true else dx, if b.diffY then true else dy⟩

/-- `MonotoneBuilder::build` (`monotone.rs:34-45`) with `Monotone::new` (`78-85`). -/
def build (up : Bool) (b : MonoB I C) : WildM E (Option (Mono I C)) :=
  match b.rest with
  | v1 :: v2 :: tl =>
    if b.diffX && b.diffY then do
      let left ← call up Bool
      pure (some ⟨b.first :: v1 :: v2 :: tl, 2, 2, left⟩)
    else pure none
  | _ => stop (.err (.monotoneTooShort (b.rest.length + 1)))

/-- The clone of an element that was read: the index is cloned, the coordinates are copied. -/
def cloned (up : Bool) (x : Res IErr (I × Coords C)) : WildM E Unit := do
  let _ ← lift x
  call up Unit

/-- `Monotone::skipped_pop` (`monotone.rs:189-192`). -/
def skippedPop (up : Bool) (M : Mono I C) : WildM E (Mono I C) := do
  let (_, M) ← lift M.skippedPop
  let _ ← call up Unit
  pure M

/-- `Monotone::can_triangulate` (`monotone.rs:228-235`). -/
def canTriangulate (up : Bool) (M : Mono I C) : WildM E Bool :=
  if 2 ≤ M.skippedTop ∧ M.hasPending = true then do
    cloned up M.pendingPeek
    let _ ← lift M.skippedPeek2
    let _ ← call up Unit
    call up Bool
  else pure false

/-- `BuilderOrDeferredTris::add_triangle` (`monotone.rs:93-99`). -/
def addTriangle (up : Bool) (b : Mono.Bodt) : WildM E Mono.Bodt :=
  match b with
  | .builder => do
    extendFan up
    pure .builder
  | .deferred dt => pure (.deferred (dt + 1))

/-- The backtracking loop (`monotone.rs:130-133`). -/
def backLoop (up : Bool) : Nat → Mono I C → Mono.Bodt → WildM E (Mono I C × Mono.Bodt)
  | 0, _, _ => stop .timeout
  | fuel + 1, M, b => do
    let go ← canTriangulate up M
    if go then do
      let M ← skippedPop up M
      cloned up M.skippedPeek
      let b ← addTriangle up b
      backLoop up fuel M b
    else pure (M, b)

/-- The advancing loop (`monotone.rs:136-141`). -/
def advLoop (up : Bool) : Nat → Mono I C → Mono.Bodt → WildM E (Mono I C × Mono.Bodt)
  | 0, _, _ => stop .timeout
  | fuel + 1, M, b => do
    let go ← canTriangulate up M
    if go then do
      let M ← skippedPop up M
      cloned up M.pendingPeek
      let b ← addTriangle up b
      let M ← lift M.transferPending
      advLoop up fuel M b
    else pure (M, b)

/-- `Monotone::deferred_index` (`monotone.rs:219-226`). -/
def deferredIndex (up : Bool) (M : Mono I C) (isBacktracking : Bool) (i : Nat) : WildM E Unit := do
  let _ ← lift (M.deferredIndex isBacktracking i)
  call up Unit

/-- The deferred calls of `extend_fan` (`monotone.rs:153-157`). -/
def extendDeferred (up : Bool) (M : Mono I C) (isBacktracking : Bool) (i : Nat) : Nat → WildM E Unit
  | 0 => pure ()
  | n + 1 => do
    deferredIndex up M isBacktracking i
    extendFan up
    extendDeferred up M isBacktracking (i + 1) n

/-- Emission of a deferred fan of `dt` triangles (`monotone.rs:145-158`). -/
def emitDeferred (up : Bool) (M : Mono I C) (isBacktracking : Bool) (dt : Nat) : WildM E Unit := do
  let _ ← lift (Mono.deferredBase M isBacktracking)
  let _ ← call up Unit
  deferredIndex up M isBacktracking 0
  newFan up
  extendDeferred up M isBacktracking 1 (dt - 1)

/-- The start of a fan (`monotone.rs:113-120`). -/
def startFan (up : Bool) (w : Winding) (isLeftChain isBacktracking : Bool) : WildM E Mono.Bodt :=
  if (isBacktracking ^^ isLeftChain) ^^ (w == .clockwise) then do
    newFan up
    pure Mono.Bodt.builder
  else pure (Mono.Bodt.deferred 1)

/-- The further triangles of a fan (`monotone.rs:124-142`). -/
def growFan (up : Bool) (isBacktracking : Bool) (M : Mono I C) (bodt : Mono.Bodt) :
    WildM E (Mono I C × Mono.Bodt) :=
  if isBacktracking then do
    let M ← skippedPop up M
    cloned up M.skippedPeek
    let bodt ← addTriangle up bodt
    backLoop up (M.arr.length + 1) M bodt
  else do
    let M ← lift M.transferPending
    advLoop up (M.arr.length + 1) M bodt

/-- Deferred fans are emitted at the end (`monotone.rs:145-158`). -/
def finishFan (up : Bool) (isBacktracking : Bool) (M : Mono I C) : Mono.Bodt → WildM E Unit
  | .builder => pure ()
  | .deferred dt => emitDeferred up M isBacktracking dt

/-- One fan: the body of `if self.can_triangulate()` (`monotone.rs:104-158`). -/
def fanStep (up : Bool) (w : Winding) (M : Mono I C) : WildM E (Mono I C) := do
  let M ← skippedPop up M
  cloned up M.skippedPeek
  cloned up M.pendingPeek
  let isBacktracking ← canTriangulate up M
  let bodt ← startFan up w M.isLeftChain isBacktracking
  let (M, bodt) ← growFan up isBacktracking M bodt
  finishFan up isBacktracking M bodt
  pure M

/-- `if self.can_triangulate() { .. }` (`monotone.rs:103-159`). -/
def maybeFan (up : Bool) (w : Winding) (M : Mono I C) : WildM E (Mono I C) := do
  let b ← canTriangulate up M
  if b then fanStep up w M else pure M

/-- `Monotone::build_fans` (`monotone.rs:87-176`). -/
def buildFans (up : Bool) (w : Winding) : Nat → Mono I C → WildM E Unit
  | 0, _ => stop .timeout
  | fuel + 1, M => do
    let r ← lift M.remaining
    if 3 ≤ r then do
      let M ← maybeFan up w M
      let M ← lift M.advancePosition
      buildFans up w fuel M
    else if r = 2 then pure ()
    else stop (.err (.remaining r))

/-- `monotone.build()` and `build_fans` (`trapezoidation.rs:762-769`, `792-799`). -/
def finishMonotone (up : Bool) (w : Winding) (fuel : Nat) (b : MonoB I C) : WildM E Unit := do
  let M ← build up b
  match M with
  | some M => buildFans up w fuel M
  | none => pure ()

/-- `monotone.add_vertex` on every current monotone (`trapezoidation.rs:717-719`). -/
def addToAll (up : Bool) (ms : Ot (MonoB I C)) (c : Coords C) : WildM E (Ot (MonoB I C)) :=
  match ms with
  | .one a => do
    let a ← addVertex up a c
    pure (.one a)
  | .two a b => do
    let a ← addVertex up a c
    let b ← addVertex up b c
    pure (.two a b)

/-- `MonotoneBuilder::new(n.vertex(), c)` and `add_vertex(n_down.vertex(), n_down.coords())`
(`trapezoidation.rs:774-778`, `839-841`); `c` comes from `get_vertex` or was stored. -/
def newMonotone (up : Bool) (c : Coords C) (nDown : Nexus I C) : WildM E (MonoB I C) := do
  let vi ← call up I
  addVertex up ⟨(vi, c), [], false, false⟩ nDown.c

/-- "If that was the only monotone, we need to start a new one" (`trapezoidation.rs:772-779`). -/
def restartMonotone (up : Bool) (st : St I C) (niUp : Nat) (nDown : Nexus I C) :
    Option (Ot (MonoB I C)) → WildM E (Option (Ot (MonoB I C)))
  | some ms => pure (some ms)
  | none => do
    let _ ← lift (getP st.ns niUp)
    let c ← call up (Coords C)
    let b ← newMonotone up c nDown
    pure (some (.one b))

/-- The first half of the loop body of `triangulate_inner` (`trapezoidation.rs:715-781`). -/
def advanceMonotones (up : Bool) (w : Winding) (fuel : Nat) (st : St I C) (t : Trapezoid) (niDown : Nat)
    (nDown : Nexus I C) (ms : Ot (MonoB I C)) : WildM E (Option (Ot (MonoB I C))) := do
  let ms ← addToAll up ms nDown.c
  let sLeft ← lift (okInner t.left >>= getP st.ss)
  let sRight ← lift (okInner t.right >>= getP st.ss)
  let niUp ← lift (okInner t.up)
  match splitCompleted ms niDown niUp sLeft sRight with
  | (none, ms) => pure ms
  | (some done, ms) => do
    finishMonotone up w fuel done
    restartMonotone up st niUp nDown ms

/-- What happens to the current monotones at a `V` nexus (`trapezoidation.rs:785-809`). -/
def joinV (up : Bool) (w : Winding) (fuel : Nat) (x : TI I C) (upleft upcenter upright : Nat) : WildM E (TI I C) :=
  match x.monotones with
  | none => pure x
  | some ms =>
    if x.ti = upleft then do
      let mo ← lift ms.okOne
      pure { x with monotones := none, monotoneStack := mo :: x.monotoneStack }
    else if x.ti = upcenter then do
      ms.toList.forM (finishMonotone up w fuel)
      pure { x with monotones := none }
    else if x.ti = upright then
      match x.monotoneStack with
      | [] => stop (.err .emptyBranchStack)
      | l :: rest => do
        let r ← lift ms.okOne
        pure { x with monotones := some (.two l r), monotoneStack := rest }
    else stop (.err .invalidTrapezoidation)

/-- The `V` case (`trapezoidation.rs:784-820`). -/
def descendV (up : Bool) (w : Winding) (fuel : Nat) (x : TI I C) (upleft upcenter upright down : Nat) :
    WildM E (TI I C) := do
  let x ← joinV up w fuel x upleft upcenter upright
  lift (leaveV x upright down)

/-- The `I` case (`trapezoidation.rs:821-830`). -/
def descendI (x : TI I C) (upleft upright downleft downright : Nat) : WildM E (TI I C) :=
  if x.ti = upleft then pure { x with ti := downleft }
  else if x.ti = upright then pure { x with ti := downright }
  else stop (.err .invalidI)

/-- The choice of the two monotones at an `A` nexus inside the polygon (`trapezoidation.rs:833-853`). -/
def splitMonotones (up : Bool) (st : St I C) (t : Trapezoid) (nDown : Nexus I C) (ms : Ot (MonoB I C)) :
    WildM E (MonoB I C × MonoB I C) :=
  match ms with
  | .two a b => pure (a, b)
  | .one mo => do
    let niUp ← lift (okInner t.up)
    let n ← lift (getP st.ns niUp)
    let new ← newMonotone up n.c nDown
    let sl ← lift (okInner t.left >>= getP st.ss)
    if niUp = sl.niMax then pure (new, mo)
    else do
      let sr ← lift (okInner t.right >>= getP st.ss)
      if niUp = sr.niMax then pure (mo, new) else stop (.err .expectedOnTop)

/-- The `A` case (`trapezoidation.rs:831-866`). -/
def descendA (up : Bool) (st : St I C) (t : Trapezoid) (nDown : Nexus I C) (x : TI I C)
    (downleft downcenter downright : Nat) : WildM E (TI I C) :=
  match x.monotones with
  | some ms => do
    let (l, r) ← splitMonotones up st t nDown ms
    pure { x with
      ti := downleft
      monotones := some (.one l)
      branchStack := (downcenter, none) :: (downright, some (.one r)) :: x.branchStack }
  | none => do
    let vi ← call up I
    pure { x with
      ti := downleft
      monotones := none
      branchStack := (downcenter, some (.one ⟨(vi, nDown.c), [], false, false⟩)) ::
        (downright, none) :: x.branchStack }

/-- `if let Some(monotones_some) = monotones.take() { .. }` (`trapezoidation.rs:715-781`). -/
def updateMonotones (up : Bool) (w : Winding) (fuel : Nat) (st : St I C) (x : TI I C) (t : Trapezoid) (niDown : Nat)
    (nDown : Nexus I C) : WildM E (TI I C) :=
  match x.monotones with
  | none => pure x
  | some ms => do
    let ms ← advanceMonotones up w fuel st t niDown nDown ms
    pure { x with monotones := ms }

/-- `ti = match n_down.final_type()? { .. }` (`trapezoidation.rs:783-867`). -/
def descend (up : Bool) (w : Winding) (fuel : Nat) (st : St I C) (x : TI I C) (t : Trapezoid)
    (nDown : Nexus I C) : FinalType → WildM E (TI I C)
  | .V upleft upcenter upright down => descendV up w fuel x upleft upcenter upright down
  | .I upleft upright downleft downright => descendI x upleft upright downleft downright
  | .A _ downleft downcenter downright => descendA up st t nDown x downleft downcenter downright

/-- One iteration of the loop of `triangulate_inner` (`trapezoidation.rs:712-867`). -/
def triStep (up : Bool) (w : Winding) (fuel : Nat) (st : St I C) (x : TI I C) (t : Trapezoid) (niDown : Nat) :
    WildM E (TI I C) := do
  let nDown ← lift (getP st.ns niDown)
  let x ← updateMonotones up w fuel st x t niDown nDown
  let ft ← lift nDown.finalType
  descend up w fuel st x t nDown ft

/-- The loop of `triangulate_inner` and the final checks (`trapezoidation.rs:711-878`). -/
def triLoop (up : Bool) (w : Winding) (fuel : Nat) (st : St I C) : Nat → TI I C → WildM E Unit
  | 0, _ => stop .timeout
  | k + 1, x => do
    let t ← lift (getP st.ts x.ti)
    match t.down with
    | some niDown => do
      let x ← triStep up w fuel st x t niDown
      triLoop up w fuel st k x
    | none =>
      if x.monotoneStack ≠ [] then stop (.err .mismatchedMonotone)
      else if x.branchStack ≠ [] then stop (.err .mismatchedBranch)
      else if x.monotones.isSome then stop (.err .partialMonotones)
      else pure ()

/-- `Trapezoidation::triangulate_inner` (`trapezoidation.rs:683-879`). -/
def triangulateInner (up : Bool) (w : Winding) (fuel : Nat) (st : St I C) : WildM E Unit := do
  let ti ← lift (topTrapezoid st.qs fuel 0)
  triLoop up w fuel st fuel ⟨ti, none, [], []⟩

end WildM

/-- `Trapezoidation::triangulate` (`trapezoidation.rs:884-889`). -/
def Wild.stTriangulate (up : Bool) (w : Winding) (fuel : Nat) (st : St I C) (r : Res (TriErr E) O) : Prop :=
  ∃ x : Phase × Res (TriErr E) Unit, WildM.triangulateInner up w fuel st .uninit x ∧ x.1.complete up x.2 r

/-- `PolygonList::triangulate` (`inputs/polygon_list.rs:177-179`) for a format with the winding `w`; `es` is what the
index iterator happens to yield. -/
def Wild.triangulate (C : Type) (up : Bool) (cfg : Cfg) (w : Winding) (fuel : Nat) (es : List (Option (Elem I)))
    (r : Res (TriErr E) O) : Prop :=
  ∃ t : Res TrapErr (St I C), Wild.trapezoidize up cfg fuel es t ∧
    match Res.mapErr TriErr.trapezoidation t with
    | .ok st => Wild.stTriangulate up w fuel st r
    | .error e => r = .error e

end Tri
