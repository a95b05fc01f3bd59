import Verif.Model.Words
import Verif.Model.Triangulate

/-!
# The triangulation step on a machine with words of a fixed length

The functions of `Model/Monotone.lean` and `Model/Triangulate.lean` that compute with `usize` or make a vector longer, once more, as `Model/Words.lean` does it
for the trapezoidation.  The others are shared.  The fan format is arbitrary; it may have limits of its own.
-/

namespace Tri

open Machine

variable {I V C : Type}

/-- `MonotoneBuilder::add_vertex` (`monotone.rs:23-32`). -/
def MonoB.addVertexW [Scalar C] (mc : Machine) (b : MonoB I C) (vi : I) (c : Coords C) : Res IErr (MonoB I C) := do
  let _ ← push mc.chain (b.first :: b.rest) (vi, c)
  .ok (b.addVertex vi c)

namespace Mono

/-- `Monotone::skipped_peek` (`monotone.rs:179-181`). -/
def skippedPeekW (mc : Machine) (debug : Bool) (M : Mono I C) : Res IErr (I × Coords C) := do
  getP M.arr (← mc.sub debug M.skippedTop 1)

/-- `Monotone::skipped_peek2` (`monotone.rs:184-186`). -/
def skippedPeek2W (mc : Machine) (debug : Bool) (M : Mono I C) : Res IErr ((I × Coords C) × (I × Coords C)) := do
  let a ← getP M.arr (← mc.sub debug M.skippedTop 2)
  let b ← getP M.arr (← mc.sub debug M.skippedTop 1)
  .ok (a, b)

/-- `Monotone::skipped_pop` (`monotone.rs:189-192`). -/
def skippedPopW (mc : Machine) (debug : Bool) (M : Mono I C) : Res IErr ((I × Coords C) × Mono I C) := do
  let top ← mc.sub debug M.skippedTop 1
  let a ← getP M.arr top
  .ok (a, { M with skippedTop := top })

/-- `Monotone::remaining_vertices` (`monotone.rs:199-201`). -/
def remainingW (mc : Machine) (debug : Bool) (M : Mono I C) : Res IErr Nat := do
  let d ← mc.sub debug M.arr.length M.pendingTop
  mc.add debug d M.skippedTop

/-- `Monotone::transfer_pending` (`monotone.rs:203-209`). -/
def transferPendingW (mc : Machine) (debug : Bool) (M : Mono I C) : Res IErr (Mono I C) := do
  let arr ← swapIfNe M.arr M.skippedTop M.pendingTop
  let s ← mc.add debug M.skippedTop 1
  let p ← mc.add debug M.pendingTop 1
  .ok { M with arr := arr, skippedTop := s, pendingTop := p }

/-- The array position in `Monotone::deferred_index` (`monotone.rs:220-224`). -/
def deferredPosW (mc : Machine) (debug : Bool) (M : Mono I C) (isBacktracking : Bool) (i : Nat) : Res IErr Nat :=
  if isBacktracking then mc.add debug M.skippedTop i
  else do
    let a ← mc.sub debug M.pendingTop 1
    mc.sub debug a i

/-- `Monotone::deferred_index` (`monotone.rs:219-226`). -/
def deferredIndexW (mc : Machine) (debug : Bool) (M : Mono I C) (isBacktracking : Bool) (i : Nat) : Res IErr I := do
  let index ← deferredPosW mc debug M isBacktracking i
  let e ← getP M.arr index
  .ok e.1

/-- `Monotone::can_triangulate` (`monotone.rs:228-235`). -/
def canTriangulateW [Scalar C] (mc : Machine) (debug : Bool) (M : Mono I C) : Res IErr Bool :=
  if 2 ≤ M.skippedTop ∧ M.hasPending = true then do
    let cMin ← M.pendingPeek
    let (cMax, c) ← M.skippedPeek2W mc debug
    .ok (M.isLeftChain == isLeftOfLine cMin.2 cMax.2 c.2)
  else .ok false

variable {m : Type → Type} [FanM I m]

/-- `BuilderOrDeferredTris::add_triangle` (`monotone.rs:93-99`). -/
def Bodt.addTriangleW (mc : Machine) (debug : Bool) (b : Bodt) (vi : I) : m Bodt :=
  match b with
  | .builder => do
    FanM.extendFan vi
    pure .builder
  | .deferred dt => do
    let dt ← FanM.lift (mc.add debug dt 1)
    pure (.deferred dt)

variable [Scalar C]

/-- The backtracking loop (`monotone.rs:130-133`). -/
def backLoopW (mc : Machine) (debug : Bool) : Nat → Mono I C → Bodt → m (Mono I C × Bodt)
  | 0, _, _ => FanM.stop .timeout
  | fuel + 1, M, b => do
    let go ← FanM.lift (M.canTriangulateW mc debug)
    if go then do
      let (_, M) ← FanM.lift (M.skippedPopW mc debug)
      let v ← FanM.lift (M.skippedPeekW mc debug)
      let b ← b.addTriangleW mc debug v.1
      backLoopW mc debug fuel M b
    else pure (M, b)

/-- The advancing loop (`monotone.rs:136-141`). -/
def advLoopW (mc : Machine) (debug : Bool) : Nat → Mono I C → Bodt → m (Mono I C × Bodt)
  | 0, _, _ => FanM.stop .timeout
  | fuel + 1, M, b => do
    let go ← FanM.lift (M.canTriangulateW mc debug)
    if go then do
      let (_, M) ← FanM.lift (M.skippedPopW mc debug)
      let v ← FanM.lift M.pendingPeek
      let b ← b.addTriangleW mc debug v.1
      let M ← FanM.lift (M.transferPendingW mc debug)
      advLoopW mc debug fuel M b
    else pure (M, b)

/-- `for i in 1..dt { .. }` (`monotone.rs:153-157`). -/
def extendDeferredW (mc : Machine) (debug : Bool) (M : Mono I C) (isBacktracking : Bool) (i : Nat) : Nat → m Unit
  | 0 => pure ()
  | n + 1 => do
    let v ← FanM.lift (M.deferredIndexW mc debug isBacktracking i)
    FanM.extendFan v
    extendDeferredW mc debug M isBacktracking (i + 1) n

/-- The root and the first outer vertex of a deferred fan (`monotone.rs:146-151`). -/
def deferredBaseW (mc : Machine) (debug : Bool) (M : Mono I C) (isBacktracking : Bool) : Res IErr (I × I) :=
  if isBacktracking then do
    let v0 ← M.pendingPeek
    let v1 ← M.skippedPeekW mc debug
    .ok (v0.1, v1.1)
  else do
    let (v0, v1) ← M.skippedPeek2W mc debug
    .ok (v0.1, v1.1)

/-- Emission of a deferred fan of `dt` triangles (`monotone.rs:145-158`). -/
def emitDeferredW (mc : Machine) (debug : Bool) (M : Mono I C) (isBacktracking : Bool) (dt : Nat) : m Unit := do
  let (v0, v1) ← FanM.lift (deferredBaseW mc debug M isBacktracking)
  let v2 ← FanM.lift (M.deferredIndexW mc debug isBacktracking 0)
  FanM.newFan v0 v1 v2
  extendDeferredW mc debug M isBacktracking 1 (dt - 1)

/-- The further triangles of a fan (`monotone.rs:124-142`). -/
def growFanW (mc : Machine) (debug : Bool) (isBacktracking : Bool) (M : Mono I C) (bodt : Bodt) : m (Mono I C × Bodt) :=
  if isBacktracking then do
    let (_, M) ← FanM.lift (M.skippedPopW mc debug)
    let v ← FanM.lift (M.skippedPeekW mc debug)
    let bodt ← bodt.addTriangleW mc debug v.1
    backLoopW mc debug (M.arr.length + 1) M bodt
  else do
    let M ← FanM.lift (M.transferPendingW mc debug)
    advLoopW mc debug (M.arr.length + 1) M bodt

/-- Deferred fans are emitted at the end (`monotone.rs:145-158`). -/
def finishFanW (mc : Machine) (debug : Bool) (isBacktracking : Bool) (M : Mono I C) : Bodt → m Unit
  | .builder => pure ()
  | .deferred dt => emitDeferredW mc debug M isBacktracking dt

/-- One fan: the body of `if self.can_triangulate()` (`monotone.rs:104-158`). -/
def fanStepW (mc : Machine) (debug : Bool) (w : Winding) (M : Mono I C) : m (Mono I C) := do
  let (v1, M) ← FanM.lift (M.skippedPopW mc debug)
  let v0 ← FanM.lift (M.skippedPeekW mc debug)
  let v2 ← FanM.lift M.pendingPeek
  let isBacktracking ← FanM.lift (M.canTriangulateW mc debug)
  let bodt ← startFan w M.isLeftChain isBacktracking v0.1 v1.1 v2.1
  let (M, bodt) ← growFanW mc debug isBacktracking M bodt
  finishFanW mc debug isBacktracking M bodt
  pure M

/-- `if self.can_triangulate() { .. }` (`monotone.rs:103-159`). -/
def maybeFanW (mc : Machine) (debug : Bool) (w : Winding) (M : Mono I C) : m (Mono I C) := do
  let b ← FanM.lift (M.canTriangulateW mc debug)
  if b then fanStepW mc debug w M else pure M

/-- `if self.has_pending() { self.transfer_pending() } else { self.reset_position() }` (`monotone.rs:161-167`). -/
def advancePositionW (mc : Machine) (debug : Bool) (M : Mono I C) : Res IErr (Mono I C) :=
  if M.hasPending then M.transferPendingW mc debug else .ok M.resetPosition

/-- `Monotone::build_fans` (`monotone.rs:87-176`). -/
def buildFansW (mc : Machine) (debug : Bool) (w : Winding) : Nat → Mono I C → m Unit
  | 0, _ => FanM.stop .timeout
  | fuel + 1, M => do
    let r ← FanM.lift (M.remainingW mc debug)
    if 3 ≤ r then do
      let M ← maybeFanW mc debug w M
      let M ← FanM.lift (M.advancePositionW mc debug)
      buildFansW mc debug w fuel M
    else if r = 2 then pure ()
    else FanM.stop (.err (.remaining r))

end Mono

section
variable {m : Type → Type} [FanM I m] [Scalar C]

/-- `match monotone.build() { .. }` (`trapezoidation.rs:762-769`, `792-799`). -/
def finishMonotoneW (mc : Machine) (debug : Bool) (w : Winding) (fuel : Nat) (b : MonoB I C) : m Unit := do
  let M ← FanM.lift b.build
  match M with
  | some M => M.buildFansW mc debug w fuel
  | none => pure ()

/-- `monotone.add_vertex` on every current monotone (`trapezoidation.rs:717-719`). -/
def addToAllW (mc : Machine) (ms : Ot (MonoB I C)) (vi : I) (c : Coords C) : Res IErr (Ot (MonoB I C)) :=
  match ms with
  | .one a => do
    let a ← a.addVertexW mc vi c
    .ok (.one a)
  | .two a b => do
    let a ← a.addVertexW mc vi c
    let b ← b.addVertexW mc vi c
    .ok (.two a b)

/-- "If that was the only monotone, we need to start a new one" (`trapezoidation.rs:772-779`). -/
def restartMonotoneW (mc : Machine) (p : PolyList I V) (xy : V → Coords C) (st : St I C) (niUp : Nat)
    (nDown : Nexus I C) : Option (Ot (MonoB I C)) → Res IErr (Option (Ot (MonoB I C)))
  | some ms => .ok (some ms)
  | none => do
    let nUp ← getP st.ns niUp
    let c ← p.coords xy nUp.vi
    let a ← (MonoB.new nUp.vi c).addVertexW mc nDown.vi nDown.c
    .ok (some (.one a))

/-- The first half of the loop body of `triangulate_inner` (`trapezoidation.rs:715-781`). -/
def advanceMonotonesW (mc : Machine) (debug : Bool) (w : Winding) (fuel : Nat) (p : PolyList I V) (xy : V → Coords C) (st : St I C)
    (t : Trapezoid) (niDown : Nat) (nDown : Nexus I C) (ms : Ot (MonoB I C)) :
    m (Option (Ot (MonoB I C))) := do
  let ms ← FanM.lift (addToAllW mc ms nDown.vi nDown.c)
  let sLeft ← FanM.lift (okInner t.left >>= getP st.ss)
  let sRight ← FanM.lift (okInner t.right >>= getP st.ss)
  let niUp ← FanM.lift (okInner t.up)
  match splitCompleted ms niDown niUp sLeft sRight with
  | (none, ms) => pure ms
  | (some done, ms) => do
    finishMonotoneW mc debug w fuel done
    FanM.lift (restartMonotoneW mc p xy st niUp nDown ms)

/-- `Vec::push` on a stack, whose top comes first in the model. -/
def pushTop {α : Type} (room : Nat) (xs : List α) (x : α) : Res IErr (List α) := do
  let _ ← push room xs x
  .ok (x :: xs)

/-- What happens to the current monotones at a `V` nexus (`trapezoidation.rs:785-809`). -/
def joinVW (mc : Machine) (debug : Bool) (w : Winding) (fuel : Nat) (x : TI I C) (upleft upcenter upright : Nat) : m (TI I C) :=
  match x.monotones with
  | none => pure x
  | some ms =>
    if x.ti = upleft then do
      let mo ← FanM.lift ms.okOne
      let stack ← FanM.lift (pushTop mc.chains x.monotoneStack mo)
      pure { x with monotones := none, monotoneStack := stack }
    else if x.ti = upcenter then do
      ms.toList.forM (finishMonotoneW mc debug w fuel)
      pure { x with monotones := none }
    else if x.ti = upright then
      match x.monotoneStack with
      | [] => FanM.stop (.err .emptyBranchStack)
      | l :: rest => do
        let r ← FanM.lift ms.okOne
        pure { x with monotones := some (.two l r), monotoneStack := rest }
    else FanM.stop (.err .invalidTrapezoidation)

/-- The `V` case (`trapezoidation.rs:784-820`). -/
def descendVW (mc : Machine) (debug : Bool) (w : Winding) (fuel : Nat) (x : TI I C) (upleft upcenter upright down : Nat) :
    m (TI I C) := do
  let x ← joinVW mc debug w fuel x upleft upcenter upright
  FanM.lift (leaveV x upright down)

/-- The choice of the two monotones at an `A` nexus inside the polygon (`trapezoidation.rs:833-853`). -/
def splitMonotonesW (mc : Machine) (st : St I C) (t : Trapezoid) (nDown : Nexus I C) (ms : Ot (MonoB I C)) :
    Res IErr (MonoB I C × MonoB I C) :=
  match ms with
  | .two a b => .ok (a, b)
  | .one mo => do
    let niUp ← okInner t.up
    let n ← getP st.ns niUp
    let new ← (MonoB.new n.vi n.c).addVertexW mc nDown.vi nDown.c
    let sl ← okInner t.left >>= getP st.ss
    if niUp = sl.niMax then .ok (new, mo)
    else do
      let sr ← okInner t.right >>= getP st.ss
      if niUp = sr.niMax then .ok (mo, new) else .error (.err .expectedOnTop)

/-- The `A` case (`trapezoidation.rs:831-866`). -/
def descendAW (mc : Machine) (st : St I C) (t : Trapezoid) (nDown : Nexus I C) (x : TI I C)
    (downleft downcenter downright : Nat) : m (TI I C) :=
  match x.monotones with
  | some ms => do
    let (l, r) ← FanM.lift (splitMonotonesW mc st t nDown ms)
    let stack ← FanM.lift (pushTop mc.branches x.branchStack (downright, some (.one r)))
    let stack ← FanM.lift (pushTop mc.branches stack (downcenter, none))
    pure { x with ti := downleft, monotones := some (.one l), branchStack := stack }
  | none => do
    let stack ← FanM.lift (pushTop mc.branches x.branchStack (downright, none))
    let stack ← FanM.lift (pushTop mc.branches stack (downcenter, some (.one (MonoB.new nDown.vi nDown.c))))
    pure { x with ti := downleft, monotones := none, branchStack := stack }

/-- `if let Some(monotones_some) = monotones.take() { .. }` (`trapezoidation.rs:715-781`). -/
def updateMonotonesW (mc : Machine) (debug : Bool) (w : Winding) (fuel : Nat) (p : PolyList I V) (xy : V → Coords C) (st : St I C)
    (x : TI I C) (t : Trapezoid) (niDown : Nat) (nDown : Nexus I C) : m (TI I C) :=
  match x.monotones with
  | none => pure x
  | some ms => do
    let ms ← advanceMonotonesW mc debug w fuel p xy st t niDown nDown ms
    pure { x with monotones := ms }

/-- `ti = match n_down.final_type()? { .. }` (`trapezoidation.rs:783-867`). -/
def descendW (mc : Machine) (debug : Bool) (w : Winding) (fuel : Nat) (st : St I C) (x : TI I C) (t : Trapezoid)
    (nDown : Nexus I C) : FinalType → m (TI I C)
  | .V upleft upcenter upright down => descendVW mc debug w fuel x upleft upcenter upright down
  | .I upleft upright downleft downright => descendI x upleft upright downleft downright
  | .A _ downleft downcenter downright => descendAW mc st t nDown x downleft downcenter downright

/-- One iteration of the loop of `triangulate_inner` (`trapezoidation.rs:712-867`). -/
def triStepW (mc : Machine) (debug : Bool) (w : Winding) (fuel : Nat) (p : PolyList I V) (xy : V → Coords C) (st : St I C)
    (x : TI I C) (t : Trapezoid) (niDown : Nat) : m (TI I C) := do
  let nDown ← FanM.lift (getP st.ns niDown)
  let x ← updateMonotonesW mc debug w fuel p xy st x t niDown nDown
  let ft ← FanM.lift nDown.finalType
  descendW mc debug w fuel st x t nDown ft

/-- The loop of `triangulate_inner` and the final checks (`trapezoidation.rs:711-878`). -/
def triLoopW (mc : Machine) (debug : Bool) (w : Winding) (fuel : Nat) (p : PolyList I V) (xy : V → Coords C) (st : St I C) :
    Nat → TI I C → m Unit
  | 0, _ => FanM.stop .timeout
  | k + 1, x => do
    let t ← FanM.lift (getP st.ts x.ti)
    match t.down with
    | some niDown => do
      let x ← triStepW mc debug w fuel p xy st x t niDown
      triLoopW mc debug w fuel p xy st k x
    | none =>
      if x.monotoneStack ≠ [] then FanM.stop (.err .mismatchedMonotone)
      else if x.branchStack ≠ [] then FanM.stop (.err .mismatchedBranch)
      else if x.monotones.isSome then FanM.stop (.err .partialMonotones)
      else pure ()

/-- `Trapezoidation::triangulate_inner` (`trapezoidation.rs:683-879`). -/
def triangulateInnerW (mc : Machine) (debug : Bool) (w : Winding) (fuel : Nat) (p : PolyList I V) (xy : V → Coords C)
    (st : St I C) : m Unit := do
  let ti ← FanM.lift (topTrapezoid st.qs fuel 0)
  triLoopW mc debug w fuel p xy st fuel ⟨ti, none, [], []⟩

end

/-- `Trapezoidation::triangulate` (`trapezoidation.rs:884-889`). -/
def St.triangulateW [Scalar C] (mc : Machine) (debug : Bool) (fuel : Nat) (p : PolyList I V) (xy : V → Coords C) (st : St I C)
    (F : FanFormat I) : F.W × Res (TriErr F.E) F.O :=
  let r := triangulateInnerW (m := FBM F) mc debug F.winding fuel p xy st .uninit
  r.1.complete r.2

/-- `PolygonList::triangulate` (`inputs/polygon_list.rs:177-179`) and `Polygon::triangulate` (`121-123`). -/
def triangulateW [Scalar C] [DecidableEq I] (mc : Machine) (cfg : Cfg) (fuel : Nat) (p : PolyList I V)
    (xy : V → Coords C) (F : FanFormat I) : F.W × Res (TriErr F.E) F.O :=
  match Res.mapErr TriErr.trapezoidation (trapezoidizeW mc cfg fuel p xy) with
  | .ok st => st.triangulateW mc cfg.debug fuel p xy F
  | .error e => (F.unused, .error e)

end Tri
