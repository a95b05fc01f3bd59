import Verif.Model.Triangulate

/-!
# Counting the steps of the triangulation step

The functions of `Model/Monotone.lean` and `Model/Triangulate.lean` that contain or call a loop, written out once more with a
computation `tick` made whenever the condition of a loop is evaluated.  `CtM F` is the monad over a format's state in which
`tick` and every call on the format add one to a counter.  Work between two ticks is bounded: it is a fixed number of
comparisons, reads and writes, apart from what the format does in a call.  With `tick = pure ()` the functions are those of
`Model/Triangulate.lean` (`Proof/CostTri.lean`), so the counter changes nothing else.
-/

namespace Tri

variable {I V C : Type}

/-- Computations over a `&mut FanBuilderState` with a counter; both are kept when the computation stops early. -/
def CtM (F : FanFormat I) (α : Type) : Type := FBS F × Nat → (FBS F × Nat) × Res (TriErr F.E) α

/-- A call on the format's state that is counted. -/
def CtM.call {F : FanFormat I} {α : Type} (x : FBM F α) : CtM F α := fun s =>
  let r := x s.1
  ((r.1, s.2 + 1), r.2)

/-- As the instance for `FBM` (`fan_builder_state.rs:13-39`, `monotone.rs:95`, `154`), with one counted for each call. -/
instance (F : FanFormat I) : FanM I (CtM F) where
  pure a := fun s => (s, .ok a)
  bind x f := fun s =>
    match x s with
    | (s, .ok a) => f a s
    | (s, .error e) => (s, .error e)
  newFan a b c := CtM.call (FBS.newFan F a b c)
  extendFan v := CtM.call (FBS.extendFan F v)
  stop e := fun s => (s, .error (liftInternal e))

/-- One step is counted. -/
def CtM.tick {F : FanFormat I} : CtM F Unit := fun s => ((s.1, s.2 + 1), .ok ())

namespace Mono

variable {m : Type → Type} [FanM I m] [Scalar C] (tick : m Unit)

/-- The backtracking loop (`monotone.rs:130-133`), counting. -/
def backLoopC : Nat → Mono I C → Bodt → m (Mono I C × Bodt)
  | 0, _, _ => FanM.stop .timeout
  | fuel + 1, M, b => do
    tick
    let go ← FanM.lift M.canTriangulate
    if go then do
      let (_, M) ← FanM.lift M.skippedPop
      let v ← FanM.lift M.skippedPeek
      let b ← b.addTriangle v.1
      backLoopC fuel M b
    else pure (M, b)

/-- The advancing loop (`monotone.rs:136-141`), counting. -/
def advLoopC : Nat → Mono I C → Bodt → m (Mono I C × Bodt)
  | 0, _, _ => FanM.stop .timeout
  | fuel + 1, M, b => do
    tick
    let go ← FanM.lift M.canTriangulate
    if go then do
      let (_, M) ← FanM.lift M.skippedPop
      let v ← FanM.lift M.pendingPeek
      let b ← b.addTriangle v.1
      let M ← FanM.lift M.transferPending
      advLoopC fuel M b
    else pure (M, b)

/-- `for i in 1..dt { .. }` (`monotone.rs:153-157`), counting. -/
def extendDeferredC (M : Mono I C) (isBacktracking : Bool) (i : Nat) : Nat → m Unit
  | 0 => tick
  | n + 1 => do
    tick
    let v ← FanM.lift (M.deferredIndex isBacktracking i)
    FanM.extendFan v
    extendDeferredC M isBacktracking (i + 1) n

/-- Emission of a deferred fan of `dt` triangles (`monotone.rs:145-158`), counting. -/
def emitDeferredC (M : Mono I C) (isBacktracking : Bool) (dt : Nat) : m Unit := do
  let (v0, v1) ← FanM.lift (deferredBase M isBacktracking)
  let v2 ← FanM.lift (M.deferredIndex isBacktracking 0)
  FanM.newFan v0 v1 v2
  extendDeferredC tick M isBacktracking 1 (dt - 1)

/-- The further triangles of a fan (`monotone.rs:124-142`), counting. -/
def growFanC (isBacktracking : Bool) (M : Mono I C) (bodt : Bodt) : m (Mono I C × Bodt) :=
  if isBacktracking then do
    let (_, M) ← FanM.lift M.skippedPop
    let v ← FanM.lift M.skippedPeek
    let bodt ← bodt.addTriangle v.1
    backLoopC tick (M.arr.length + 1) M bodt
  else do
    let M ← FanM.lift M.transferPending
    advLoopC tick (M.arr.length + 1) M bodt

/-- Deferred fans are emitted at the end (`monotone.rs:145-158`), counting. -/
def finishFanC (isBacktracking : Bool) (M : Mono I C) : Bodt → m Unit
  | .builder => pure ()
  | .deferred dt => emitDeferredC tick M isBacktracking dt

/-- One fan (`monotone.rs:104-158`), counting. -/
def fanStepC (w : Winding) (M : Mono I C) : m (Mono I C) := do
  let (v1, M) ← FanM.lift M.skippedPop
  let v0 ← FanM.lift M.skippedPeek
  let v2 ← FanM.lift M.pendingPeek
  let isBacktracking ← FanM.lift M.canTriangulate
  let bodt ← startFan w M.isLeftChain isBacktracking v0.1 v1.1 v2.1
  let (M, bodt) ← growFanC tick isBacktracking M bodt
  finishFanC tick isBacktracking M bodt
  pure M

/-- `if self.can_triangulate() { .. }` (`monotone.rs:103-159`), counting. -/
def maybeFanC (w : Winding) (M : Mono I C) : m (Mono I C) := do
  let b ← FanM.lift M.canTriangulate
  if b then fanStepC tick w M else pure M

/-- `Monotone::build_fans` (`monotone.rs:87-176`), counting. -/
def buildFansC (w : Winding) : Nat → Mono I C → m Unit
  | 0, _ => FanM.stop .timeout
  | fuel + 1, M => do
    tick
    let r ← FanM.lift M.remaining
    if 3 ≤ r then do
      let M ← maybeFanC tick w M
      let M ← FanM.lift M.advancePosition
      buildFansC w fuel M
    else if r = 2 then pure ()
    else FanM.stop (.err (.remaining r))

end Mono

section
variable {m : Type → Type} [FanM I m] (tick : m Unit)

/-- `Trapezoidation::top_trapezoid` (`trapezoidation.rs:670-681`), counting. -/
def topTrapezoidC (qs : List (QueryNode C)) : Nat → Nat → m Nat
  | 0, _ => FanM.stop .timeout
  | fuel + 1, qi => do
    tick
    let q ← FanM.lift (getP qs qi)
    match q with
    | .branch _ r (.Y _) => topTrapezoidC qs fuel r
    | .branch _ _ (.X _ _) => FanM.stop (.err .topReachedX)
    | .sink ti => pure ti

variable [Scalar C]

/-- Completing a monotone (`trapezoidation.rs:762-769`, `792-799`), counting. -/
def finishMonotoneC (w : Winding) (fuel : Nat) (b : MonoB I C) : m Unit := do
  let M ← FanM.lift b.build
  match M with
  | some M => M.buildFansC tick w fuel
  | none => pure ()

/-- The first half of the loop body of `triangulate_inner` (`trapezoidation.rs:715-781`), counting. -/
def advanceMonotonesC (w : Winding) (fuel : Nat) (p : PolyList I V) (xy : V → Coords C) (st : St I C)
    (t : Trapezoid) (niDown : Nat) (nDown : Nexus I C) (ms : Ot (MonoB I C)) :
    m (Option (Ot (MonoB I C))) := do
  let ms := addToAll ms nDown.vi nDown.c
  let sLeft ← FanM.lift (okInner t.left >>= getP st.ss)
  let sRight ← FanM.lift (okInner t.right >>= getP st.ss)
  let niUp ← FanM.lift (okInner t.up)
  match splitCompleted ms niDown niUp sLeft sRight with
  | (none, ms) => pure ms
  | (some done, ms) => do
    finishMonotoneC tick w fuel done
    FanM.lift (restartMonotone p xy st niUp nDown ms)

/-- What happens to the current monotones at a `V` nexus (`trapezoidation.rs:785-809`), counting. -/
def joinVC (w : Winding) (fuel : Nat) (x : TI I C) (upleft upcenter upright : Nat) : m (TI I C) :=
  match x.monotones with
  | none => pure x
  | some ms =>
    if x.ti = upleft then do
      let mo ← FanM.lift ms.okOne
      pure { x with monotones := none, monotoneStack := mo :: x.monotoneStack }
    else if x.ti = upcenter then do
      ms.toList.forM (finishMonotoneC tick w fuel)
      pure { x with monotones := none }
    else if x.ti = upright then
      match x.monotoneStack with
      | [] => FanM.stop (.err .emptyBranchStack)
      | l :: rest => do
        let r ← FanM.lift ms.okOne
        pure { x with monotones := some (.two l r), monotoneStack := rest }
    else FanM.stop (.err .invalidTrapezoidation)

/-- The `V` case (`trapezoidation.rs:784-820`), counting. -/
def descendVC (w : Winding) (fuel : Nat) (x : TI I C) (upleft upcenter upright down : Nat) :
    m (TI I C) := do
  let x ← joinVC tick w fuel x upleft upcenter upright
  FanM.lift (leaveV x upright down)

/-- `if let Some(monotones_some) = monotones.take() { .. }` (`trapezoidation.rs:715-781`), counting. -/
def updateMonotonesC (w : Winding) (fuel : Nat) (p : PolyList I V) (xy : V → Coords C) (st : St I C)
    (x : TI I C) (t : Trapezoid) (niDown : Nat) (nDown : Nexus I C) : m (TI I C) :=
  match x.monotones with
  | none => pure x
  | some ms => do
    let ms ← advanceMonotonesC tick w fuel p xy st t niDown nDown ms
    pure { x with monotones := ms }

/-- `ti = match n_down.final_type()? { .. }` (`trapezoidation.rs:783-867`), counting. -/
def descendC (w : Winding) (fuel : Nat) (st : St I C) (x : TI I C) (t : Trapezoid)
    (nDown : Nexus I C) : FinalType → m (TI I C)
  | .V upleft upcenter upright down => descendVC tick w fuel x upleft upcenter upright down
  | .I upleft upright downleft downright => descendI x upleft upright downleft downright
  | .A _ downleft downcenter downright => descendA st t nDown x downleft downcenter downright

/-- One iteration of the loop of `triangulate_inner` (`trapezoidation.rs:712-867`), counting. -/
def triStepC (w : Winding) (fuel : Nat) (p : PolyList I V) (xy : V → Coords C) (st : St I C)
    (x : TI I C) (t : Trapezoid) (niDown : Nat) : m (TI I C) := do
  let nDown ← FanM.lift (getP st.ns niDown)
  let x ← updateMonotonesC tick w fuel p xy st x t niDown nDown
  let ft ← FanM.lift nDown.finalType
  descendC tick w fuel st x t nDown ft

/-- The loop of `triangulate_inner` and the final checks (`trapezoidation.rs:711-878`), counting. -/
def triLoopC (w : Winding) (fuel : Nat) (p : PolyList I V) (xy : V → Coords C) (st : St I C) :
    Nat → TI I C → m Unit
  | 0, _ => FanM.stop .timeout
  | k + 1, x => do
    tick
    let t ← FanM.lift (getP st.ts x.ti)
    match t.down with
    | some niDown => do
      let x ← triStepC tick w fuel p xy st x t niDown
      triLoopC w fuel p xy st k x
    | none =>
      if x.monotoneStack ≠ [] then FanM.stop (.err .mismatchedMonotone)
      else if x.branchStack ≠ [] then FanM.stop (.err .mismatchedBranch)
      else if x.monotones.isSome then FanM.stop (.err .partialMonotones)
      else pure ()

/-- `Trapezoidation::triangulate_inner` (`trapezoidation.rs:683-879`), counting. -/
def triangulateInnerC (w : Winding) (fuel : Nat) (p : PolyList I V) (xy : V → Coords C)
    (st : St I C) : m Unit := do
  let ti ← topTrapezoidC tick st.qs fuel 0
  triLoopC tick w fuel p xy st fuel ⟨ti, none, [], []⟩

end

/-- `Trapezoidation::triangulate` (`trapezoidation.rs:884-889`): what it returns, and the steps counted.  The final call
`build` or `fail` of the format is not counted. -/
def St.triangulateC [Scalar C] (fuel : Nat) (p : PolyList I V) (xy : V → Coords C) (st : St I C)
    (F : FanFormat I) : (F.W × Res (TriErr F.E) F.O) × Nat :=
  let r := triangulateInnerC (m := CtM F) CtM.tick F.winding fuel p xy st (.uninit, 0)
  (r.1.1.complete r.2, r.1.2)

end Tri
