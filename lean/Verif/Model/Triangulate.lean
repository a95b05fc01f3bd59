import Verif.Model.Monotone

/-!
# Model of `Trapezoidation::triangulate` (`trapezoidation.rs:670-890`)
-/

namespace Tri

variable {I V C : Type}

/-- `Trapezoidation::top_trapezoid` (`trapezoidation.rs:670-681`). -/
def topTrapezoid (qs : List (QueryNode C)) : Nat → Nat → Res IErr Nat
  | 0, _ => .error .timeout
  | fuel + 1, qi => do
    match ← getP qs qi with
    | .branch _ r (.Y _) => topTrapezoid qs fuel r
    | .branch _ _ (.X _ _) => .error (.err .topReachedX)
    | .sink ti => .ok ti

/-- The variables of `triangulate_inner` (`trapezoidation.rs:696-709`); stacks have their top first. -/
structure TI (I C : Type) where
  ti : Nat
  monotones : Option (Ot (MonoB I C))
  branchStack : List (Nat × Option (Ot (MonoB I C)))
  monotoneStack : List (MonoB I C)

/-- `Ot::ok_one_or_else`, as used with "Expected a single monotone" (`trapezoidation.rs:788`,
`804`). -/
def Ot.okOne {α : Type} : Ot α → Res IErr α
  | .one a => .ok a
  | .two _ _ => .error (.err .expectedSingle)

/-- `x.ok_or_else(|| TriangulationError::internal(INNER_POLYGON_ERROR))`
(`trapezoidation.rs:721-733`, `835-845`). -/
def okInner {α : Type} : Option α → Res IErr α
  | some a => .ok a
  | none => .error (.err .innerPolygon)

section
variable {m : Type → Type} [FanM I m] [Scalar C]

/-- `match monotone.build() { Ok(Some(m)) => m.build_fans(..)?, Ok(None) => (), Err(e) => return .. }`
(`trapezoidation.rs:762-769`, `792-799`). -/
def finishMonotone (w : Winding) (fuel : Nat) (b : MonoB I C) : m Unit := do
  let M ← FanM.lift b.build
  match M with
  | some M => M.buildFans w fuel
  | none => pure ()

/-- `monotone.add_vertex` on every current monotone (`trapezoidation.rs:717-719`). -/
def addToAll (ms : Ot (MonoB I C)) (vi : I) (c : Coords C) : Ot (MonoB I C) :=
  match ms with
  | .one a => .one (a.addVertex vi c)
  | .two a b => .two (a.addVertex vi c) (b.addVertex vi c)

/-- Which monotone a diagonal completes, and what stays (`trapezoidation.rs:738-760`). -/
def splitCompleted (ms : Ot (MonoB I C)) (niDown niUp : Nat) (sLeft sRight : Segment C) :
    Option (MonoB I C) × Option (Ot (MonoB I C)) :=
  if niDown = sLeft.niMin ∧ niDown ≠ sRight.niMin ∧ niUp ≠ sLeft.niMax then
    match ms with
    | .one a => (some a, none)
    | .two a b => (some a, some (.one b))
  else if niDown = sRight.niMin ∧ niDown ≠ sLeft.niMin ∧ niUp ≠ sRight.niMax then
    match ms with
    | .one a => (some a, none)
    | .two a b => (some b, some (.one a))
  else (none, some ms)

/-- "If that was the only monotone, we need to start a new one" (`trapezoidation.rs:772-779`). -/
def restartMonotone (p : PolyList I V) (xy : V → Coords C) (st : St I C) (niUp : Nat)
    (nDown : Nexus I C) : Option (Ot (MonoB I C)) → Res IErr (Option (Ot (MonoB I C)))
  | some ms => .ok (some ms)
  | none => do
    let nUp ← getP st.ns niUp
    let c ← p.coords xy nUp.vi
    .ok (some (.one ((MonoB.new nUp.vi c).addVertex nDown.vi nDown.c)))

/-- The first half of the loop body of `triangulate_inner` (`trapezoidation.rs:715-781`): extend and
maybe complete the current monotones. -/
def advanceMonotones (w : Winding) (fuel : Nat) (p : PolyList I V) (xy : V → Coords C) (st : St I C)
    (t : Trapezoid) (niDown : Nat) (nDown : Nexus I C) (ms : Ot (MonoB I C)) :
    m (Option (Ot (MonoB I C))) := do
  let ms := addToAll ms nDown.vi nDown.c
  let sLeft ← FanM.lift (okInner t.left >>= getP st.ss)
  let sRight ← FanM.lift (okInner t.right >>= getP st.ss)
  let niUp ← FanM.lift (okInner t.up)
  match splitCompleted ms niDown niUp sLeft sRight with
  | (none, ms) => pure ms
  | (some done, ms) => do
    finishMonotone w fuel done
    FanM.lift (restartMonotone p xy st niUp nDown ms)

/-- What happens to the current monotones at a `V` nexus (`trapezoidation.rs:785-809`). -/
def joinV (w : Winding) (fuel : Nat) (x : TI I C) (upleft upcenter upright : Nat) : m (TI I C) :=
  match x.monotones with
  | none => pure x
  | some ms =>
    if x.ti = upleft then do
      let mo ← FanM.lift ms.okOne
      pure { x with monotones := none, monotoneStack := mo :: x.monotoneStack }
    else if x.ti = upcenter then do
      ms.toList.forM (finishMonotone w fuel)
      pure { x with monotones := none }
    else if x.ti = upright then
      match x.monotoneStack with
      | [] => FanM.stop (.err .emptyBranchStack)
      | l :: rest => do
        let r ← FanM.lift ms.okOne
        pure { x with monotones := some (.two l r), monotoneStack := rest }
    else FanM.stop (.err .invalidTrapezoidation)

/-- Where to continue after a `V` nexus (`trapezoidation.rs:811-819`). -/
def leaveV (x : TI I C) (upright down : Nat) : Res IErr (TI I C) :=
  if x.ti = upright then .ok { x with ti := down }
  else
    match x.branchStack with
    | [] => .error (.err .emptyBranchStack)
    | (ti, ms) :: rest => .ok { x with ti := ti, monotones := ms, branchStack := rest }

/-- The `V` case (`trapezoidation.rs:784-820`). -/
def descendV (w : Winding) (fuel : Nat) (x : TI I C) (upleft upcenter upright down : Nat) :
    m (TI I C) := do
  let x ← joinV w fuel x upleft upcenter upright
  FanM.lift (leaveV x upright down)

/-- The `I` case (`trapezoidation.rs:821-830`). -/
def descendI (x : TI I C) (upleft upright downleft downright : Nat) : m (TI I C) :=
  if x.ti = upleft then pure { x with ti := downleft }
  else if x.ti = upright then pure { x with ti := downright }
  else FanM.stop (.err .invalidI)

/-- The choice of the two monotones at an `A` nexus inside the polygon
(`trapezoidation.rs:833-853`). -/
def splitMonotones (st : St I C) (t : Trapezoid) (nDown : Nexus I C) (ms : Ot (MonoB I C)) :
    Res IErr (MonoB I C × MonoB I C) :=
  match ms with
  | .two a b => .ok (a, b)
  | .one mo => do
    let niUp ← okInner t.up
    let n ← getP st.ns niUp
    let new := (MonoB.new n.vi n.c).addVertex nDown.vi nDown.c
    let sl ← okInner t.left >>= getP st.ss
    if niUp = sl.niMax then .ok (new, mo)
    else do
      let sr ← okInner t.right >>= getP st.ss
      if niUp = sr.niMax then .ok (mo, new) else .error (.err .expectedOnTop)

/-- The `A` case (`trapezoidation.rs:831-866`). -/
def descendA (st : St I C) (t : Trapezoid) (nDown : Nexus I C) (x : TI I C)
    (downleft downcenter downright : Nat) : m (TI I C) :=
  match x.monotones with
  | some ms => do
    let (l, r) ← FanM.lift (splitMonotones st t nDown ms)
    pure { x with
      ti := downleft
      monotones := some (.one l)
      branchStack := (downcenter, none) :: (downright, some (.one r)) :: x.branchStack }
  | none =>
    pure { x with
      ti := downleft
      monotones := none
      branchStack := (downcenter, some (.one (MonoB.new nDown.vi nDown.c))) ::
        (downright, none) :: x.branchStack }

/-- `if let Some(monotones_some) = monotones.take() { .. }` (`trapezoidation.rs:715-781`). -/
def updateMonotones (w : Winding) (fuel : Nat) (p : PolyList I V) (xy : V → Coords C) (st : St I C)
    (x : TI I C) (t : Trapezoid) (niDown : Nat) (nDown : Nexus I C) : m (TI I C) :=
  match x.monotones with
  | none => pure x
  | some ms => do
    let ms ← advanceMonotones w fuel p xy st t niDown nDown ms
    pure { x with monotones := ms }

/-- `ti = match n_down.final_type()? { .. }` (`trapezoidation.rs:783-867`). -/
def descend (w : Winding) (fuel : Nat) (st : St I C) (x : TI I C) (t : Trapezoid)
    (nDown : Nexus I C) : FinalType → m (TI I C)
  | .V upleft upcenter upright down => descendV w fuel x upleft upcenter upright down
  | .I upleft upright downleft downright => descendI x upleft upright downleft downright
  | .A _ downleft downcenter downright => descendA st t nDown x downleft downcenter downright

/-- One iteration of the loop of `triangulate_inner` (`trapezoidation.rs:712-867`). -/
def triStep (w : Winding) (fuel : Nat) (p : PolyList I V) (xy : V → Coords C) (st : St I C)
    (x : TI I C) (t : Trapezoid) (niDown : Nat) : m (TI I C) := do
  let nDown ← FanM.lift (getP st.ns niDown)
  let x ← updateMonotones w fuel p xy st x t niDown nDown
  let ft ← FanM.lift nDown.finalType
  descend w fuel st x t nDown ft

/-- The loop of `triangulate_inner` and the final checks (`trapezoidation.rs:711-878`). -/
def triLoop (w : Winding) (fuel : Nat) (p : PolyList I V) (xy : V → Coords C) (st : St I C) :
    Nat → TI I C → m Unit
  | 0, _ => FanM.stop .timeout
  | k + 1, x => do
    let t ← FanM.lift (getP st.ts x.ti)
    match t.down with
    | some niDown => do
      let x ← triStep w fuel p xy st x t niDown
      triLoop w fuel p xy st k x
    | none =>
      if x.monotoneStack ≠ [] then FanM.stop (.err .mismatchedMonotone)
      else if x.branchStack ≠ [] then FanM.stop (.err .mismatchedBranch)
      else if x.monotones.isSome then FanM.stop (.err .partialMonotones)
      else pure ()

/-- `Trapezoidation::triangulate_inner` (`trapezoidation.rs:683-879`). -/
def triangulateInner (w : Winding) (fuel : Nat) (p : PolyList I V) (xy : V → Coords C)
    (st : St I C) : m Unit := do
  let ti ← FanM.lift (topTrapezoid st.qs fuel 0)
  triLoop w fuel p xy st fuel ⟨ti, none, [], []⟩

end

/-- `Trapezoidation::triangulate` (`trapezoidation.rs:884-889`). -/
def St.triangulate [Scalar C] (fuel : Nat) (p : PolyList I V) (xy : V → Coords C) (st : St I C)
    (F : FanFormat I) : F.W × Res (TriErr F.E) F.O :=
  let r := triangulateInner (m := FBM F) F.winding fuel p xy st .uninit
  r.1.complete r.2

/-- `PolygonList::triangulate` (`inputs/polygon_list.rs:177-179`) and `Polygon::triangulate`
(`121-123`). -/
def triangulate [Scalar C] [DecidableEq I] (cfg : Cfg) (fuel : Nat) (p : PolyList I V)
    (xy : V → Coords C) (F : FanFormat I) : F.W × Res (TriErr F.E) F.O :=
  match Res.mapErr TriErr.trapezoidation (trapezoidize cfg fuel p xy) with
  | .ok st => st.triangulate fuel p xy F
  | .error e => (F.unused, .error e)

end Tri
