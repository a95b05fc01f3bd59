import Verif.Model.Core

/-!
# Model of the trapezoidation data: segments, trapezoids, query nodes, nexuses
-/

namespace Tri

variable {I C : Type}

/-- `Segment` (`segment.rs:6-11`). -/
structure Segment (C : Type) where
  niMin : Nat
  niMax : Nat
  cMin : Coords C
  cMax : Coords C
deriving DecidableEq, Repr

/-- `Segment::is_on_left` (`segment.rs:45-47`). -/
def Segment.isOnLeft [Scalar C] (s : Segment C) (c : Coords C) : Bool :=
  isLeftOfLine s.cMin s.cMax c

/-- `Trapezoid` (`trapezoid.rs:6-12`). -/
structure Trapezoid where
  left : Option Nat
  right : Option Nat
  down : Option Nat
  up : Option Nat
  sink : Nat
deriving DecidableEq, Repr

/-- `Trapezoid::all` (`trapezoid.rs:41-49`). -/
def Trapezoid.all (sink : Nat) : Trapezoid := ⟨none, none, none, none, sink⟩

/-- `Trapezoid::split_vertical` (`trapezoid.rs:51-64`): the updated (left) trapezoid and the new
(right) one. -/
def Trapezoid.splitVertical (t : Trapezoid) (qiLeft qiRight si : Nat) : Trapezoid × Trapezoid :=
  ({ t with right := some si, sink := qiLeft },
   { left := some si, right := t.right, down := t.down, up := t.up, sink := qiRight })

/-- `Trapezoid::split_horizontal` (`trapezoid.rs:66-79`): the updated (lower) trapezoid and the new
(upper) one. -/
def Trapezoid.splitHorizontal (t : Trapezoid) (qiDown qiUp ni : Nat) : Trapezoid × Trapezoid :=
  ({ t with up := some ni, sink := qiDown },
   { left := t.left, right := t.right, down := some ni, up := t.up, sink := qiUp })

/-- `Trapezoid::set_down` (`trapezoid.rs:81-83`). -/
def Trapezoid.setDown (ni : Nat) (t : Trapezoid) : Trapezoid := { t with down := some ni }
/-- `Trapezoid::set_left` (`trapezoid.rs:85-87`). -/
def Trapezoid.setLeft (si : Nat) (t : Trapezoid) : Trapezoid := { t with left := some si }
/-- `Trapezoid::set_right` (`trapezoid.rs:89-91`). -/
def Trapezoid.setRight (si : Nat) (t : Trapezoid) : Trapezoid := { t with right := some si }
/-- `Trapezoid::set_sink` (`trapezoid.rs:93-95`). -/
def Trapezoid.setSink (qi : Nat) (t : Trapezoid) : Trapezoid := { t with sink := qi }

/-- `QueryNodeBranch` (`querynode.rs:32-35`). -/
inductive Branch (C : Type) where
  | X (cMin cMax : Coords C)
  | Y (c : Coords C)
deriving DecidableEq, Repr

/-- `QueryNode` (`querynode.rs:9-12`). -/
inductive QueryNode (C : Type) where
  | branch (left right : Nat) (b : Branch C)
  | sink (ti : Nat)
deriving DecidableEq, Repr

/-- The choice made at a branch by `find_trapezoid_from_root` (`trapezoidation.rs:36-45`). -/
def Branch.useLeft [Scalar C] (b : Branch C) (c : Coords C) : Bool :=
  match b with
  | .X cMin cMax => isLeftOfLine cMin cMax c
  | .Y cY => c.leB cY

/-- `DividerDirection` (`nexus.rs:8-11`). -/
inductive Dir where
  | asc
  | desc
deriving DecidableEq, Repr

/-- `Divider` (`nexus.rs:13-17`). -/
structure Divider where
  si : Nat
  tiRight : Nat
  dir : Dir
deriving DecidableEq, Repr

/-- `FinalNexusType` (`nexus.rs:41-45`). -/
inductive FinalType where
  | V (upleft upcenter upright down : Nat)
  | I (upleft upright downleft downright : Nat)
  | A (up downleft downcenter downright : Nat)
deriving DecidableEq, Repr

/-- `Nexus` (`nexus.rs:47-54`). -/
structure Nexus (I C : Type) where
  vi : I
  c : Coords C
  tiUpleft : Nat
  tiDownleft : Nat
  dividers : Zot Divider
deriving DecidableEq, Repr

namespace Nexus

/-- `Nexus::new` (`nexus.rs:90-99`). -/
def new (vi : I) (c : Coords C) (tiUp tiDown : Nat) : Nexus I C := ⟨vi, c, tiUp, tiDown, .zero⟩

/-- `Nexus::final_type` (`nexus.rs:101-130`). -/
def finalType (n : Nexus I C) : Res IErr FinalType :=
  match n.dividers with
  | .two d0 d1 =>
    .ok (if d0.dir = .desc then .A n.tiUpleft n.tiDownleft d0.tiRight d1.tiRight
      else if d1.dir = .asc then .V n.tiUpleft d0.tiRight d1.tiRight n.tiDownleft
      else .I n.tiUpleft d0.tiRight n.tiDownleft d1.tiRight)
  | _ => .error (.err .nexusNotTwo)

/-- `Nexus::replace_trapezoid` with `Nexus::find_trapezoid` inlined (`nexus.rs:136-154`): the first
of `ti_upleft`, `ti_downleft`, first divider, second divider that equals `tiOld` is overwritten. -/
def replaceTrapezoid (n : Nexus I C) (tiOld tiNew : Nat) : Res IErr (Nexus I C) :=
  if n.tiUpleft = tiOld then .ok { n with tiUpleft := tiNew }
  else if n.tiDownleft = tiOld then .ok { n with tiDownleft := tiNew }
  else
    match n.dividers with
    | .one d0 =>
      if d0.tiRight = tiOld then .ok { n with dividers := .one { d0 with tiRight := tiNew } }
      else .error (.err .notConnected)
    | .two d0 d1 =>
      if d0.tiRight = tiOld then .ok { n with dividers := .two { d0 with tiRight := tiNew } d1 }
      else if d1.tiRight = tiOld then .ok { n with dividers := .two d0 { d1 with tiRight := tiNew } }
      else .error (.err .notConnected)
    | .zero => .error (.err .notConnected)

/-- `Nexus::get_segment_direction` (`nexus.rs:186-195`). -/
def getSegmentDirection (ss : List (Segment C)) (ni si : Nat) : Res IErr Dir := do
  let s ← getP ss si
  if ni = s.niMax then .ok .desc
  else if ni = s.niMin then .ok .asc
  else .error (.err .notContained)

/-- The order of a second divider `div` relative to the existing one `div0`
(`nexus.rs:164-174`). -/
def swapDividers [Scalar C] (ns : List (Nexus I C)) (ss : List (Segment C)) (div0 div : Divider) :
    Res IErr Bool :=
  if div0.dir = div.dir then do
    let s0 ← getP ss div0.si
    let s1 ← getP ss div.si
    let n1 ← getP ns (match div.dir with | .asc => s1.niMax | .desc => s1.niMin)
    .ok (s0.isOnLeft n1.c)
  else .ok (decide (div.dir = .asc))

/-- `Nexus::add_segment` (`nexus.rs:156-184`).  All index expressions there go through slices. -/
def addSegment [Scalar C] (ns : List (Nexus I C)) (ss : List (Segment C)) (ni si tiRight : Nat) :
    Res IErr (List (Nexus I C)) := do
  let dir ← getSegmentDirection ss ni si
  let div : Divider := ⟨si, tiRight, dir⟩
  let n ← getP ns ni
  match n.dividers with
  | .zero => .ok (ns.set ni { n with dividers := .one div })
  | .one div0 =>
    let swap ← swapDividers ns ss div0 div
    if swap then .ok (ns.set ni { n with dividers := .two div div0 })
    else .ok (ns.set ni { n with dividers := .two div0 div })
  | .two _ _ => .error (.err .alreadyTwo)

/-- `Nexus::filter_dividers` (`nexus.rs:197-201`). -/
def filterDividers (n : Nexus I C) (dir : Dir) : Zot Divider :=
  .fromOptions (n.dividers.first.filter (·.dir = dir)) (n.dividers.second.filter (·.dir = dir))

/-- `Nexus::filter_trapezoids` (`nexus.rs:203-205`). -/
def filterTrapezoids (n : Nexus I C) (dir : Dir) : Zot Nat :=
  (n.filterDividers dir).map (·.tiRight)

/-- `Nexus::up_trapezoids` (`nexus.rs:207-209`). -/
def upTrapezoids (n : Nexus I C) : Ot Nat :=
  match (n.filterTrapezoids .asc).last with
  | none => .one n.tiUpleft
  | some t => .two n.tiUpleft t

/-- `Nexus::down_trapezoids` (`nexus.rs:211-213`). -/
def downTrapezoids (n : Nexus I C) : Ot Nat :=
  match (n.filterTrapezoids .desc).last with
  | none => .one n.tiDownleft
  | some t => .two n.tiDownleft t

/-- `ti_upleft` or `ti_downleft`, as selected by a direction throughout `nexus.rs`. -/
def leftmost (n : Nexus I C) : Dir → Nat
  | .asc => n.tiUpleft
  | .desc => n.tiDownleft

/-- `Nexus::iter_up_trapezoids` / `iter_down_trapezoids` through `NexusTrapezoidIter`
(`nexus.rs:215-221`, `292-334`).  The `state` counter of the iterator is unrolled: the first item is
the leftmost trapezoid, then the dividers of the wanted direction in order.  With a first divider of
the other direction the iterator skips to the second one (lines 321-325). -/
def iterTrapezoids (n : Nexus I C) (dir : Dir) : List Nat :=
  n.leftmost dir ::
    match n.dividers with
    | .zero => []
    | .one d0 => if d0.dir = dir then [d0.tiRight] else []
    | .two d0 d1 =>
      (if d0.dir = dir then [d0.tiRight] else []) ++ (if d1.dir = dir then [d1.tiRight] else [])

/-- The point tested by `Nexus::get_down_trapezoid_in_direction` (`nexus.rs:228-234`). -/
def downTestCoords [DecidableEq I] (n : Nexus I C) (ns : List (Nexus I C)) (ss : List (Segment C))
    (s : Segment C) (divR : Divider) : Res IErr (Coords C) := do
  let nMin ← getP ns s.niMin
  if nMin.vi = n.vi then .error (.err .invalidSegNexus)
  else do
    let nMax ← getP ns s.niMax
    if nMax.vi = n.vi then do
      let sr ← getP ss divR.si
      let m ← getP ns sr.niMin
      .ok m.c
    else .ok n.c

/-- `Nexus::get_down_trapezoid_in_direction` (`nexus.rs:223-242`). -/
def getDownTrapezoidInDirection [Scalar C] [DecidableEq I] (n : Nexus I C) (ns : List (Nexus I C))
    (ss : List (Segment C)) (s : Segment C) : Res IErr Nat :=
  match (n.filterDividers .desc).last with
  | none => .ok n.tiDownleft
  | some divR => do
    let c ← n.downTestCoords ns ss s divR
    if s.isOnLeft c then .ok divR.tiRight else .ok n.tiDownleft

/-- `Nexus::get_trapezoid_between_coords` (`nexus.rs:244-268`). -/
def getTrapezoidBetweenCoords [Scalar C] (n : Nexus I C) (dir : Dir) (cFrom cTo : Coords C) : Nat :=
  match (n.filterDividers dir).last with
  | none => n.leftmost dir
  | some divR =>
    if (match dir with
      | .asc => isLeftOfLine cFrom cTo n.c
      | .desc => isLeftOfLine cTo cFrom n.c) then divR.tiRight
    else n.leftmost dir

/-- `Nexus::get_trapezoid_toward_coords` (`nexus.rs:270-289`). -/
def getTrapezoidTowardCoords [Scalar C] (n : Nexus I C) (ss : List (Segment C))
    (ns : List (Nexus I C)) (dir : Dir) (cTo : Coords C) : Res IErr Nat :=
  match n.filterDividers dir with
  | .zero => .ok (n.leftmost dir)
  | .one div => do
    let s ← getP ss div.si
    let nMin ← getP ns s.niMin
    let nMax ← getP ns s.niMax
    .ok (if isLeftOfLine nMin.c nMax.c cTo then n.leftmost dir else div.tiRight)
  | .two _ _ => .error (.err .fewerThanTwo)

end Nexus

end Tri
