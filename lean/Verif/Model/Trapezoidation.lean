import Verif.Model.Trap
import Verif.Model.Input

/-!
# Model of `TrapezoidationState` (`trapezoidation.rs:175-636`)
-/

namespace Tri

variable {I V C : Type}

/-- The vectors of `TrapezoidationState` (`trapezoidation.rs:175-183`) and, unchanged, of
`Trapezoidation` (`651-668`). -/
structure St (I C : Type) where
  ns : List (Nexus I C)
  ss : List (Segment C)
  ts : List Trapezoid
  qs : List (QueryNode C)
deriving DecidableEq, Repr

/-- What the model leaves open in a run: the shuffled segment order of the `k`-th polygon with `len`
vertices (`trapezoidation.rs:354-355`), the relocation schedule `math_n len count`
(`math.rs:15-21`, floating point, modelled as an arbitrary function) and whether
`debug_assertions` are on (`trapezoidation.rs:560-575`). -/
structure Cfg where
  order : Nat → Nat → List Nat
  mathN : Nat → Nat → Nat
  debug : Bool

/-- `shuffle` produces a permutation. -/
def Cfg.Valid (cfg : Cfg) : Prop := ∀ k len, (cfg.order k len).Perm (List.range len)

namespace St

/-- `TrapezoidationState::new` (`trapezoidation.rs:186-213`). -/
def init : St I C := ⟨[], [], [Trapezoid.all 0], [.sink 0]⟩

/-- `find_trapezoid_from_root` (`trapezoidation.rs:30-51`). -/
def find [Scalar C] (qs : List (QueryNode C)) (c : Coords C) : Nat → Nat → Res IErr (Nat × Nat)
  | 0, _ => .error .timeout
  | fuel + 1, qi => do
    match ← getU qs qi with
    | .branch l r b => find qs c fuel (if b.useLeft c then l else r)
    | .sink ti => .ok (qi, ti)

/-- `check_consistency_query_node` (`trapezoidation.rs:577-592`); the returned count is not used by
the caller and is dropped. -/
def checkQuery (st : St I C) : Nat → Nat → Res IErr Unit
  | 0, _ => .error .timeout
  | fuel + 1, qi => do
    match ← getU st.qs qi with
    | .branch l r _ => do
      checkQuery st fuel l
      checkQuery st fuel r
    | .sink ti => do
      let _ ← getU st.ts ti
      .ok ()

/-- `check_consistency_nexus` (`trapezoidation.rs:594-610`). -/
def checkNexus (st : St I C) (ni : Nat) : Res IErr Unit := do
  let n ← getU st.ns ni
  n.upTrapezoids.toList.forM fun ti => do
    let t ← getU st.ts ti
    if t.down = some ni then .ok () else .error .panic
  n.downTrapezoids.toList.forM fun ti => do
    let t ← getU st.ts ti
    if t.up = some ni then .ok () else .error .panic

/-- Half of `check_consistency_trapezoid` (`trapezoidation.rs:615-626`): the nexus below (above) lists
the trapezoid among those above (below) it. -/
def checkSide (st : St I C) (ti : Nat) (ni : Option Nat) (dir : Dir) : Res IErr Unit :=
  match ni with
  | some ni => do
    let n ← getU st.ns ni
    if ti ∈ n.iterTrapezoids dir then .ok () else .error .panic
  | none => .ok ()

/-- `check_consistency_trapezoid` (`trapezoidation.rs:612-635`). -/
def checkTrapezoid (st : St I C) (ti : Nat) : Res IErr Unit := do
  let t ← getU st.ts ti
  st.checkSide ti t.down .asc
  st.checkSide ti t.up .desc
  match ← getU st.qs t.sink with
  | .sink tiOther => if ti = tiOther then .ok () else .error .panic
  | .branch _ _ _ => .error .panic

/-- `check_consistency` (`trapezoidation.rs:560-572`). -/
def checkConsistency (fuel : Nat) (st : St I C) : Res IErr Unit := do
  (List.range st.ns.length).forM st.checkNexus
  (List.range st.ts.length).forM st.checkTrapezoid
  st.checkQuery fuel 0

/-- `check_consistency` under `cfg(debug_assertions)` (`trapezoidation.rs:560-575`). -/
def debugCheck (cfg : Cfg) (fuel : Nat) (st : St I C) : Res IErr Unit :=
  if cfg.debug then st.checkConsistency fuel else .ok ()

/-- `self.ns[ni].replace_trapezoid(ti_old, ti_new)?` on an optional nexus
(`trapezoidation.rs:460-463`, and with `some ni` at `500`, `525`, `538`). -/
def replaceAt (ns : List (Nexus I C)) (ni : Option Nat) (tiOld tiNew : Nat) :
    Res IErr (List (Nexus I C)) :=
  match ni with
  | some ni => do
    let n ← getP ns ni
    let n ← n.replaceTrapezoid tiOld tiNew
    .ok (ns.set ni n)
  | none => .ok ns

/-- Lines 445-465 of `TrapezoidationState::add_vertex` (`trapezoidation.rs`): everything after the
trapezoid has been found. -/
def addVertexAt (st : St I C) (vi : I) (c : Coords C) (qiParent ti : Nat) :
    Res IErr (St I C) := do
  let tiNew := st.ts.length
  let qiDown := st.qs.length
  let qiUp := qiDown + 1
  let ni := st.ns.length
  let ns := st.ns ++ [Nexus.new vi c tiNew ti]
  let qLeft ← getP st.qs qiParent
  let qs ← modP st.qs qiParent fun _ => .branch qiDown qiUp (.Y c)
  let qs := qs ++ [qLeft, .sink tiNew]
  let ts ← modP st.ts ti (Trapezoid.setSink qiDown)
  let t ← getP ts ti
  let (tLow, tNew) := t.splitHorizontal qiDown qiUp ni
  let ts := ts.set ti tLow
  let ns ← replaceAt ns tNew.up ti tiNew
  .ok ⟨ns, st.ss, ts ++ [tNew], qs⟩

/-- `TrapezoidationState::add_vertex` (`trapezoidation.rs:442-470`); returns the new nexus index. -/
def addVertex [Scalar C] (cfg : Cfg) (fuel : Nat) (p : PolyList I V) (xy : V → Coords C)
    (st : St I C) (vi : I) (qiRoot : Nat) : Res IErr (St I C × Nat) := do
  let c ← p.coords xy vi
  let (qiParent, ti) ← find st.qs c fuel qiRoot
  let st' ← st.addVertexAt vi c qiParent ti
  st'.debugCheck cfg fuel
  .ok (st', st.ns.length)

/-- Variables of the loop in `TrapezoidationState::add_segment` (`trapezoidation.rs:496-548`). -/
structure SegLoop (I C : Type) where
  st : St I C
  ni : Nat
  tiUpleft : Nat
  tiUpright : Nat

/-- `TrapezoidationState::add_segment` up to the loop (`trapezoidation.rs:473-504`). -/
def addSegmentStart [Scalar C] [DecidableEq I] (st : St I C) (niMin niMax : Nat)
    (cMin cMax : Coords C) : Res IErr (SegLoop I C) := do
  let si := st.ss.length
  let s : Segment C := ⟨niMin, niMax, cMin, cMax⟩
  let ss := st.ss ++ [s]
  let nMax ← getU st.ns niMax
  let ti ← nMax.getDownTrapezoidInDirection st.ns ss s
  let t ← getU st.ts ti
  let tiNew := st.ts.length
  let qiLeft := st.qs.length
  let qiRight := qiLeft + 1
  let qLeft ← getP st.qs t.sink
  let qs ← modP st.qs t.sink fun _ => .branch qiLeft qiRight (.X cMin cMax)
  let qs := qs ++ [qLeft, .sink tiNew]
  let ts ← modP st.ts ti (Trapezoid.setSink qiLeft)
  let t ← getP ts ti
  let (tLeft, tNew) := t.splitVertical qiLeft qiRight si
  let ts := ts.set ti tLeft ++ [tNew]
  let ns ← Nexus.addSegment st.ns ss niMax si tiNew
  let t ← getU ts ti
  match t.down with
  | none => .error (.err .segMinNotFound)
  | some ni => do
    let n ← getU ns ni
    let ns ← replaceAt ns (if ni ≠ niMin ∧ s.isOnLeft n.c = false then some ni else none) ti tiNew
    .ok ⟨⟨ns, ss, ts, qs⟩, ni, ti, tiNew⟩

/-- One iteration of the loop of `add_segment` (`trapezoidation.rs:507-544`) for segment number `si`,
which is `s`.  Simplification: the coordinates of nexus `ni` are read before the two conditions at
lines 524 and 537 are evaluated, where the code reads them only if `ni` is not `ni_min`. -/
def addSegmentStep [Scalar C] [DecidableEq I] (si : Nat) (s : Segment C) (l : SegLoop I C) :
    Res IErr (SegLoop I C) := do
  let st := l.st
  let n ← getU st.ns l.ni
  let ti ← n.getDownTrapezoidInDirection st.ns st.ss s
  let t ← getU st.ts ti
  match t.down with
  | none => .error (.err .segMinNotFound)
  | some ni => do
    let tUpleft ← getU st.ts l.tiUpleft
    let tUpright ← getU st.ts l.tiUpright
    if t.right = tUpright.right then do
      let qiLeft := st.qs.length
      let qLeft ← getP st.qs t.sink
      let qs ← modP st.qs t.sink fun _ => .branch qiLeft tUpright.sink (.X s.cMin s.cMax)
      let ts ← modP st.ts ti (Trapezoid.setSink qiLeft)
      let qs := qs ++ [qLeft]
      let ts ← modP ts ti (Trapezoid.setRight si)
      let ts ← modP ts l.tiUpright (Trapezoid.setDown ni)
      let n ← getU st.ns ni
      let ns ← replaceAt st.ns
        (if ni ≠ s.niMin ∧ s.isOnLeft n.c = false then some ni else none) ti l.tiUpright
      .ok ⟨⟨ns, st.ss, ts, qs⟩, ni, ti, l.tiUpright⟩
    else if t.left = tUpleft.left then do
      let qiRight := st.qs.length
      let qRight ← getP st.qs t.sink
      let qs ← modP st.qs t.sink fun _ => .branch tUpleft.sink qiRight (.X s.cMin s.cMax)
      let ts ← modP st.ts ti (Trapezoid.setSink qiRight)
      let qs := qs ++ [qRight]
      let ts ← modP ts ti (Trapezoid.setLeft si)
      let ts ← modP ts l.tiUpleft (Trapezoid.setDown ni)
      let n ← getU st.ns ni
      let ns ← replaceAt st.ns
        (if ni = s.niMin ∨ s.isOnLeft n.c = true then some ni else none) ti l.tiUpleft
      .ok ⟨⟨ns, st.ss, ts, qs⟩, ni, l.tiUpleft, ti⟩
    else .error (.err .noMatchingSide)

/-- The loop of `add_segment` (`trapezoidation.rs:506-548`). -/
def addSegmentLoop [Scalar C] [DecidableEq I] (si : Nat) (s : Segment C) :
    Nat → SegLoop I C → Res IErr (SegLoop I C)
  | 0, _ => .error .timeout
  | fuel + 1, l =>
    if l.ni = s.niMin then .ok l
    else do
      let l' ← addSegmentStep si s l
      addSegmentLoop si s fuel l'

/-- `TrapezoidationState::add_segment` (`trapezoidation.rs:472-558`). -/
def addSegment [Scalar C] [DecidableEq I] (cfg : Cfg) (fuel : Nat) (st : St I C)
    (niMin niMax : Nat) (cMin cMax : Coords C) : Res IErr (St I C) := do
  let si := st.ss.length
  let s : Segment C := ⟨niMin, niMax, cMin, cMax⟩
  let l ← addSegmentStart st niMin niMax cMin cMax
  let l ← addSegmentLoop si s fuel l
  let ns ← Nexus.addSegment l.st.ns l.st.ss niMin si l.tiUpright
  let st' : St I C := { l.st with ns := ns }
  st'.debugCheck cfg fuel
  .ok st'

end St

/-- `VertexLocation` (`trapezoidation.rs:84-87`). -/
inductive VLoc (I C : Type) where
  | pending (c : Coords C) (vi : I) (qi : Nat)
  | inserted (c : Coords C) (ni : Nat)
deriving DecidableEq, Repr

/-- `VertexLocation::coords` (`trapezoidation.rs:90-95`). -/
def VLoc.coords : VLoc I C → Coords C
  | .pending c _ _ => c
  | .inserted c _ => c

namespace St

variable [Scalar C] [DecidableEq I]

/-- The inner `add_vertex` of `add_nth_segment` (`trapezoidation.rs:294-302`). -/
def addVertexVL (cfg : Cfg) (fuel : Nat) (p : PolyList I V) (xy : V → Coords C) (st : St I C)
    (vls : List (VLoc I C)) (vli : Nat) (vi : I) (qi : Nat) :
    Res IErr (St I C × List (VLoc I C) × Nat) := do
  let (st', ni) ← st.addVertex cfg fuel p xy vi qi
  let vl ← getP vls vli
  .ok (st', vls.set vli (.inserted vl.coords ni), ni)

/-- First half of `add_nth_segment` (`trapezoidation.rs:304-330`): make sure both end points are
inserted.  Returns the two nexus indices and the number of added vertices. -/
def addEnds (cfg : Cfg) (fuel : Nat) (p : PolyList I V) (xy : V → Coords C) (st : St I C)
    (vls : List (VLoc I C)) (si : Nat) :
    Res IErr (St I C × List (VLoc I C) × Nat × Nat × Nat) := do
  let vli0 := si
  let vli1 := (si + 1) % vls.length
  let vl0 ← getP vls vli0
  let vl1 ← getP vls vli1
  match vl0, vl1 with
  | .pending c0 i0 q0, .pending c1 i1 q1 =>
    if c0.ltB c1 then do
      let (st, vls, ni0) ← addVertexVL cfg fuel p xy st vls vli0 i0 q0
      let (st, vls, ni1) ← addVertexVL cfg fuel p xy st vls vli1 i1 q1
      .ok (st, vls, ni0, ni1, 2)
    else do
      let (st, vls, ni1) ← addVertexVL cfg fuel p xy st vls vli1 i1 q1
      let (st, vls, ni0) ← addVertexVL cfg fuel p xy st vls vli0 i0 q0
      .ok (st, vls, ni0, ni1, 2)
  | .pending _ i0 q0, .inserted _ ni1 => do
    let (st, vls, ni0) ← addVertexVL cfg fuel p xy st vls vli0 i0 q0
    .ok (st, vls, ni0, ni1, 1)
  | .inserted _ ni0, .pending _ i1 q1 => do
    let (st, vls, ni1) ← addVertexVL cfg fuel p xy st vls vli1 i1 q1
    .ok (st, vls, ni0, ni1, 1)
  | .inserted _ ni0, .inserted _ ni1 => .ok (st, vls, ni0, ni1, 0)

/-- `add_nth_segment` (`trapezoidation.rs:292-347`). -/
def addNthSegment (cfg : Cfg) (fuel : Nat) (p : PolyList I V) (xy : V → Coords C) (st : St I C)
    (vls : List (VLoc I C)) (si : Nat) : Res IErr (St I C × List (VLoc I C) × Nat) := do
  let (st, vls, ni0, ni1, added) ← addEnds cfg fuel p xy st vls si
  let n0 ← getU st.ns ni0
  let n1 ← getU st.ns ni1
  let st ← (if n0.c.ltB n1.c then st.addSegment cfg fuel ni0 ni1 n0.c n1.c
    else st.addSegment cfg fuel ni1 ni0 n1.c n0.c : Res IErr _)
  .ok (st, vls, added)

/-- `Location` (`trapezoidation.rs:366-369`). -/
inductive Loc where
  | nexus (ni : Nat)
  | trapezoid (ti : Nat)

/-- `reached_containing_trapezoid` (`trapezoidation.rs:371-382`). -/
def reached (ns : List (Nexus I C)) (t : Trapezoid) (dir : Dir) (c : Coords C) : Res IErr Bool :=
  match (match dir with | .asc => t.up | .desc => t.down) with
  | none => .ok true
  | some ni => do
    let n ← getP ns ni
    .ok (match dir with | .asc => n.c.gtB c | .desc => n.c.ltB c)

/-- The inner `while` of the relocation (`trapezoidation.rs:417-422`). -/
def walk (st : St I C) (dir : Dir) (cOrigin cTarget : Coords C) : Nat → Nat → Res IErr Nat
  | 0, _ => .error .timeout
  | fuel + 1, ti => do
    let t ← getU st.ts ti
    let done ← reached st.ns t dir cTarget
    if done then .ok ti
    else
      match (match dir with | .asc => t.up | .desc => t.down) with
      | none => .error (.err .containingNotFound)
      | some ni => do
        let n ← getU st.ns ni
        walk st dir cOrigin cTarget fuel (n.getTrapezoidBetweenCoords dir cOrigin cTarget)

/-- Variables of the relocation loop (`trapezoidation.rs:384-391`). -/
structure Reloc (I C : Type) where
  vls : List (VLoc I C)
  unlocated : Nat
  target : Nat
  loc : Loc
  cOrigin : Coords C

/-- "If on an inserted vertex, move to an adjacent Trapezoid toward the target"
(`trapezoidation.rs:412-415`). -/
def startTrapezoid (st : St I C) (loc : Loc) (dir : Dir) (cT : Coords C) : Res IErr Nat :=
  match loc with
  | .nexus ni => do
    let n ← getU st.ns ni
    n.getTrapezoidTowardCoords st.ss st.ns dir cT
  | .trapezoid ti => .ok ti

/-- One iteration of the relocation loop (`trapezoidation.rs:397-430`). -/
def relocStep (fuel : Nat) (st : St I C) (r : Reloc I C) : Res IErr (Reloc I C) := do
  let target := (r.target + 1) % r.vls.length
  match ← getP r.vls target with
  | .inserted _ ni => do
    let n ← getU st.ns ni
    .ok { r with target := target, loc := .nexus ni, cOrigin := n.c }
  | .pending cT vi _ => do
    let dir := if cT.gtB r.cOrigin then Dir.asc else Dir.desc
    let ti ← startTrapezoid st r.loc dir cT
    let ti ← walk st dir r.cOrigin cT fuel ti
    let unlocated ← subP r.unlocated 1
    let t ← getU st.ts ti
    .ok ⟨r.vls.set target (.pending cT vi t.sink), unlocated, target, .trapezoid ti, cT⟩

/-- The relocation loop (`trapezoidation.rs:396-431`). -/
def relocLoop (fuel : Nat) (st : St I C) : Nat → Reloc I C → Res IErr (List (VLoc I C))
  | 0, _ => .error .timeout
  | k + 1, r =>
    if r.unlocated = 0 then .ok r.vls
    else do
      let r' ← relocStep fuel st r
      relocLoop fuel st k r'

/-- The relocation block (`trapezoidation.rs:384-431`), started after segment `vi0` was added. -/
def relocate (fuel : Nat) (st : St I C) (vls : List (VLoc I C)) (vi0 pending : Nat) :
    Res IErr (List (VLoc I C)) :=
  relocLoop fuel st fuel ⟨vls, pending, vi0, .nexus 0, Coords.zero⟩

/-- Variables of the main loop of `add_polygon` (`trapezoidation.rs:351-362`). -/
structure PolyLoop (I C : Type) where
  st : St I C
  vls : List (VLoc I C)
  pending : Nat
  i : Nat
  updateCount : Nat
  nextUpdate : Nat

/-- One iteration of the loop of `add_polygon` (`trapezoidation.rs:363-435`). -/
def polyStep (cfg : Cfg) (fuel : Nat) (p : PolyList I V) (xy : V → Coords C) (l : PolyLoop I C)
    (vi0 : Nat) : Res IErr (PolyLoop I C) := do
  let (st, vls, added) ← addNthSegment cfg fuel p xy l.st l.vls vi0
  let pending ← subP l.pending added
  if l.i = l.nextUpdate then do
    let vls ← relocate fuel st vls vi0 pending
    let updateCount := l.updateCount + 1
    .ok ⟨st, vls, pending, l.i + 1, updateCount, cfg.mathN vls.length updateCount⟩
  else .ok ⟨st, vls, pending, l.i + 1, l.updateCount, l.nextUpdate⟩

/-- `TrapezoidationState::add_polygon` (`trapezoidation.rs:290-439`) for the `k`-th polygon. -/
def addPolygon (cfg : Cfg) (fuel : Nat) (p : PolyList I V) (xy : V → Coords C) (k : Nat)
    (st : St I C) (vls : List (VLoc I C)) : Res IErr (St I C) := do
  let len := vls.length
  let l ← (cfg.order k len).foldlM (polyStep cfg fuel p xy) ⟨st, vls, len, 0, 1, cfg.mathN len 1⟩
  .ok l.st

/-- Variables of the loop of `build` (`trapezoidation.rs:263-266`); `k` counts the polygons added so
far (the model's index into the shuffles). -/
structure BuildLoop (I C : Type) where
  st : St I C
  vLookup : List (VLoc I C)
  k : Nat

/-- One iteration of the loop of `build` (`trapezoidation.rs:267-283`). -/
def buildStep (cfg : Cfg) (fuel : Nat) (p : PolyList I V) (xy : V → Coords C) (l : BuildLoop I C) :
    Option (Elem I) → Res TrapErr (BuildLoop I C)
  | none => .error .panic
  | some (.cont i) => do
    let c ← p.coords xy i
    .ok { l with vLookup := l.vLookup ++ [.pending c i 0] }
  | some .newPolygon =>
    if l.vLookup.length > 0 then
      if l.vLookup.length < 3 then .error (.err (.notEnoughVertices l.vLookup.length))
      else do
        let st ← Res.mapErr .internal (addPolygon cfg fuel p xy l.k l.st l.vLookup)
        .ok ⟨st, [], l.k + 1⟩
    else .ok l

/-- `TrapezoidationState::build` (`trapezoidation.rs:257-287`). -/
def build (cfg : Cfg) (fuel : Nat) (p : PolyList I V) (xy : V → Coords C) : Res TrapErr (St I C) := do
  let l ← (p.elems ++ [some Elem.newPolygon]).foldlM (buildStep cfg fuel p xy) ⟨St.init, [], 0⟩
  .ok l.st

end St

/-- `PolygonList::trapezoidize` (`inputs/polygon_list.rs:172-174`) and `Polygon::trapezoidize`
(`116-118`). -/
def trapezoidize [Scalar C] [DecidableEq I] (cfg : Cfg) (fuel : Nat) (p : PolyList I V)
    (xy : V → Coords C) : Res TrapErr (St I C) :=
  St.build cfg fuel p xy

end Tri
