import Verif.Model.Trapezoidation

/-!
# The trapezoidation with a count of its loop iterations

The functions of `Model/Trapezoidation.lean` once more; each also returns how often the body of a loop was entered
while it ran.  Counted are

* every query node visited by `find_trapezoid_from_root` (`trapezoidation.rs:33-49`),
* every iteration of the loop of `add_segment` (`trapezoidation.rs:506-548`),
* every iteration of the loop over the segments of a polygon (`trapezoidation.rs:362`),
* every iteration of the relocation loop (`trapezoidation.rs:396`) and of the loop in it (`417-422`).

Everything else the code does between two counts takes a bounded number of operations: a nexus has at most two dividers.
The consistency checks of debug builds (`trapezoidation.rs:560-575`) are not counted.  That the results are those of the
functions without counts is `C50_counts_the_code`.
-/

namespace Tri

variable {I V C : Type}

namespace St

/-- `find_trapezoid_from_root` (`trapezoidation.rs:30-51`) and the number of query nodes visited. -/
def findC [Scalar C] (qs : List (QueryNode C)) (c : Coords C) : Nat → Nat → Res IErr ((Nat × Nat) × Nat)
  | 0, _ => .error .timeout
  | fuel + 1, qi => do
    match ← getU qs qi with
    | .branch l r b => do
      let (res, k) ← findC qs c fuel (if b.useLeft c then l else r)
      .ok (res, k + 1)
    | .sink ti => .ok ((qi, ti), 1)

/-- `TrapezoidationState::add_vertex` (`trapezoidation.rs:442-470`). -/
def addVertexC [Scalar C] (cfg : Cfg) (fuel : Nat) (p : PolyList I V) (xy : V → Coords C)
    (st : St I C) (vi : I) (qiRoot : Nat) : Res IErr ((St I C × Nat) × Nat) := do
  let c ← p.coords xy vi
  let ((qiParent, ti), k) ← findC st.qs c fuel qiRoot
  let st' ← st.addVertexAt vi c qiParent ti
  st'.debugCheck cfg fuel
  .ok ((st', st.ns.length), k)

/-- The loop of `add_segment` (`trapezoidation.rs:506-548`) and the number of its iterations. -/
def addSegmentLoopC [Scalar C] [DecidableEq I] (si : Nat) (s : Segment C) :
    Nat → SegLoop I C → Res IErr (SegLoop I C × Nat)
  | 0, _ => .error .timeout
  | fuel + 1, l =>
    if l.ni = s.niMin then .ok (l, 0)
    else do
      let l' ← addSegmentStep si s l
      let (l'', k) ← addSegmentLoopC si s fuel l'
      .ok (l'', k + 1)

/-- `TrapezoidationState::add_segment` (`trapezoidation.rs:472-558`). -/
def addSegmentC [Scalar C] [DecidableEq I] (cfg : Cfg) (fuel : Nat) (st : St I C)
    (niMin niMax : Nat) (cMin cMax : Coords C) : Res IErr (St I C × Nat) := do
  let si := st.ss.length
  let s : Segment C := ⟨niMin, niMax, cMin, cMax⟩
  let l ← addSegmentStart st niMin niMax cMin cMax
  let (l, k) ← addSegmentLoopC si s fuel l
  let ns ← Nexus.addSegment l.st.ns l.st.ss niMin si l.tiUpright
  let st' : St I C := { l.st with ns := ns }
  st'.debugCheck cfg fuel
  .ok (st', k)

variable [Scalar C] [DecidableEq I]

/-- The inner `add_vertex` of `add_nth_segment` (`trapezoidation.rs:294-302`). -/
def addVertexVLC (cfg : Cfg) (fuel : Nat) (p : PolyList I V) (xy : V → Coords C) (st : St I C)
    (vls : List (VLoc I C)) (vli : Nat) (vi : I) (qi : Nat) :
    Res IErr ((St I C × List (VLoc I C) × Nat) × Nat) := do
  let ((st', ni), k) ← st.addVertexC cfg fuel p xy vi qi
  let vl ← getP vls vli
  .ok ((st', vls.set vli (.inserted vl.coords ni), ni), k)

/-- First half of `add_nth_segment` (`trapezoidation.rs:304-330`). -/
def addEndsC (cfg : Cfg) (fuel : Nat) (p : PolyList I V) (xy : V → Coords C) (st : St I C)
    (vls : List (VLoc I C)) (si : Nat) :
    Res IErr ((St I C × List (VLoc I C) × Nat × Nat × Nat) × Nat) := do
  let vli0 := si
  let vli1 := (si + 1) % vls.length
  let vl0 ← getP vls vli0
  let vl1 ← getP vls vli1
  match vl0, vl1 with
  | .pending c0 i0 q0, .pending c1 i1 q1 =>
    if c0.ltB c1 then do
      let ((st, vls, ni0), k0) ← addVertexVLC cfg fuel p xy st vls vli0 i0 q0
      let ((st, vls, ni1), k1) ← addVertexVLC cfg fuel p xy st vls vli1 i1 q1
      .ok ((st, vls, ni0, ni1, 2), k0 + k1)
    else do
      let ((st, vls, ni1), k1) ← addVertexVLC cfg fuel p xy st vls vli1 i1 q1
      let ((st, vls, ni0), k0) ← addVertexVLC cfg fuel p xy st vls vli0 i0 q0
      .ok ((st, vls, ni0, ni1, 2), k1 + k0)
  | .pending _ i0 q0, .inserted _ ni1 => do
    let ((st, vls, ni0), k) ← addVertexVLC cfg fuel p xy st vls vli0 i0 q0
    .ok ((st, vls, ni0, ni1, 1), k)
  | .inserted _ ni0, .pending _ i1 q1 => do
    let ((st, vls, ni1), k) ← addVertexVLC cfg fuel p xy st vls vli1 i1 q1
    .ok ((st, vls, ni0, ni1, 1), k)
  | .inserted _ ni0, .inserted _ ni1 => .ok ((st, vls, ni0, ni1, 0), 0)

/-- `add_nth_segment` (`trapezoidation.rs:292-347`). -/
def addNthSegmentC (cfg : Cfg) (fuel : Nat) (p : PolyList I V) (xy : V → Coords C) (st : St I C)
    (vls : List (VLoc I C)) (si : Nat) : Res IErr ((St I C × List (VLoc I C) × Nat) × Nat) := do
  let ((st, vls, ni0, ni1, added), k) ← addEndsC cfg fuel p xy st vls si
  let n0 ← getU st.ns ni0
  let n1 ← getU st.ns ni1
  let (st, k') ← (if n0.c.ltB n1.c then st.addSegmentC cfg fuel ni0 ni1 n0.c n1.c
    else st.addSegmentC cfg fuel ni1 ni0 n1.c n0.c : Res IErr _)
  .ok ((st, vls, added), k + k')

/-- The inner `while` of the relocation (`trapezoidation.rs:417-422`) and how often its condition is evaluated. -/
def walkC (st : St I C) (dir : Dir) (cOrigin cTarget : Coords C) : Nat → Nat → Res IErr (Nat × Nat)
  | 0, _ => .error .timeout
  | fuel + 1, ti => do
    let t ← getU st.ts ti
    let done ← reached st.ns t dir cTarget
    if done then .ok (ti, 1)
    else
      match (match dir with | .asc => t.up | .desc => t.down) with
      | none => .error (.err .containingNotFound)
      | some ni => do
        let n ← getU st.ns ni
        let (res, k) ← walkC st dir cOrigin cTarget fuel (n.getTrapezoidBetweenCoords dir cOrigin cTarget)
        .ok (res, k + 1)

/-- One iteration of the relocation loop (`trapezoidation.rs:397-430`). -/
def relocStepC (fuel : Nat) (st : St I C) (r : Reloc I C) : Res IErr (Reloc I C × Nat) := do
  let target := (r.target + 1) % r.vls.length
  match ← getP r.vls target with
  | .inserted _ ni => do
    let n ← getU st.ns ni
    .ok ({ r with target := target, loc := .nexus ni, cOrigin := n.c }, 0)
  | .pending cT vi _ => do
    let dir := if cT.gtB r.cOrigin then Dir.asc else Dir.desc
    let ti ← startTrapezoid st r.loc dir cT
    let (ti, k) ← walkC st dir r.cOrigin cT fuel ti
    let unlocated ← subP r.unlocated 1
    let t ← getU st.ts ti
    .ok (⟨r.vls.set target (.pending cT vi t.sink), unlocated, target, .trapezoid ti, cT⟩, k)

/-- The relocation loop (`trapezoidation.rs:396-431`) and the number of iterations of it and of the loop in it. -/
def relocLoopC (fuel : Nat) (st : St I C) : Nat → Reloc I C → Res IErr (List (VLoc I C) × Nat)
  | 0, _ => .error .timeout
  | k + 1, r =>
    if r.unlocated = 0 then .ok (r.vls, 0)
    else do
      let (r', c) ← relocStepC fuel st r
      let (res, c') ← relocLoopC fuel st k r'
      .ok (res, c + c' + 1)

/-- The relocation block (`trapezoidation.rs:384-431`). -/
def relocateC (fuel : Nat) (st : St I C) (vls : List (VLoc I C)) (vi0 pending : Nat) :
    Res IErr (List (VLoc I C) × Nat) :=
  relocLoopC fuel st fuel ⟨vls, pending, vi0, .nexus 0, Coords.zero⟩

/-- One iteration of the loop of `add_polygon` (`trapezoidation.rs:363-435`), which counts as one itself; `n` are the
iterations so far. -/
def polyStepC (cfg : Cfg) (fuel : Nat) (p : PolyList I V) (xy : V → Coords C) (ln : PolyLoop I C × Nat)
    (vi0 : Nat) : Res IErr (PolyLoop I C × Nat) := do
  let (l, n) := ln
  let ((st, vls, added), k) ← addNthSegmentC cfg fuel p xy l.st l.vls vi0
  let pending ← subP l.pending added
  if l.i = l.nextUpdate then do
    let (vls, k') ← relocateC fuel st vls vi0 pending
    let updateCount := l.updateCount + 1
    .ok (⟨st, vls, pending, l.i + 1, updateCount, cfg.mathN vls.length updateCount⟩, n + 1 + k + k')
  else .ok (⟨st, vls, pending, l.i + 1, l.updateCount, l.nextUpdate⟩, n + 1 + k)

/-- `TrapezoidationState::add_polygon` (`trapezoidation.rs:290-439`) for the `k`-th polygon. -/
def addPolygonC (cfg : Cfg) (fuel : Nat) (p : PolyList I V) (xy : V → Coords C) (k : Nat)
    (st : St I C) (vls : List (VLoc I C)) : Res IErr (St I C × Nat) := do
  let len := vls.length
  let (l, n) ← (cfg.order k len).foldlM (polyStepC cfg fuel p xy) (⟨st, vls, len, 0, 1, cfg.mathN len 1⟩, 0)
  .ok (l.st, n)

/-- One iteration of the loop of `build` (`trapezoidation.rs:267-283`); `n` are the iterations so far. -/
def buildStepC (cfg : Cfg) (fuel : Nat) (p : PolyList I V) (xy : V → Coords C) (ln : BuildLoop I C × Nat)
    (e : Option (Elem I)) : Res TrapErr (BuildLoop I C × Nat) :=
  let (l, n) := ln
  match e with
  | none => .error .panic
  | some (.cont i) => do
    let c ← p.coords xy i
    .ok ({ l with vLookup := l.vLookup ++ [.pending c i 0] }, n)
  | some .newPolygon =>
    if l.vLookup.length > 0 then
      if l.vLookup.length < 3 then .error (.err (.notEnoughVertices l.vLookup.length))
      else do
        let (st, k) ← Res.mapErr .internal (addPolygonC cfg fuel p xy l.k l.st l.vLookup)
        .ok (⟨st, [], l.k + 1⟩, n + k)
    else .ok (l, n)

/-- `TrapezoidationState::build` (`trapezoidation.rs:257-287`). -/
def buildC (cfg : Cfg) (fuel : Nat) (p : PolyList I V) (xy : V → Coords C) : Res TrapErr (St I C × Nat) := do
  let (l, n) ← (p.elems ++ [some Elem.newPolygon]).foldlM (buildStepC cfg fuel p xy) (⟨St.init, [], 0⟩, 0)
  .ok (l.st, n)

end St

/-- `PolygonList::trapezoidize` (`inputs/polygon_list.rs:172-174`) and `Polygon::trapezoidize` (`116-118`), with the
number of loop iterations. -/
def trapezoidizeC [Scalar C] [DecidableEq I] (cfg : Cfg) (fuel : Nat) (p : PolyList I V)
    (xy : V → Coords C) : Res TrapErr (St I C × Nat) :=
  St.buildC cfg fuel p xy

end Tri
