import Verif.Model.Cost

/-!
# The trapezoidation with a count that is kept if it fails

The functions of `Model/Trapezoidation.lean` that contain or call a loop, once more, in a monad with a count that goes on until the run ends, also if it
ends with an error value or a panic, or is cut off.  Counted is what `Model/Cost.lean` counts: one `tick` whenever the body of a
loop is entered (for the inner loop of a relocation, whenever its condition is evaluated).
-/

namespace Tri

variable {I V C : Type}

/-- The number of ticks of a run, and how it ended. -/
def Cnt (ε α : Type) : Type := Nat × Res ε α

namespace Cnt

variable {ε α β : Type}

instance : Monad (Cnt ε) where
  pure a := (0, .ok a)
  bind x f :=
    match x with
    | (n, .ok a) => (n + (f a).1, (f a).2)
    | (n, .error e) => (n, .error e)

/-- A computation without ticks. -/
def of (r : Res ε α) : Cnt ε α := (0, r)

/-- One step is counted. -/
def tick : Cnt ε Unit := (1, .ok ())

/-- `map_err`. -/
def mapErr {δ : Type} (f : ε → δ) (x : Cnt ε α) : Cnt δ α := (x.1, Res.mapErr f x.2)

end Cnt

namespace St

open Cnt

/-- `find_trapezoid_from_root` (`trapezoidation.rs:30-51`), counting. -/
def findT [Scalar C] (qs : List (QueryNode C)) (c : Coords C) : Nat → Nat → Cnt IErr (Nat × Nat)
  | 0, _ => of (.error .timeout)
  | fuel + 1, qi => do
    tick
    match ← of (getU qs qi) with
    | .branch l r b => findT qs c fuel (if b.useLeft c then l else r)
    | .sink ti => pure (qi, ti)

/-- `TrapezoidationState::add_vertex` (`trapezoidation.rs:442-470`), counting. -/
def addVertexT [Scalar C] (cfg : Cfg) (fuel : Nat) (p : PolyList I V) (xy : V → Coords C)
    (st : St I C) (vi : I) (qiRoot : Nat) : Cnt IErr (St I C × Nat) := do
  let c ← of (p.coords xy vi)
  let (qiParent, ti) ← findT st.qs c fuel qiRoot
  let st' ← of (st.addVertexAt vi c qiParent ti)
  of (st'.debugCheck cfg fuel)
  pure (st', st.ns.length)

/-- The loop of `add_segment` (`trapezoidation.rs:506-548`), counting. -/
def addSegmentLoopT [Scalar C] [DecidableEq I] (si : Nat) (s : Segment C) :
    Nat → SegLoop I C → Cnt IErr (SegLoop I C)
  | 0, _ => of (.error .timeout)
  | fuel + 1, l =>
    if l.ni = s.niMin then pure l
    else do
      tick
      let l' ← of (addSegmentStep si s l)
      addSegmentLoopT si s fuel l'

/-- `TrapezoidationState::add_segment` (`trapezoidation.rs:472-558`), counting. -/
def addSegmentT [Scalar C] [DecidableEq I] (cfg : Cfg) (fuel : Nat) (st : St I C)
    (niMin niMax : Nat) (cMin cMax : Coords C) : Cnt IErr (St I C) := do
  let si := st.ss.length
  let s : Segment C := ⟨niMin, niMax, cMin, cMax⟩
  let l ← of (addSegmentStart st niMin niMax cMin cMax)
  let l ← addSegmentLoopT si s fuel l
  let ns ← of (Nexus.addSegment l.st.ns l.st.ss niMin si l.tiUpright)
  let st' : St I C := { l.st with ns := ns }
  of (st'.debugCheck cfg fuel)
  pure st'

variable [Scalar C] [DecidableEq I]

/-- The inner `add_vertex` of `add_nth_segment` (`trapezoidation.rs:294-302`), counting. -/
def addVertexVLT (cfg : Cfg) (fuel : Nat) (p : PolyList I V) (xy : V → Coords C) (st : St I C)
    (vls : List (VLoc I C)) (vli : Nat) (vi : I) (qi : Nat) :
    Cnt IErr (St I C × List (VLoc I C) × Nat) := do
  let (st', ni) ← st.addVertexT cfg fuel p xy vi qi
  let vl ← of (getP vls vli)
  pure (st', vls.set vli (.inserted vl.coords ni), ni)

/-- First half of `add_nth_segment` (`trapezoidation.rs:304-330`), counting. -/
def addEndsT (cfg : Cfg) (fuel : Nat) (p : PolyList I V) (xy : V → Coords C) (st : St I C)
    (vls : List (VLoc I C)) (si : Nat) : Cnt IErr (St I C × List (VLoc I C) × Nat × Nat × Nat) := do
  let vli0 := si
  let vli1 := (si + 1) % vls.length
  let vl0 ← of (getP vls vli0)
  let vl1 ← of (getP vls vli1)
  match vl0, vl1 with
  | .pending c0 i0 q0, .pending c1 i1 q1 =>
    if c0.ltB c1 then do
      let (st, vls, ni0) ← addVertexVLT cfg fuel p xy st vls vli0 i0 q0
      let (st, vls, ni1) ← addVertexVLT cfg fuel p xy st vls vli1 i1 q1
      pure (st, vls, ni0, ni1, 2)
    else do
      let (st, vls, ni1) ← addVertexVLT cfg fuel p xy st vls vli1 i1 q1
      let (st, vls, ni0) ← addVertexVLT cfg fuel p xy st vls vli0 i0 q0
      pure (st, vls, ni0, ni1, 2)
  | .pending _ i0 q0, .inserted _ ni1 => do
    let (st, vls, ni0) ← addVertexVLT cfg fuel p xy st vls vli0 i0 q0
    pure (st, vls, ni0, ni1, 1)
  | .inserted _ ni0, .pending _ i1 q1 => do
    let (st, vls, ni1) ← addVertexVLT cfg fuel p xy st vls vli1 i1 q1
    pure (st, vls, ni0, ni1, 1)
  | .inserted _ ni0, .inserted _ ni1 => pure (st, vls, ni0, ni1, 0)

/-- `add_nth_segment` (`trapezoidation.rs:292-347`), counting. -/
def addNthSegmentT (cfg : Cfg) (fuel : Nat) (p : PolyList I V) (xy : V → Coords C) (st : St I C)
    (vls : List (VLoc I C)) (si : Nat) : Cnt IErr (St I C × List (VLoc I C) × Nat) := do
  let (st, vls, ni0, ni1, added) ← addEndsT cfg fuel p xy st vls si
  let n0 ← of (getU st.ns ni0)
  let n1 ← of (getU st.ns ni1)
  let st ← (if n0.c.ltB n1.c then st.addSegmentT cfg fuel ni0 ni1 n0.c n1.c
    else st.addSegmentT cfg fuel ni1 ni0 n1.c n0.c : Cnt IErr _)
  pure (st, vls, added)

/-- The inner `while` of the relocation (`trapezoidation.rs:417-422`), counting. -/
def walkT (st : St I C) (dir : Dir) (cOrigin cTarget : Coords C) : Nat → Nat → Cnt IErr Nat
  | 0, _ => of (.error .timeout)
  | fuel + 1, ti => do
    tick
    let t ← of (getU st.ts ti)
    let done ← of (reached st.ns t dir cTarget)
    if done then pure ti
    else
      match (match dir with | .asc => t.up | .desc => t.down) with
      | none => of (.error (.err .containingNotFound))
      | some ni => do
        let n ← of (getU st.ns ni)
        walkT st dir cOrigin cTarget fuel (n.getTrapezoidBetweenCoords dir cOrigin cTarget)

/-- One iteration of the relocation loop (`trapezoidation.rs:397-430`), counting. -/
def relocStepT (fuel : Nat) (st : St I C) (r : Reloc I C) : Cnt IErr (Reloc I C) := do
  let target := (r.target + 1) % r.vls.length
  match ← of (getP r.vls target) with
  | .inserted _ ni => do
    let n ← of (getU st.ns ni)
    pure { r with target := target, loc := .nexus ni, cOrigin := n.c }
  | .pending cT vi _ => do
    let dir := if cT.gtB r.cOrigin then Dir.asc else Dir.desc
    let ti ← of (startTrapezoid st r.loc dir cT)
    let ti ← walkT st dir r.cOrigin cT fuel ti
    let unlocated ← of (subP r.unlocated 1)
    let t ← of (getU st.ts ti)
    pure ⟨r.vls.set target (.pending cT vi t.sink), unlocated, target, .trapezoid ti, cT⟩

/-- The relocation loop (`trapezoidation.rs:396-431`), counting. -/
def relocLoopT (fuel : Nat) (st : St I C) : Nat → Reloc I C → Cnt IErr (List (VLoc I C))
  | 0, _ => of (.error .timeout)
  | k + 1, r =>
    if r.unlocated = 0 then pure r.vls
    else do
      tick
      let r' ← relocStepT fuel st r
      relocLoopT fuel st k r'

/-- The relocation block (`trapezoidation.rs:384-431`), counting. -/
def relocateT (fuel : Nat) (st : St I C) (vls : List (VLoc I C)) (vi0 pending : Nat) :
    Cnt IErr (List (VLoc I C)) :=
  relocLoopT fuel st fuel ⟨vls, pending, vi0, .nexus 0, Coords.zero⟩

/-- One iteration of the loop of `add_polygon` (`trapezoidation.rs:363-435`), counting. -/
def polyStepT (cfg : Cfg) (fuel : Nat) (p : PolyList I V) (xy : V → Coords C) (l : PolyLoop I C)
    (vi0 : Nat) : Cnt IErr (PolyLoop I C) := do
  tick
  let (st, vls, added) ← addNthSegmentT cfg fuel p xy l.st l.vls vi0
  let pending ← of (subP l.pending added)
  if l.i = l.nextUpdate then do
    let vls ← relocateT fuel st vls vi0 pending
    let updateCount := l.updateCount + 1
    pure ⟨st, vls, pending, l.i + 1, updateCount, cfg.mathN vls.length updateCount⟩
  else pure ⟨st, vls, pending, l.i + 1, l.updateCount, l.nextUpdate⟩

/-- `TrapezoidationState::add_polygon` (`trapezoidation.rs:290-439`) for the `k`-th polygon, counting. -/
def addPolygonT (cfg : Cfg) (fuel : Nat) (p : PolyList I V) (xy : V → Coords C) (k : Nat)
    (st : St I C) (vls : List (VLoc I C)) : Cnt IErr (St I C) := do
  let len := vls.length
  let l ← (cfg.order k len).foldlM (polyStepT cfg fuel p xy) ⟨st, vls, len, 0, 1, cfg.mathN len 1⟩
  pure l.st

/-- One iteration of the loop of `build` (`trapezoidation.rs:267-283`), counting. -/
def buildStepT (cfg : Cfg) (fuel : Nat) (p : PolyList I V) (xy : V → Coords C) (l : BuildLoop I C)
    (e : Option (Elem I)) : Cnt TrapErr (BuildLoop I C) :=
  match e with
  | none => of (.error .panic)
  | some (.cont i) => do
    let c ← of (p.coords xy i)
    pure { l with vLookup := l.vLookup ++ [.pending c i 0] }
  | some .newPolygon =>
    if l.vLookup.length > 0 then
      if l.vLookup.length < 3 then of (.error (.err (.notEnoughVertices l.vLookup.length)))
      else do
        let st ← mapErr .internal (addPolygonT cfg fuel p xy l.k l.st l.vLookup)
        pure ⟨st, [], l.k + 1⟩
    else pure l

/-- `TrapezoidationState::build` (`trapezoidation.rs:257-287`), counting. -/
def buildT (cfg : Cfg) (fuel : Nat) (p : PolyList I V) (xy : V → Coords C) : Cnt TrapErr (St I C) := do
  let l ← (p.elems ++ [some Elem.newPolygon]).foldlM (buildStepT cfg fuel p xy) ⟨St.init, [], 0⟩
  pure l.st

end St

/-- `PolygonList::trapezoidize` (`inputs/polygon_list.rs:172-174`) and `Polygon::trapezoidize` (`116-118`), with the
number of loop iterations until it ends, however it ends. -/
def trapezoidizeT [Scalar C] [DecidableEq I] (cfg : Cfg) (fuel : Nat) (p : PolyList I V)
    (xy : V → Coords C) : Cnt TrapErr (St I C) :=
  St.buildT cfg fuel p xy

end Tri
