import Verif.Model.Trapezoidation

/-!
# The trapezoidation on a machine with words of a fixed length

The other files of the model count with natural numbers and let vectors grow without limit.  Here are

* `Idx<T>` (`idx.rs`) as it is: a machine word that is not zero, one more than the index it stands for;
* the functions of `Model/Trapezoidation.lean` that compute with `usize` or make a vector longer, once more, with arithmetic that can
  overflow and vectors that can become too long.

In a build with debug assertions an overflow panics, in one without it wraps around (the defaults of Cargo's profiles).  A `Vec` cannot have
more than `isize::MAX` bytes; an attempt panics ("capacity overflow").  Simplified: the allocator never fails (if it does, the process is aborted), and
the stack has no limit.
-/

namespace Tri

variable {ε : Type}

/-! ## `idx.rs` -/

/-- `usize` addition. -/
def uadd {w : Nat} (debug : Bool) (a b : BitVec w) : Res ε (BitVec w) :=
  if a.toNat + b.toNat < 2 ^ w then .ok (a + b) else if debug then .error .panic else .ok (a + b)

/-- `Idx<T>` (`idx.rs:4`) on a machine with `w` bits. -/
abbrev Idx (w : Nat) : Type := { b : BitVec w // b ≠ 0 }

namespace Idx

variable {w : Nat} (debug : Bool)

/-- `Idx::new` (`idx.rs:23-26`); `new_unchecked(0)` is undefined behaviour. -/
def new (index : BitVec w) : Res ε (Idx w) := do
  let index ← uadd debug index 1
  if h : index = 0 then .error .ub else .ok ⟨index, h⟩

/-- `Idx::usize` (`idx.rs:75-77`). -/
def usize (i : Idx w) : BitVec w := i.1 - 1

/-- `impl ops::Add<usize> for Idx<T>` (`idx.rs:106-112`). -/
def add (i : Idx w) (n : BitVec w) : Res ε (Idx w) := do
  let s ← uadd debug i.usize n
  new debug s

/-- `impl ops::Sub<usize> for Idx<T>` (`idx.rs:122-129`). -/
def sub (i : Idx w) (n : BitVec w) : Res ε (Idx w) :=
  if n ≤ i.usize then new debug (i.usize - n) else .error .panic

/-- `Idx::next_wrapped` (`idx.rs:40-45`) for a slice with `len` elements. -/
def nextWrapped (len : BitVec w) (i : Idx w) : Res ε (Idx w) :=
  if len = 0 then .error .panic
  else do
    let s ← uadd debug i.usize 1
    new debug (s % len)

/-- `Idx::prev_wrapped` (`idx.rs:62-73`) for a slice with `len` elements. -/
def prevWrapped (len : BitVec w) (i : Idx w) : Res ε (Idx w) :=
  if len = 0 then .error .panic
  else new debug ((if i.usize = 0 then len else i.usize) - 1)

/-- `Idx::advance` (`idx.rs:28-32`): the new value of `self`. -/
def advance (i : Idx w) : Res ε (Idx w) := do
  let s ← uadd debug i.usize 1
  new debug s

/-- `Idx::recede` (`idx.rs:47-54`): the new value of `self`. -/
def recede (i : Idx w) : Res ε (Idx w) :=
  if 0 < i.usize then new debug (i.usize - 1) else .ok i

end Idx

/-! ## Natural numbers that have to fit -/

/-- A machine: the bits of a `usize`, and the largest number of elements of a vector of nexuses, segments, trapezoids, query nodes, vertex locations,
`usize`s, vertices of a chain (`monotone.rs:9`), waiting branches and waiting chains (`trapezoidation.rs:704`, `709`): `isize::MAX` divided by the size
of an element. -/
structure Machine where
  bits : Nat
  ns : Nat
  ss : Nat
  ts : Nat
  qs : Nat
  vls : Nat
  us : Nat
  chain : Nat
  branches : Nat
  chains : Nat

/-- A `usize` has 16 bits at least, and no vector has more elements than `isize::MAX`, as no type of elements here has size zero. -/
structure Machine.Valid (M : Machine) : Prop where
  bits : 16 ≤ M.bits
  room : ∀ n ∈ [M.ns, M.ss, M.ts, M.qs, M.vls, M.us, M.chain, M.branches, M.chains], n < 2 ^ (M.bits - 1)

namespace Machine

variable (M : Machine) (debug : Bool)

/-- `usize` addition; a sum that wraps around is reduced. -/
def add (a b : Nat) : Res ε Nat :=
  if a + b < 2 ^ M.bits then .ok (a + b) else if debug then .error .panic else .ok ((a + b) % 2 ^ M.bits)

/-- `usize` subtraction. -/
def sub (a b : Nat) : Res ε Nat :=
  if b ≤ a then .ok (a - b) else if debug then .error .panic else .ok (a + 2 ^ M.bits - b)

/-- `usize` multiplication. -/
def mul (a b : Nat) : Res ε Nat :=
  if a * b < 2 ^ M.bits then .ok (a * b) else if debug then .error .panic else .ok ((a * b) % 2 ^ M.bits)

/-- `Idx::new` (`idx.rs:23-26`). -/
def new (i : Nat) : Res ε Nat :=
  if i + 1 < 2 ^ M.bits then .ok i else if debug then .error .panic else .error .ub

/-- `Vec::push`, for a vector that can have `room` elements. -/
def push {α : Type} (room : Nat) (xs : List α) (x : α) : Res ε (List α) :=
  if xs.length < room then .ok (xs ++ [x]) else .error .panic

/-- `Vec::with_capacity` for `n` elements, if the vector can have `room` elements. -/
def capacity (room n : Nat) : Res ε Unit := if n ≤ room then .ok () else .error .panic

end Machine

open Machine

variable {I V C : Type}

namespace St

/-- The allocations of `TrapezoidationState::new` (`trapezoidation.rs:186-213`) and of `build` (`trapezoidation.rs:263`). -/
def newW (M : Machine) (debug : Bool) (vertexCount : Nat) : Res ε (St I C) := do
  let q ← M.mul debug vertexCount 4
  capacity M.qs q
  let ti ← M.new debug 0
  let qi ← M.new debug 0
  let qs ← push M.qs [] (.sink ti)
  let t ← M.mul debug vertexCount 2
  let t ← M.add debug t 1
  capacity M.ts t
  let ts ← push M.ts [] (Trapezoid.all qi)
  capacity M.ns vertexCount
  capacity M.ss vertexCount
  capacity M.vls vertexCount
  .ok ⟨[], [], ts, qs⟩

/-- Lines 445-465 of `TrapezoidationState::add_vertex` (`trapezoidation.rs`). -/
def addVertexAtW (M : Machine) (debug : Bool) (st : St I C) (vi : I) (c : Coords C) (qiParent ti : Nat) :
    Res IErr (St I C) := do
  let tiNew ← M.new debug st.ts.length
  let qiDown ← M.new debug st.qs.length
  let qiUp ← M.add debug qiDown 1
  let qiUp ← M.new debug qiUp
  let ni ← M.new debug st.ns.length
  let ns ← push M.ns st.ns (Nexus.new vi c tiNew ti)
  let qLeft ← getP st.qs qiParent
  let qs ← modP st.qs qiParent fun _ => .branch qiDown qiUp (.Y c)
  let ts ← modP st.ts ti (Trapezoid.setSink qiDown)
  let qs ← push M.qs qs qLeft
  let qs ← push M.qs qs (.sink tiNew)
  let t ← getP ts ti
  let (tLow, tNew) := t.splitHorizontal qiDown qiUp ni
  let ts := ts.set ti tLow
  let ns ← replaceAt ns tNew.up ti tiNew
  let ts ← push M.ts ts tNew
  .ok ⟨ns, st.ss, ts, qs⟩

/-- `check_consistency_query_node` (`trapezoidation.rs:577-592`) with the number of visits that it returns. -/
def checkQueryW (M : Machine) (debug : Bool) (st : St I C) : Nat → Nat → Res IErr Nat
  | 0, _ => .error .timeout
  | fuel + 1, qi => do
    match ← getU st.qs qi with
    | .branch l r _ => do
      let a ← checkQueryW M debug st fuel l
      let b ← checkQueryW M debug st fuel r
      let s ← M.add debug a b
      M.add debug s 1
    | .sink ti => do
      let _ ← getU st.ts ti
      M.add debug 0 1

/-- `check_consistency` under `cfg(debug_assertions)` (`trapezoidation.rs:560-575`). -/
def debugCheckW (M : Machine) (cfg : Cfg) (fuel : Nat) (st : St I C) : Res IErr Unit :=
  if cfg.debug then do
    (List.range st.ns.length).forM st.checkNexus
    (List.range st.ts.length).forM st.checkTrapezoid
    let _ ← st.checkQueryW M cfg.debug fuel 0
    .ok ()
  else .ok ()

/-- `TrapezoidationState::add_vertex` (`trapezoidation.rs:442-470`). -/
def addVertexW [Scalar C] (M : Machine) (cfg : Cfg) (fuel : Nat) (p : PolyList I V) (xy : V → Coords C)
    (st : St I C) (vi : I) (qiRoot : Nat) : Res IErr (St I C × Nat) := do
  let c ← p.coords xy vi
  let (qiParent, ti) ← find st.qs c fuel qiRoot
  let st' ← st.addVertexAtW M cfg.debug vi c qiParent ti
  st'.debugCheckW M cfg fuel
  .ok (st', st.ns.length)

/-- `TrapezoidationState::add_segment` up to the loop (`trapezoidation.rs:473-504`). -/
def addSegmentStartW [Scalar C] [DecidableEq I] (M : Machine) (debug : Bool) (st : St I C) (niMin niMax : Nat)
    (cMin cMax : Coords C) : Res IErr (SegLoop I C) := do
  let si ← M.new debug st.ss.length
  let s : Segment C := ⟨niMin, niMax, cMin, cMax⟩
  let ss ← push M.ss st.ss s
  let nMax ← getU st.ns niMax
  let ti ← nMax.getDownTrapezoidInDirection st.ns ss s
  let t ← getU st.ts ti
  let tiNew ← M.new debug st.ts.length
  let qiLeft ← M.new debug st.qs.length
  let qiRight ← M.add debug qiLeft 1
  let qiRight ← M.new debug qiRight
  let qLeft ← getP st.qs t.sink
  let qs ← modP st.qs t.sink fun _ => .branch qiLeft qiRight (.X cMin cMax)
  let ts ← modP st.ts ti (Trapezoid.setSink qiLeft)
  let qs ← push M.qs qs qLeft
  let qs ← push M.qs qs (.sink tiNew)
  let t ← getP ts ti
  let (tLeft, tNew) := t.splitVertical qiLeft qiRight si
  let ts ← push M.ts (ts.set ti tLeft) tNew
  let ns ← Nexus.addSegment st.ns ss niMax si tiNew
  let t ← getU ts ti
  match t.down with
  | none => .error (.err .segMinNotFound)
  | some ni => do
    let n ← getU ns ni
    let ns ← replaceAt ns (if ni ≠ niMin ∧ s.isOnLeft n.c = false then some ni else none) ti tiNew
    .ok ⟨⟨ns, ss, ts, qs⟩, ni, ti, tiNew⟩

/-- One iteration of the loop of `add_segment` (`trapezoidation.rs:507-544`); simplified as `addSegmentStep` is. -/
def addSegmentStepW [Scalar C] [DecidableEq I] (M : Machine) (debug : Bool) (si : Nat) (s : Segment C) (l : SegLoop I C) :
    Res IErr (SegLoop I C) := do
  let st := l.st
  let n ← getU st.ns l.ni
  let ti ← n.getDownTrapezoidInDirection st.ns st.ss s
  let t ← getU st.ts ti
  match t.down with
  | none => .error (.err .segMinNotFound)
  | some ni => do
    let tUpleft ← getU st.ts l.tiUpleft
    let tUpright ← getU st.ts l.tiUpright
    if t.right = tUpright.right then do
      let qiLeft ← M.new debug st.qs.length
      let qLeft ← getP st.qs t.sink
      let qs ← modP st.qs t.sink fun _ => .branch qiLeft tUpright.sink (.X s.cMin s.cMax)
      let ts ← modP st.ts ti (Trapezoid.setSink qiLeft)
      let qs ← push M.qs qs qLeft
      let ts ← modP ts ti (Trapezoid.setRight si)
      let ts ← modP ts l.tiUpright (Trapezoid.setDown ni)
      let n ← getU st.ns ni
      let ns ← replaceAt st.ns
        (if ni ≠ s.niMin ∧ s.isOnLeft n.c = false then some ni else none) ti l.tiUpright
      .ok ⟨⟨ns, st.ss, ts, qs⟩, ni, ti, l.tiUpright⟩
    else if t.left = tUpleft.left then do
      let qiRight ← M.new debug st.qs.length
      let qRight ← getP st.qs t.sink
      let qs ← modP st.qs t.sink fun _ => .branch tUpleft.sink qiRight (.X s.cMin s.cMax)
      let ts ← modP st.ts ti (Trapezoid.setSink qiRight)
      let qs ← push M.qs qs qRight
      let ts ← modP ts ti (Trapezoid.setLeft si)
      let ts ← modP ts l.tiUpleft (Trapezoid.setDown ni)
      let n ← getU st.ns ni
      let ns ← replaceAt st.ns
        (if ni = s.niMin ∨ s.isOnLeft n.c = true then some ni else none) ti l.tiUpleft
      .ok ⟨⟨ns, st.ss, ts, qs⟩, ni, l.tiUpleft, ti⟩
    else .error (.err .noMatchingSide)

/-- The loop of `add_segment` (`trapezoidation.rs:506-548`). -/
def addSegmentLoopW [Scalar C] [DecidableEq I] (M : Machine) (debug : Bool) (si : Nat) (s : Segment C) :
    Nat → SegLoop I C → Res IErr (SegLoop I C)
  | 0, _ => .error .timeout
  | fuel + 1, l =>
    if l.ni = s.niMin then .ok l
    else do
      let l' ← addSegmentStepW M debug si s l
      addSegmentLoopW M debug si s fuel l'

/-- `TrapezoidationState::add_segment` (`trapezoidation.rs:472-558`). -/
def addSegmentW [Scalar C] [DecidableEq I] (M : Machine) (cfg : Cfg) (fuel : Nat) (st : St I C)
    (niMin niMax : Nat) (cMin cMax : Coords C) : Res IErr (St I C) := do
  let si := st.ss.length
  let s : Segment C := ⟨niMin, niMax, cMin, cMax⟩
  let l ← addSegmentStartW M cfg.debug st niMin niMax cMin cMax
  let l ← addSegmentLoopW M cfg.debug si s fuel l
  let ns ← Nexus.addSegment l.st.ns l.st.ss niMin si l.tiUpright
  let st' : St I C := { l.st with ns := ns }
  st'.debugCheckW M cfg fuel
  .ok st'

variable [Scalar C] [DecidableEq I]

/-- The inner `add_vertex` of `add_nth_segment` (`trapezoidation.rs:294-302`). -/
def addVertexVLW (M : Machine) (cfg : Cfg) (fuel : Nat) (p : PolyList I V) (xy : V → Coords C) (st : St I C)
    (vls : List (VLoc I C)) (vli : Nat) (vi : I) (qi : Nat) :
    Res IErr (St I C × List (VLoc I C) × Nat) := do
  let (st', ni) ← st.addVertexW M cfg fuel p xy vi qi
  let vl ← getP vls vli
  .ok (st', vls.set vli (.inserted vl.coords ni), ni)

/-- First half of `add_nth_segment` (`trapezoidation.rs:304-330`). -/
def addEndsW (M : Machine) (cfg : Cfg) (fuel : Nat) (p : PolyList I V) (xy : V → Coords C) (st : St I C)
    (vls : List (VLoc I C)) (si : Nat) :
    Res IErr (St I C × List (VLoc I C) × Nat × Nat × Nat) := do
  let vli0 := si
  let vli1 ← M.add cfg.debug si 1
  let vli1 := vli1 % vls.length
  let vl0 ← getP vls vli0
  let vl1 ← getP vls vli1
  match vl0, vl1 with
  | .pending c0 i0 q0, .pending c1 i1 q1 =>
    if c0.ltB c1 then do
      let (st, vls, ni0) ← addVertexVLW M cfg fuel p xy st vls vli0 i0 q0
      let (st, vls, ni1) ← addVertexVLW M cfg fuel p xy st vls vli1 i1 q1
      .ok (st, vls, ni0, ni1, 2)
    else do
      let (st, vls, ni1) ← addVertexVLW M cfg fuel p xy st vls vli1 i1 q1
      let (st, vls, ni0) ← addVertexVLW M cfg fuel p xy st vls vli0 i0 q0
      .ok (st, vls, ni0, ni1, 2)
  | .pending _ i0 q0, .inserted _ ni1 => do
    let (st, vls, ni0) ← addVertexVLW M cfg fuel p xy st vls vli0 i0 q0
    .ok (st, vls, ni0, ni1, 1)
  | .inserted _ ni0, .pending _ i1 q1 => do
    let (st, vls, ni1) ← addVertexVLW M cfg fuel p xy st vls vli1 i1 q1
    .ok (st, vls, ni0, ni1, 1)
  | .inserted _ ni0, .inserted _ ni1 => .ok (st, vls, ni0, ni1, 0)

/-- `add_nth_segment` (`trapezoidation.rs:292-347`). -/
def addNthSegmentW (M : Machine) (cfg : Cfg) (fuel : Nat) (p : PolyList I V) (xy : V → Coords C) (st : St I C)
    (vls : List (VLoc I C)) (si : Nat) : Res IErr (St I C × List (VLoc I C) × Nat) := do
  let (st, vls, ni0, ni1, added) ← addEndsW M cfg fuel p xy st vls si
  let n0 ← getU st.ns ni0
  let n1 ← getU st.ns ni1
  let st ← (if n0.c.ltB n1.c then st.addSegmentW M cfg fuel ni0 ni1 n0.c n1.c
    else st.addSegmentW M cfg fuel ni1 ni0 n1.c n0.c : Res IErr _)
  .ok (st, vls, added)

/-- One iteration of the relocation loop (`trapezoidation.rs:397-430`). -/
def relocStepW (M : Machine) (debug : Bool) (fuel : Nat) (st : St I C) (r : Reloc I C) : Res IErr (Reloc I C) := do
  let target ← M.add debug r.target 1
  let target := target % r.vls.length
  match ← getP r.vls target with
  | .inserted _ ni => do
    let n ← getU st.ns ni
    .ok { r with target := target, loc := .nexus ni, cOrigin := n.c }
  | .pending cT vi _ => do
    let dir := if cT.gtB r.cOrigin then Dir.asc else Dir.desc
    let ti ← startTrapezoid st r.loc dir cT
    let ti ← walk st dir r.cOrigin cT fuel ti
    let unlocated ← subP r.unlocated 1
    let t ← getU st.ts ti
    .ok ⟨r.vls.set target (.pending cT vi t.sink), unlocated, target, .trapezoid ti, cT⟩

/-- The relocation loop (`trapezoidation.rs:396-431`). -/
def relocLoopW (M : Machine) (debug : Bool) (fuel : Nat) (st : St I C) : Nat → Reloc I C → Res IErr (List (VLoc I C))
  | 0, _ => .error .timeout
  | k + 1, r =>
    if r.unlocated = 0 then .ok r.vls
    else do
      let r' ← relocStepW M debug fuel st r
      relocLoopW M debug fuel st k r'

/-- The relocation block (`trapezoidation.rs:384-431`). -/
def relocateW (M : Machine) (debug : Bool) (fuel : Nat) (st : St I C) (vls : List (VLoc I C)) (vi0 pending : Nat) :
    Res IErr (List (VLoc I C)) := do
  let ni ← M.new debug 0
  relocLoopW M debug fuel st fuel ⟨vls, pending, vi0, .nexus ni, Coords.zero⟩

/-- One iteration of the loop of `add_polygon` (`trapezoidation.rs:363-435`).  The count of `enumerate` does not overflow, as the
vector of segments has fewer elements. -/
def polyStepW (M : Machine) (cfg : Cfg) (fuel : Nat) (p : PolyList I V) (xy : V → Coords C) (l : PolyLoop I C)
    (vi0 : Nat) : Res IErr (PolyLoop I C) := do
  let (st, vls, added) ← addNthSegmentW M cfg fuel p xy l.st l.vls vi0
  let pending ← subP l.pending added
  if l.i = l.nextUpdate then do
    let vls ← relocateW M cfg.debug fuel st vls vi0 pending
    let updateCount ← M.add cfg.debug l.updateCount 1
    .ok ⟨st, vls, pending, l.i + 1, updateCount, cfg.mathN vls.length updateCount⟩
  else .ok ⟨st, vls, pending, l.i + 1, l.updateCount, l.nextUpdate⟩

/-- `TrapezoidationState::add_polygon` (`trapezoidation.rs:290-439`) for the `k`-th polygon; `segment_order` (`trapezoidation.rs:354`) is a vector
of `usize`s. -/
def addPolygonW (M : Machine) (cfg : Cfg) (fuel : Nat) (p : PolyList I V) (xy : V → Coords C) (k : Nat)
    (st : St I C) (vls : List (VLoc I C)) : Res IErr (St I C) := do
  let len := vls.length
  capacity M.us len
  let l ← (cfg.order k len).foldlM (polyStepW M cfg fuel p xy) ⟨st, vls, len, 0, 1, cfg.mathN len 1⟩
  .ok l.st

/-- One iteration of the loop of `build` (`trapezoidation.rs:267-283`). -/
def buildStepW (M : Machine) (cfg : Cfg) (fuel : Nat) (p : PolyList I V) (xy : V → Coords C) (l : BuildLoop I C) :
    Option (Elem I) → Res TrapErr (BuildLoop I C)
  | none => .error .panic
  | some (.cont i) => do
    let c ← p.coords xy i
    let root ← M.new cfg.debug 0
    let vLookup ← push M.vls l.vLookup (.pending c i root)
    .ok { l with vLookup := vLookup }
  | some .newPolygon =>
    if l.vLookup.length > 0 then
      if l.vLookup.length < 3 then .error (.err (.notEnoughVertices l.vLookup.length))
      else do
        let st ← Res.mapErr .internal (addPolygonW M cfg fuel p xy l.k l.st l.vLookup)
        .ok ⟨st, [], l.k + 1⟩
    else .ok l

end St

/-- `PolygonList::trapezoidize` (`inputs/polygon_list.rs:172-174`) and `Polygon::trapezoidize` (`116-118`), on the machine `M`:
`TrapezoidationState::new` (`trapezoidation.rs:186-213`) and `build` (`trapezoidation.rs:257-287`). -/
def trapezoidizeW [Scalar C] [DecidableEq I] (M : Machine) (cfg : Cfg) (fuel : Nat) (p : PolyList I V)
    (xy : V → Coords C) : Res TrapErr (St I C) := do
  let st ← St.newW M cfg.debug p.vertexCount
  let l ← (p.elems ++ [some Elem.newPolygon]).foldlM (St.buildStepW M cfg fuel p xy) ⟨st, [], 0⟩
  .ok l.st

end Tri
