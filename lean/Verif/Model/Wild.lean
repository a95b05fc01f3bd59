import Verif.Model.Trapezoidation

/-!
# Model of trapezoidation with user code that may answer anything

The other model files treat the user's implementations of `PolygonList`, `Vertex`, `Real`, `PartialOrd`, `Eq` and
`Clone` as functions: asked twice, they answer the same.  Safe Rust code need not: it can keep a counter, and it can
panic.  Here every call of user code has an arbitrary result, independent of its arguments and of earlier results.

A computation is the set of its possible outcomes.  Everything that does not call user code is taken from
`Model/Trapezoidation.lean` and `Model/Trap.lean` unchanged.
-/

namespace Tri

variable {I C : Type}

/-- The possible outcomes of a computation that calls user code. -/
def Wild (ε α : Type) : Type := Res ε α → Prop

namespace Wild

variable {ε ε' α : Type}

instance : Monad (Wild ε) where
  pure a := fun r => r = .ok a
  bind X K := fun r => ∃ x, X x ∧
    match x with
    | .ok a => K a r
    | .error e => r = .error e

instance : MonadLift (Except (Fault ε)) (Wild ε) where
  monadLift x := fun r => r = x

/-- The computation stops. -/
def stop (e : Fault ε) : Wild ε α := fun r => r = .error e

/-- `map_err`. -/
def mapErr (f : ε → ε') (X : Wild ε α) : Wild ε' α := fun r => ∃ x, X x ∧ r = Res.mapErr f x

/-- A call of user code: any result at all or, if `up`, a panic. -/
def call (up : Bool) (α : Type) : Wild ε α := fun r => (∃ a, r = .ok a) ∨ (up = true ∧ r = .error .panic)

/-- A test that depends on user code: `is_left_of_line` (`math.rs:5-13`), a comparison of coordinates
(`inputs/vertex.rs:54-64`) or `==` on vertex indices (`inputs/vertex_index.rs:4`). -/
abbrev ask (up : Bool) : Wild ε Bool := call up Bool

/-- An error whose message is formatted with user code (`trapezoidation.rs:420`, `inputs/vertex.rs:42-52`). -/
def stopOr (up : Bool) (e : Fault ε) : Wild ε α := fun r => r = .error e ∨ (up = true ∧ r = .error .panic)

/-- `Tri.getU`: an unchecked read. -/
def getU (xs : List α) (i : Nat) : Wild ε α := fun r => r = Tri.getU xs i

/-- `Tri.getP`: a checked read. -/
def getP (xs : List α) (i : Nat) : Wild ε α := fun r => r = Tri.getP xs i

/-- `Tri.modP`: a checked write. -/
def modP (xs : List α) (i : Nat) (f : α → α) : Wild ε (List α) := fun r => r = Tri.modP xs i f

/-- `Tri.subP`: a checked subtraction. -/
def subP (a b : Nat) : Wild ε Nat := fun r => r = Tri.subP a b

/-- `find_trapezoid_from_root` (`trapezoidation.rs:30-51`). -/
def find (up : Bool) (qs : List (QueryNode C)) : Nat → Nat → Wild IErr (Nat × Nat)
  | 0, _ => stop .timeout
  | fuel + 1, qi => do
    let q ← getU qs qi
    match q with
    | .branch l r _ => do
      let b ← ask up
      find up qs fuel (if b then l else r)
    | .sink ti => pure (qi, ti)

/-- The order of a second divider (`nexus.rs:164-174`). -/
def swapDividers (up : Bool) (ns : List (Nexus I C)) (ss : List (Segment C)) (div0 div : Divider) :
    Wild IErr Bool :=
  if div0.dir = div.dir then do
    let _ ← getP ss div0.si
    let s1 ← getP ss div.si
    let _ ← getP ns (match div.dir with | .asc => s1.niMax | .desc => s1.niMin)
    ask up
  else pure (decide (div.dir = .asc))

/-- `Nexus::add_segment` (`nexus.rs:156-184`). -/
def nexusAddSegment (up : Bool) (ns : List (Nexus I C)) (ss : List (Segment C)) (ni si tiRight : Nat) :
    Wild IErr (List (Nexus I C)) := do
  let dir ← Nexus.getSegmentDirection ss ni si
  let div : Divider := ⟨si, tiRight, dir⟩
  let n ← getP ns ni
  match n.dividers with
  | .zero => pure (ns.set ni { n with dividers := .one div })
  | .one div0 => do
    let swap ← swapDividers up ns ss div0 div
    if swap then pure (ns.set ni { n with dividers := .two div div0 })
    else pure (ns.set ni { n with dividers := .two div0 div })
  | .two _ _ => stop (.err .alreadyTwo)

/-- The reads before the test in `Nexus::get_down_trapezoid_in_direction` (`nexus.rs:228-234`).  `vertex()` clones the
index (`nexus.rs:132`). -/
def downTest (up : Bool) (ns : List (Nexus I C)) (ss : List (Segment C)) (s : Segment C) (divR : Divider) :
    Wild IErr Unit := do
  let _ ← getP ns s.niMin
  let same ← ask up
  if same then stop (.err .invalidSegNexus)
  else do
    let _ ← getP ns s.niMax
    let same ← ask up
    if same then do
      let sr ← getP ss divR.si
      let _ ← getP ns sr.niMin
      pure ()
    else pure ()

/-- `Nexus::get_down_trapezoid_in_direction` (`nexus.rs:223-242`). -/
def downDir (up : Bool) (n : Nexus I C) (ns : List (Nexus I C)) (ss : List (Segment C)) (s : Segment C) :
    Wild IErr Nat :=
  match (n.filterDividers .desc).last with
  | none => pure n.tiDownleft
  | some divR => do
    downTest up ns ss s divR
    let left ← ask up
    if left then pure divR.tiRight else pure n.tiDownleft

/-- `Nexus::get_trapezoid_between_coords` (`nexus.rs:244-268`). -/
def between (up : Bool) (n : Nexus I C) (dir : Dir) : Wild IErr Nat :=
  match (n.filterDividers dir).last with
  | none => pure (n.leftmost dir)
  | some divR => do
    let left ← ask up
    if left then pure divR.tiRight else pure (n.leftmost dir)

/-- `Nexus::get_trapezoid_toward_coords` (`nexus.rs:270-289`). -/
def toward (up : Bool) (n : Nexus I C) (ss : List (Segment C)) (ns : List (Nexus I C)) (dir : Dir) :
    Wild IErr Nat :=
  match n.filterDividers dir with
  | .zero => pure (n.leftmost dir)
  | .one div => do
    let s ← getP ss div.si
    let _ ← getP ns s.niMin
    let _ ← getP ns s.niMax
    let left ← ask up
    if left then pure (n.leftmost dir) else pure div.tiRight
  | .two _ _ => stop (.err .fewerThanTwo)

/-- `TrapezoidationState::add_vertex` (`trapezoidation.rs:442-470`).  The coordinates are asked for twice (lines 443
and 450), and the index is cloned. -/
def addVertex (up : Bool) (cfg : Cfg) (fuel : Nat) (st : St I C) (qiRoot : Nat) : Wild IErr (St I C × Nat) := do
  let _ ← call up (Coords C)
  let (qiParent, ti) ← find up st.qs fuel qiRoot
  let c ← call up (Coords C)
  let vi ← call up I
  let st' ← st.addVertexAt vi c qiParent ti
  st'.debugCheck cfg fuel
  pure (st', st.ns.length)

/-- `TrapezoidationState::add_segment` up to the loop (`trapezoidation.rs:473-504`). -/
def addSegmentStart (up : Bool) (st : St I C) (niMin niMax : Nat) (cMin cMax : Coords C) :
    Wild IErr (St.SegLoop I C) := do
  let si := st.ss.length
  let s : Segment C := ⟨niMin, niMax, cMin, cMax⟩
  let ss := st.ss ++ [s]
  let nMax ← getU st.ns niMax
  let ti ← downDir up nMax st.ns ss s
  let t ← getU st.ts ti
  let tiNew := st.ts.length
  let qiLeft := st.qs.length
  let qiRight := qiLeft + 1
  let qLeft ← getP st.qs t.sink
  let qs ← modP st.qs t.sink fun _ => .branch qiLeft qiRight (.X cMin cMax)
  let qs := qs ++ [qLeft, .sink tiNew]
  let ts ← modP st.ts ti (Trapezoid.setSink qiLeft)
  let t ← getP ts ti
  let (tLeft, tNew) := t.splitVertical qiLeft qiRight si
  let ts := ts.set ti tLeft ++ [tNew]
  let ns ← nexusAddSegment up st.ns ss niMax si tiNew
  let t ← getU ts ti
  match t.down with
  | none => stop (.err .segMinNotFound)
  | some ni => do
    let _ ← getU ns ni
    let left ← ask up
    let ns ← St.replaceAt ns (if ni ≠ niMin ∧ left = false then some ni else none) ti tiNew
    pure ⟨⟨ns, ss, ts, qs⟩, ni, ti, tiNew⟩

/-- One iteration of the loop of `add_segment` (`trapezoidation.rs:507-544`).  Simplification as in
`St.addSegmentStep`: the test at lines 524 and 537 is asked even if its answer does not matter. -/
def addSegmentStep (up : Bool) (si : Nat) (s : Segment C) (l : St.SegLoop I C) :
    Wild IErr (St.SegLoop I C) := do
  let st := l.st
  let n ← getU st.ns l.ni
  let ti ← downDir up n st.ns st.ss s
  let t ← getU st.ts ti
  match t.down with
  | none => stop (.err .segMinNotFound)
  | some ni => do
    let tUpleft ← getU st.ts l.tiUpleft
    let tUpright ← getU st.ts l.tiUpright
    if t.right = tUpright.right then do
      let qiLeft := st.qs.length
      let qLeft ← getP st.qs t.sink
      let qs ← modP st.qs t.sink fun _ => .branch qiLeft tUpright.sink (.X s.cMin s.cMax)
      let ts ← modP st.ts ti (Trapezoid.setSink qiLeft)
      let qs := qs ++ [qLeft]
      let ts ← modP ts ti (Trapezoid.setRight si)
      let ts ← modP ts l.tiUpright (Trapezoid.setDown ni)
      let _ ← getU st.ns ni
      let left ← ask up
      let ns ← St.replaceAt st.ns (if ni ≠ s.niMin ∧ left = false then some ni else none) ti l.tiUpright
      pure ⟨⟨ns, st.ss, ts, qs⟩, ni, ti, l.tiUpright⟩
    else if t.left = tUpleft.left then do
      let qiRight := st.qs.length
      let qRight ← getP st.qs t.sink
      let qs ← modP st.qs t.sink fun _ => .branch tUpleft.sink qiRight (.X s.cMin s.cMax)
      let ts ← modP st.ts ti (Trapezoid.setSink qiRight)
      let qs := qs ++ [qRight]
      let ts ← modP ts ti (Trapezoid.setLeft si)
      let ts ← modP ts l.tiUpleft (Trapezoid.setDown ni)
      let _ ← getU st.ns ni
      let left ← ask up
      let ns ← St.replaceAt st.ns (if ni = s.niMin ∨ left = true then some ni else none) ti l.tiUpleft
      pure ⟨⟨ns, st.ss, ts, qs⟩, ni, l.tiUpleft, ti⟩
    else stop (.err .noMatchingSide)

/-- The loop of `add_segment` (`trapezoidation.rs:506-548`). -/
def addSegmentLoop (up : Bool) (si : Nat) (s : Segment C) :
    Nat → St.SegLoop I C → Wild IErr (St.SegLoop I C)
  | 0, _ => stop .timeout
  | fuel + 1, l =>
    if l.ni = s.niMin then pure l
    else do
      let l' ← addSegmentStep up si s l
      addSegmentLoop up si s fuel l'

/-- `TrapezoidationState::add_segment` (`trapezoidation.rs:472-558`). -/
def addSegment (up : Bool) (cfg : Cfg) (fuel : Nat) (st : St I C) (niMin niMax : Nat) (cMin cMax : Coords C) :
    Wild IErr (St I C) := do
  let si := st.ss.length
  let s : Segment C := ⟨niMin, niMax, cMin, cMax⟩
  let l ← addSegmentStart up st niMin niMax cMin cMax
  let l ← addSegmentLoop up si s fuel l
  let ns ← nexusAddSegment up l.st.ns l.st.ss niMin si l.tiUpright
  let st' : St I C := { l.st with ns := ns }
  st'.debugCheck cfg fuel
  pure st'

/-- The inner `add_vertex` of `add_nth_segment` (`trapezoidation.rs:294-302`). -/
def addVertexVL (up : Bool) (cfg : Cfg) (fuel : Nat) (st : St I C) (vls : List (VLoc I C)) (vli : Nat) (qi : Nat) :
    Wild IErr (St I C × List (VLoc I C) × Nat) := do
  let (st', ni) ← addVertex up cfg fuel st qi
  let vl ← getP vls vli
  pure (st', vls.set vli (.inserted vl.coords ni), ni)

/-- First half of `add_nth_segment` (`trapezoidation.rs:304-330`).  Both locations are cloned, with their indices. -/
def addEnds (up : Bool) (cfg : Cfg) (fuel : Nat) (st : St I C) (vls : List (VLoc I C)) (si : Nat) :
    Wild IErr (St I C × List (VLoc I C) × Nat × Nat × Nat) := do
  let vli0 := si
  let vli1 := (si + 1) % vls.length
  let vl0 ← getP vls vli0
  let _ ← call up Unit
  let vl1 ← getP vls vli1
  let _ ← call up Unit
  match vl0, vl1 with
  | .pending _ _ q0, .pending _ _ q1 => do
    let less ← ask up
    if less then do
      let (st, vls, ni0) ← addVertexVL up cfg fuel st vls vli0 q0
      let (st, vls, ni1) ← addVertexVL up cfg fuel st vls vli1 q1
      pure (st, vls, ni0, ni1, 2)
    else do
      let (st, vls, ni1) ← addVertexVL up cfg fuel st vls vli1 q1
      let (st, vls, ni0) ← addVertexVL up cfg fuel st vls vli0 q0
      pure (st, vls, ni0, ni1, 2)
  | .pending _ _ q0, .inserted _ ni1 => do
    let (st, vls, ni0) ← addVertexVL up cfg fuel st vls vli0 q0
    pure (st, vls, ni0, ni1, 1)
  | .inserted _ ni0, .pending _ _ q1 => do
    let (st, vls, ni1) ← addVertexVL up cfg fuel st vls vli1 q1
    pure (st, vls, ni0, ni1, 1)
  | .inserted _ ni0, .inserted _ ni1 => pure (st, vls, ni0, ni1, 0)

/-- `add_nth_segment` (`trapezoidation.rs:292-347`). -/
def addNthSegment (up : Bool) (cfg : Cfg) (fuel : Nat) (st : St I C) (vls : List (VLoc I C)) (si : Nat) :
    Wild IErr (St I C × List (VLoc I C) × Nat) := do
  let (st, vls, ni0, ni1, added) ← addEnds up cfg fuel st vls si
  let n0 ← getU st.ns ni0
  let n1 ← getU st.ns ni1
  let less ← ask up
  let st ← (if less then addSegment up cfg fuel st ni0 ni1 n0.c n1.c
    else addSegment up cfg fuel st ni1 ni0 n1.c n0.c)
  pure (st, vls, added)

/-- `reached_containing_trapezoid` (`trapezoidation.rs:371-382`). -/
def reached (up : Bool) (ns : List (Nexus I C)) (t : Trapezoid) (dir : Dir) : Wild IErr Bool :=
  match (match dir with | .asc => t.up | .desc => t.down) with
  | none => pure true
  | some ni => do
    let _ ← getP ns ni
    ask up

/-- The inner `while` of the relocation (`trapezoidation.rs:417-422`). -/
def walk (up : Bool) (st : St I C) (dir : Dir) : Nat → Nat → Wild IErr Nat
  | 0, _ => stop .timeout
  | fuel + 1, ti => do
    let t ← getU st.ts ti
    let done ← reached up st.ns t dir
    if done then pure ti
    else
      match (match dir with | .asc => t.up | .desc => t.down) with
      | none => stopOr up (.err .containingNotFound)
      | some ni => do
        let n ← getU st.ns ni
        let ti ← between up n dir
        walk up st dir fuel ti

/-- "If on an inserted vertex, move to an adjacent Trapezoid toward the target"
(`trapezoidation.rs:412-415`). -/
def startTrapezoid (up : Bool) (st : St I C) (loc : St.Loc) (dir : Dir) : Wild IErr Nat :=
  match loc with
  | .nexus ni => do
    let n ← getU st.ns ni
    toward up n st.ss st.ns dir
  | .trapezoid ti => pure ti

/-- One iteration of the relocation loop (`trapezoidation.rs:397-430`).  The index is cloned (line 426). -/
def relocStep (up : Bool) (fuel : Nat) (st : St I C) (r : St.Reloc I C) : Wild IErr (St.Reloc I C) := do
  let target := (r.target + 1) % r.vls.length
  let vl ← getP r.vls target
  match vl with
  | .inserted _ ni => do
    let n ← getU st.ns ni
    pure { r with target := target, loc := .nexus ni, cOrigin := n.c }
  | .pending cT _ _ => do
    let asc ← ask up
    let dir := if asc then Dir.asc else Dir.desc
    let ti ← startTrapezoid up st r.loc dir
    let ti ← walk up st dir fuel ti
    let unlocated ← subP r.unlocated 1
    let t ← getU st.ts ti
    let vi ← call up I
    pure ⟨r.vls.set target (.pending cT vi t.sink), unlocated, target, .trapezoid ti, cT⟩

/-- The relocation loop (`trapezoidation.rs:396-431`). -/
def relocLoop (up : Bool) (fuel : Nat) (st : St I C) : Nat → St.Reloc I C → Wild IErr (List (VLoc I C))
  | 0, _ => stop .timeout
  | k + 1, r =>
    if r.unlocated = 0 then pure r.vls
    else do
      let r' ← relocStep up fuel st r
      relocLoop up fuel st k r'

/-- The relocation block (`trapezoidation.rs:384-431`); `Coords::zero` calls user code. -/
def relocate (up : Bool) (fuel : Nat) (st : St I C) (vls : List (VLoc I C)) (vi0 pending : Nat) :
    Wild IErr (List (VLoc I C)) := do
  let c ← call up (Coords C)
  relocLoop up fuel st fuel ⟨vls, pending, vi0, .nexus 0, c⟩

/-- One iteration of the loop of `add_polygon` (`trapezoidation.rs:363-435`). -/
def polyStep (up : Bool) (cfg : Cfg) (fuel : Nat) (l : St.PolyLoop I C) (vi0 : Nat) :
    Wild IErr (St.PolyLoop I C) := do
  let (st, vls, added) ← addNthSegment up cfg fuel l.st l.vls vi0
  let pending ← subP l.pending added
  if l.i = l.nextUpdate then do
    let vls ← relocate up fuel st vls vi0 pending
    let updateCount := l.updateCount + 1
    pure ⟨st, vls, pending, l.i + 1, updateCount, cfg.mathN vls.length updateCount⟩
  else pure ⟨st, vls, pending, l.i + 1, l.updateCount, l.nextUpdate⟩

/-- `TrapezoidationState::add_polygon` (`trapezoidation.rs:290-439`) for the `k`-th polygon. -/
def addPolygon (up : Bool) (cfg : Cfg) (fuel : Nat) (k : Nat) (st : St I C) (vls : List (VLoc I C)) :
    Wild IErr (St I C) := do
  let len := vls.length
  let l ← (cfg.order k len).foldlM (polyStep up cfg fuel) ⟨st, vls, len, 0, 1, cfg.mathN len 1⟩
  pure l.st

/-- One iteration of the loop of `build` (`trapezoidation.rs:267-283`). -/
def buildStep (up : Bool) (cfg : Cfg) (fuel : Nat) (l : St.BuildLoop I C) :
    Option (Elem I) → Wild TrapErr (St.BuildLoop I C)
  | none => stop .panic
  | some (.cont i) => do
    let c ← call up (Coords C)
    pure { l with vLookup := l.vLookup ++ [.pending c i 0] }
  | some .newPolygon =>
    if l.vLookup.length > 0 then
      if l.vLookup.length < 3 then stop (.err (.notEnoughVertices l.vLookup.length))
      else do
        let st ← mapErr .internal (addPolygon up cfg fuel l.k l.st l.vLookup)
        pure ⟨st, [], l.k + 1⟩
    else pure l

/-- `TrapezoidationState::build` (`trapezoidation.rs:257-287`), hence `PolygonList::trapezoidize`
(`inputs/polygon_list.rs:172-174`); `es` is what the index iterator happens to yield. -/
def trapezoidize (up : Bool) (cfg : Cfg) (fuel : Nat) (es : List (Option (Elem I))) : Wild TrapErr (St I C) := do
  let l ← (es ++ [some Elem.newPolygon]).foldlM (buildStep up cfg fuel) ⟨St.init, [], 0⟩
  pure l.st

end Wild

end Tri
