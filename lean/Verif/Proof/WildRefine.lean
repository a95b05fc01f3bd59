import Verif.Proof.WildBuild

/-!
# The model with arbitrary user code includes the model with user code that answers consistently
-/

set_option linter.unusedSectionVars false

namespace Tri

variable {I V C : Type}

namespace Wild

variable {ε ε' α β σ : Type}

theorem mem_bind {X : Wild ε α} {x : Res ε α} {K : α → Wild ε β} {k : α → Res ε β} (hx : X x)
    (h : ∀ a, K a (k a)) : (X >>= K) (x >>= k) := by
  refine ⟨x, hx, ?_⟩
  cases x with
  | ok a => exact h a
  | error e => rfl

theorem mem_call {up : Bool} {K : α → Wild ε β} {r : Res ε β} (a : α) (h : K a r) : (call up α >>= K) r :=
  ⟨.ok a, .inl ⟨a, rfl⟩, h⟩

theorem mem_ite {c : Prop} [Decidable c] {X Y : Wild ε α} {x y : Res ε α} (h1 : c → X x) (h2 : ¬ c → Y y) :
    (if c then X else Y) (if c then x else y) := by
  split
  · exact h1 ‹_›
  · exact h2 ‹_›

/-- `mem_bind` if the value does not matter in the end. -/
theorem mem_bind_unit {γ : Type} {X : Wild ε α} {x : Res ε α} {K : α → Wild ε Unit} {k : α → Res ε γ} (hx : X x)
    (h : ∀ a, K a ((k a).map fun _ => ())) : (X >>= K) ((x >>= k).map fun _ => ()) := by
  refine ⟨x, hx, ?_⟩
  cases x with
  | ok a => exact h a
  | error e => rfl

theorem mem_foldlM {F : σ → α → Wild ε σ} {f : σ → α → Res ε σ} (h : ∀ s a, F s a (f s a)) (l : List α) (s : σ) :
    (l.foldlM F s) (l.foldlM f s) := by
  induction l generalizing s with
  | nil => exact rfl
  | cons a l ih => exact mem_bind (h s a) fun s' => ih s'

end Wild

open Wild in
theorem find_mem [Scalar C] (up : Bool) (qs : List (QueryNode C)) (c : Coords C) (fuel qi : Nat) :
    Wild.find up qs fuel qi (St.find qs c fuel qi) := by
  induction fuel generalizing qi with
  | zero => exact rfl
  | succ k ih =>
    unfold Wild.find St.find
    refine mem_bind rfl fun q => ?_
    cases q with
    | branch l r b => exact mem_call (b.useLeft c) (ih _)
    | sink t => exact rfl

open Wild in
theorem nexusAddSegment_mem [Scalar C] (up : Bool) (ns : List (Nexus I C)) (ss : List (Segment C)) (ni si ti : Nat) :
    Wild.nexusAddSegment up ns ss ni si ti (Nexus.addSegment ns ss ni si ti) := by
  unfold Wild.nexusAddSegment Nexus.addSegment
  refine mem_bind rfl fun dir => mem_bind rfl fun n => ?_
  rcases n.dividers with _ | d0 | ⟨d0, d1⟩
  · exact rfl
  · refine mem_bind ?_ fun sw => mem_ite (fun _ => rfl) fun _ => rfl
    unfold Wild.swapDividers Nexus.swapDividers
    refine mem_ite (fun _ => ?_) fun _ => rfl
    refine mem_bind rfl fun s0 => mem_bind rfl fun s1 => mem_bind rfl fun n1 => ?_
    exact .inl ⟨_, rfl⟩
  · exact rfl

open Wild in
theorem downDir_mem [Scalar C] [DecidableEq I] (up : Bool) (n : Nexus I C) (ns : List (Nexus I C))
    (ss : List (Segment C)) (s : Segment C) :
    Wild.downDir up n ns ss s (n.getDownTrapezoidInDirection ns ss s) := by
  unfold Wild.downDir Nexus.getDownTrapezoidInDirection
  rcases (n.filterDividers .desc).last with _ | d
  · exact rfl
  · have fin : ∀ c : Coords C, (ask up >>= fun left => if left then Pure.pure d.tiRight else Pure.pure n.tiDownleft :
        Wild IErr Nat) (if s.isOnLeft c then .ok d.tiRight else .ok n.tiDownleft) := fun c =>
      mem_call (s.isOnLeft c) (mem_ite (fun _ => rfl) fun _ => rfl)
    have h0 : ∃ y, Wild.downTest up ns ss s d y ∧ y = (n.downTestCoords ns ss s d).map fun _ => () := by
      refine ⟨_, ?_, rfl⟩
      unfold Wild.downTest Nexus.downTestCoords
      refine mem_bind_unit rfl fun nMin => mem_call (decide (nMin.vi = n.vi)) ?_
      by_cases hv : nMin.vi = n.vi
      · simp only [hv, decide_true, if_true]
        exact rfl
      simp only [hv, decide_false, Bool.false_eq_true, if_false]
      refine mem_bind_unit rfl fun nMax => mem_call (decide (nMax.vi = n.vi)) ?_
      by_cases hw : nMax.vi = n.vi
      · simp only [hw, decide_true, if_true]
        exact mem_bind_unit rfl fun sr => mem_bind_unit rfl fun m => rfl
      · simp only [hw, decide_false, Bool.false_eq_true, if_false]
        exact rfl
    obtain ⟨y, hy, rfl⟩ := h0
    refine ⟨_, hy, ?_⟩
    dsimp only
    cases n.downTestCoords ns ss s d with
    | error e => exact rfl
    | ok c => exact fin c

open Wild in
theorem between_mem [Scalar C] (up : Bool) (n : Nexus I C) (dir : Dir) (c0 c1 : Coords C) :
    Wild.between up n dir (.ok (n.getTrapezoidBetweenCoords dir c0 c1)) := by
  unfold Wild.between Nexus.getTrapezoidBetweenCoords
  rcases (n.filterDividers dir).last with _ | d
  · exact rfl
  · cases dir with
    | asc =>
      refine mem_call (isLeftOfLine c0 c1 n.c) ?_
      dsimp only
      cases isLeftOfLine c0 c1 n.c <;> exact rfl
    | desc =>
      refine mem_call (isLeftOfLine c1 c0 n.c) ?_
      dsimp only
      cases isLeftOfLine c1 c0 n.c <;> exact rfl

open Wild in
theorem startTrapezoid_mem [Scalar C] [DecidableEq I] (up : Bool) (st : St I C) (loc : St.Loc) (dir : Dir)
    (c : Coords C) : Wild.startTrapezoid up st loc dir (St.startTrapezoid st loc dir c) := by
  unfold Wild.startTrapezoid St.startTrapezoid
  rcases loc with ni | ti
  · refine mem_bind rfl fun n => ?_
    unfold Wild.toward Nexus.getTrapezoidTowardCoords
    rcases n.filterDividers dir with _ | d | ⟨d0, d1⟩
    · exact rfl
    · refine mem_bind rfl fun s => mem_bind rfl fun nMin => mem_bind rfl fun nMax => ?_
      refine mem_call (isLeftOfLine nMin.c nMax.c c) ?_
      split
      · exact rfl
      · exact rfl
    · exact rfl
  · exact rfl

variable [Scalar C] [DecidableEq I]

open Wild in
theorem addVertex_mem (cfg : Cfg) (fuel : Nat) (p : PolyList I V) (xy : V → Coords C) (st : St I C) (vi : I)
    (qi : Nat) : Wild.addVertex true cfg fuel st qi (st.addVertex cfg fuel p xy vi qi) := by
  unfold Wild.addVertex St.addVertex
  cases hc : (p.coords xy vi : Res IErr _) with
  | error e =>
    have : e = .panic := by
      unfold PolyList.coords at hc
      split at hc <;> cases hc
      rfl
    subst this
    exact ⟨_, .inr ⟨rfl, rfl⟩, rfl⟩
  | ok c =>
    refine mem_call c (mem_bind (find_mem true st.qs c fuel qi) fun r => mem_call c (mem_call vi ?_))
    exact mem_bind rfl fun st' => mem_bind rfl fun _ => rfl

open Wild in
theorem addSegmentStart_mem (up : Bool) (st : St I C) (niMin niMax : Nat) (cMin cMax : Coords C) :
    Wild.addSegmentStart up st niMin niMax cMin cMax (st.addSegmentStart niMin niMax cMin cMax) := by
  unfold Wild.addSegmentStart St.addSegmentStart
  refine mem_bind rfl fun nMax => mem_bind (downDir_mem ..) fun ti => mem_bind rfl fun t => ?_
  refine mem_bind rfl fun qL => mem_bind rfl fun qs => mem_bind rfl fun ts => mem_bind rfl fun t' => ?_
  refine mem_bind (nexusAddSegment_mem ..) fun ns => mem_bind rfl fun t2 => ?_
  rcases t2.down with _ | ni
  · exact rfl
  · refine mem_bind rfl fun n => mem_call (Segment.isOnLeft ⟨niMin, niMax, cMin, cMax⟩ n.c) ?_
    exact mem_bind rfl fun ns' => rfl

open Wild in
theorem addSegmentStep_mem (up : Bool) (si : Nat) (s : Segment C) (l : St.SegLoop I C) :
    Wild.addSegmentStep up si s l (St.addSegmentStep si s l) := by
  unfold Wild.addSegmentStep St.addSegmentStep
  refine mem_bind rfl fun n => mem_bind (downDir_mem ..) fun ti => mem_bind rfl fun t => ?_
  rcases t.down with _ | ni
  · exact rfl
  refine mem_bind rfl fun tl => mem_bind rfl fun tr => mem_ite (fun _ => ?_) fun _ => mem_ite (fun _ => ?_) fun _ => rfl
  · refine mem_bind rfl fun q => mem_bind rfl fun qs => mem_bind rfl fun t1 => mem_bind rfl fun t2 => ?_
    refine mem_bind rfl fun t3 => mem_bind rfl fun n => mem_call (s.isOnLeft n.c) ?_
    exact mem_bind rfl fun ns' => rfl
  · refine mem_bind rfl fun q => mem_bind rfl fun qs => mem_bind rfl fun t1 => mem_bind rfl fun t2 => ?_
    refine mem_bind rfl fun t3 => mem_bind rfl fun n => mem_call (s.isOnLeft n.c) ?_
    exact mem_bind rfl fun ns' => rfl

open Wild in
theorem addSegmentLoop_mem (up : Bool) (si : Nat) (s : Segment C) (fuel : Nat) (l : St.SegLoop I C) :
    Wild.addSegmentLoop up si s fuel l (St.addSegmentLoop si s fuel l) := by
  induction fuel generalizing l with
  | zero => exact rfl
  | succ k ih =>
    unfold Wild.addSegmentLoop St.addSegmentLoop
    exact mem_ite (fun _ => rfl) fun _ => mem_bind (addSegmentStep_mem up si s l) fun l' => ih l'

open Wild in
theorem addSegment_mem (up : Bool) (cfg : Cfg) (fuel : Nat) (st : St I C) (niMin niMax : Nat) (cMin cMax : Coords C) :
    Wild.addSegment up cfg fuel st niMin niMax cMin cMax (st.addSegment cfg fuel niMin niMax cMin cMax) := by
  unfold Wild.addSegment St.addSegment
  refine mem_bind (addSegmentStart_mem ..) fun l => mem_bind (addSegmentLoop_mem ..) fun l => ?_
  exact mem_bind (nexusAddSegment_mem ..) fun ns => mem_bind rfl fun _ => rfl

open Wild in
theorem addVertexVL_mem (cfg : Cfg) (fuel : Nat) (p : PolyList I V) (xy : V → Coords C) (st : St I C)
    (vls : List (VLoc I C)) (vli : Nat) (vi : I) (qi : Nat) :
    Wild.addVertexVL true cfg fuel st vls vli qi (St.addVertexVL cfg fuel p xy st vls vli vi qi) := by
  unfold Wild.addVertexVL St.addVertexVL
  exact mem_bind (addVertex_mem ..) fun r => mem_bind rfl fun vl => rfl

open Wild in
theorem addEnds_mem (cfg : Cfg) (fuel : Nat) (p : PolyList I V) (xy : V → Coords C) (st : St I C)
    (vls : List (VLoc I C)) (si : Nat) :
    Wild.addEnds true cfg fuel st vls si (St.addEnds cfg fuel p xy st vls si) := by
  unfold Wild.addEnds St.addEnds
  refine mem_bind rfl fun vl0 => mem_call () <| mem_bind rfl fun vl1 => mem_call () ?_
  rcases vl0 with ⟨c0, i0, q0⟩ | ⟨c0, ni0⟩ <;> rcases vl1 with ⟨c1, i1, q1⟩ | ⟨c1, ni1⟩
  · refine mem_call (c0.ltB c1) (mem_ite (fun _ => ?_) fun _ => ?_)
    · exact mem_bind (addVertexVL_mem ..) fun r => mem_bind (addVertexVL_mem ..) fun r' => rfl
    · exact mem_bind (addVertexVL_mem ..) fun r => mem_bind (addVertexVL_mem ..) fun r' => rfl
  · exact mem_bind (addVertexVL_mem ..) fun r => rfl
  · exact mem_bind (addVertexVL_mem ..) fun r => rfl
  · exact rfl

open Wild in
theorem addNthSegment_mem (cfg : Cfg) (fuel : Nat) (p : PolyList I V) (xy : V → Coords C) (st : St I C)
    (vls : List (VLoc I C)) (si : Nat) :
    Wild.addNthSegment true cfg fuel st vls si (St.addNthSegment cfg fuel p xy st vls si) := by
  unfold Wild.addNthSegment St.addNthSegment
  refine mem_bind (addEnds_mem cfg fuel p xy st vls si) fun r => mem_bind rfl fun n0 => mem_bind rfl fun n1 => ?_
  refine mem_call (n0.c.ltB n1.c) (mem_bind (mem_ite (fun _ => ?_) fun _ => ?_) fun st' => rfl)
  · exact addSegment_mem ..
  · exact addSegment_mem ..

open Wild in
theorem walk_mem (up : Bool) (st : St I C) (dir : Dir) (c0 c1 : Coords C) (fuel ti : Nat) :
    Wild.walk up st dir fuel ti (st.walk dir c0 c1 fuel ti) := by
  induction fuel generalizing ti with
  | zero => exact rfl
  | succ k ih =>
    unfold Wild.walk St.walk
    refine mem_bind rfl fun t => mem_bind ?_ fun done => mem_ite (fun _ => rfl) fun _ => ?_
    · unfold Wild.reached St.reached
      have hn (ni : Nat) (f : Nexus I C → Bool) : (Wild.getP st.ns ni >>= fun _ => ask up : Wild IErr Bool)
          (Tri.getP st.ns ni >>= fun n => .ok (f n)) := mem_bind rfl fun n => Or.inl ⟨_, rfl⟩
      cases dir with
      | asc =>
        rcases t.up with _ | ni
        · exact rfl
        · exact hn ni fun n => n.c.gtB c1
      | desc =>
        rcases t.down with _ | ni
        · exact rfl
        · exact hn ni fun n => n.c.ltB c1
    · have hn (ni : Nat) : (Wild.getU st.ns ni >>= fun n => between up n dir >>= fun ti => Wild.walk up st dir k ti :
          Wild IErr Nat) (Tri.getU st.ns ni >>= fun n =>
            st.walk dir c0 c1 k (n.getTrapezoidBetweenCoords dir c0 c1)) :=
        mem_bind rfl fun n => ⟨_, between_mem up n dir c0 c1, ih _⟩
      cases dir with
      | asc =>
        rcases t.up with _ | ni
        · exact Or.inl rfl
        · exact hn ni
      | desc =>
        rcases t.down with _ | ni
        · exact Or.inl rfl
        · exact hn ni

open Wild in
theorem relocStep_mem (up : Bool) (fuel : Nat) (st : St I C) (r : St.Reloc I C) :
    Wild.relocStep up fuel st r (St.relocStep fuel st r) := by
  unfold Wild.relocStep St.relocStep
  refine mem_bind rfl fun vl => ?_
  cases vl with
  | inserted c ni => exact mem_bind rfl fun n => rfl
  | pending c vi q =>
    refine mem_call (c.gtB r.cOrigin) ?_
    refine mem_bind (startTrapezoid_mem ..) fun ti => mem_bind (walk_mem ..) fun ti => mem_bind rfl fun u => ?_
    exact mem_bind rfl fun t => mem_call vi rfl

open Wild in
theorem relocLoop_mem (up : Bool) (fuel : Nat) (st : St I C) (k : Nat) (r : St.Reloc I C) :
    Wild.relocLoop up fuel st k r (St.relocLoop fuel st k r) := by
  induction k generalizing r with
  | zero => exact rfl
  | succ k ih =>
    unfold Wild.relocLoop St.relocLoop
    exact mem_ite (fun _ => rfl) fun _ => mem_bind (relocStep_mem ..) fun r' => ih r'

open Wild in
theorem polyStep_mem (cfg : Cfg) (fuel : Nat) (p : PolyList I V) (xy : V → Coords C) (l : St.PolyLoop I C) (si : Nat) :
    Wild.polyStep true cfg fuel l si (St.polyStep cfg fuel p xy l si) := by
  unfold Wild.polyStep St.polyStep
  refine mem_bind (addNthSegment_mem cfg fuel p xy l.st l.vls si) fun r => mem_bind rfl fun pd => ?_
  refine mem_ite (fun _ => mem_bind ?_ fun vls => rfl) fun _ => rfl
  unfold Wild.relocate St.relocate
  exact mem_call Coords.zero (relocLoop_mem ..)

open Wild in
theorem addPolygon_mem (cfg : Cfg) (fuel : Nat) (p : PolyList I V) (xy : V → Coords C) (k : Nat) (st : St I C)
    (vls : List (VLoc I C)) :
    Wild.addPolygon true cfg fuel k st vls (St.addPolygon cfg fuel p xy k st vls) := by
  unfold Wild.addPolygon St.addPolygon
  exact mem_bind (mem_foldlM (fun l si => polyStep_mem cfg fuel p xy l si) _ _) fun l => rfl

open Wild in
theorem buildStep_mem (cfg : Cfg) (fuel : Nat) (p : PolyList I V) (xy : V → Coords C) (l : St.BuildLoop I C)
    (e : Option (Elem I)) : Wild.buildStep true cfg fuel l e (St.buildStep cfg fuel p xy l e) := by
  rcases e with _ | i | _
  · exact rfl
  · unfold Wild.buildStep St.buildStep
    dsimp only
    cases hc : (p.coords xy i : Res TrapErr _) with
    | error e =>
      have : e = .panic := by
        unfold PolyList.coords at hc
        split at hc <;> cases hc
        rfl
      subst this
      exact ⟨_, .inr ⟨rfl, rfl⟩, rfl⟩
    | ok c => exact mem_call c rfl
  · unfold Wild.buildStep St.buildStep
    refine mem_ite (fun _ => mem_ite (fun _ => rfl) fun _ => mem_bind ?_ fun st => rfl) fun _ => rfl
    exact ⟨_, addPolygon_mem .., rfl⟩

open Wild in
/-- Every run of the model with a coordinate type, an index type and a `PolygonList` that answer consistently is a run
of the model in which every answer is arbitrary. -/
theorem trapezoidize_mem (cfg : Cfg) (fuel : Nat) (p : PolyList I V) (xy : V → Coords C) :
    Wild.trapezoidize true cfg fuel p.elems (trapezoidize cfg fuel p xy) := by
  unfold Wild.trapezoidize trapezoidize St.build
  exact mem_bind (mem_foldlM (fun l e => buildStep_mem cfg fuel p xy l e) _ _) fun l => rfl

end Tri
