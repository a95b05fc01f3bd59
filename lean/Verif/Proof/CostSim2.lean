import Verif.Proof.CostTri
import Verif.Proof.CostSim
import Verif.Proof.Sim2

/-!
# Simulation between runs: the steps counted in the triangulation half

As in `Sim2.lean`, for the functions with ticks.
-/

set_option linter.unusedSectionVars false

namespace Tri

variable {I J V W C D : Type} [Scalar C] [Scalar D]

/-- Events of the same kind with related indices. -/
def EvRel (RI : I → J → Prop) : Option (Call I) → Option (Call J) → Prop
  | none, none => True
  | some a, some b => CallRel RI a b
  | _, _ => False

/-- Recorded runs with related events and outcomes. -/
def RelE {α β : Type} (RI : I → J → Prop) (R : α → β → Prop) (x : TrE I α) (y : TrE J β) : Prop :=
  List.Forall₂ (EvRel RI) x.evs y.evs ∧ RelR R x.res y.res

namespace RelE
variable {α β α' β' : Type} {RI : I → J → Prop} {R : α → β → Prop} {S : α' → β' → Prop}

theorem pure {a : α} {b : β} (h : R a b) : RelE RI R (Pure.pure a : TrE I α) (Pure.pure b : TrE J β) :=
  ⟨.nil, h⟩

theorem stop {e : Fault IErr} : RelE RI R (FanM.stop e : TrE I α) (FanM.stop e : TrE J β) := ⟨.nil, rfl⟩

theorem lift {x : Res IErr α} {y : Res IErr β} (h : RelR R x y) :
    RelE RI R (FanM.lift x : TrE I α) (FanM.lift y : TrE J β) := by
  cases x <;> cases y
  · cases h; exact stop
  · exact h.elim
  · exact h.elim
  · exact pure h

theorem bind {x : TrE I α} {y : TrE J β} {f : α → TrE I α'} {g : β → TrE J β'} (h : RelE RI R x y)
    (hf : ∀ a b, R a b → RelE RI S (f a) (g b)) : RelE RI S (x >>= f) (y >>= g) := by
  obtain ⟨h1, h2⟩ := h
  rcases x with ⟨cs, e | a⟩ <;> rcases y with ⟨cs', e' | b⟩
  · exact ⟨h1, h2⟩
  · exact h2.elim
  · exact h2.elim
  · obtain ⟨h3, h4⟩ := hf a b h2
    exact ⟨forall₂_append h1 h3, h4⟩

theorem newFan {a b c : I} {a' b' c' : J} (ha : RI a a') (hb : RI b b') (hc : RI c c') :
    RelE RI (fun _ _ => True) (FanM.newFan a b c : TrE I Unit) (FanM.newFan a' b' c' : TrE J Unit) :=
  ⟨.cons ⟨ha, hb, hc⟩ .nil, trivial⟩

theorem extendFan {v : I} {v' : J} (hv : RI v v') :
    RelE RI (fun _ _ => True) (FanM.extendFan v : TrE I Unit) (FanM.extendFan v' : TrE J Unit) :=
  ⟨.cons hv .nil, trivial⟩

theorem tick : RelE RI (fun _ _ => True) (TrE.tick : TrE I Unit) (TrE.tick : TrE J Unit) := ⟨.cons trivial .nil, trivial⟩

theorem ite {c d : Prop} [Decidable c] [Decidable d] {x x' : TrE I α} {y y' : TrE J β} (hcd : c ↔ d)
    (h1 : RelE RI R x y) (h2 : RelE RI R x' y') :
    RelE RI R (if c then x else x') (if d then y else y') := by
  by_cases h : c
  · rw [if_pos h, if_pos (hcd.1 h)]; exact h1
  · rw [if_neg h, if_neg fun hd => h (hcd.2 hd)]; exact h2

theorem forM {Q : α → β → Prop} {f : α → TrE I Unit} {g : β → TrE J Unit} {l : List α} {l' : List β}
    (hl : List.Forall₂ Q l l') (h : ∀ a b, Q a b → RelE RI (fun _ _ => True) (f a) (g b)) :
    RelE RI (fun _ _ => True) (l.forM f) (l'.forM g) := by
  induction hl with
  | nil => exact pure trivial
  | cons h1 h2 ih =>
    rename_i a b l l'
    show RelE RI _ (f a >>= fun _ => l.forM f) (g b >>= fun _ => l'.forM g)
    exact bind (h _ _ h1) fun _ _ _ => ih

end RelE

section
variable {RI : I → J → Prop} {RC : Coords C → Coords D → Prop}

namespace MonoRel
variable {M : Mono I C} {M' : Mono J D} (h : MonoRel RI RC M M')
include h
variable (hC : RespC RC)
include hC

omit h in
theorem addTriangleC (b : Mono.Bodt) {v : I} {v' : J} (hv : RI v v') :
    RelE RI (· = ·) (b.addTriangle v : TrE I Mono.Bodt) (b.addTriangle v' : TrE J Mono.Bodt) := by
  cases b with
  | builder => exact RelE.bind (RelE.extendFan hv) fun _ _ _ => RelE.pure rfl
  | deferred dt => exact RelE.pure rfl

theorem backLoopC (fuel : Nat) (b : Mono.Bodt) :
    RelE RI (fun r r' => MonoRel RI RC r.1 r'.1 ∧ r.2 = r'.2) (Mono.backLoopC (m := TrE I) TrE.tick fuel M b)
      (Mono.backLoopC (m := TrE J) TrE.tick fuel M' b) := by
  induction fuel generalizing M M' b with
  | zero => exact RelE.stop
  | succ k ih =>
    unfold Mono.backLoopC
    refine RelE.bind RelE.tick fun _ _ _ => ?_
    refine RelE.bind (RelE.lift (h.canTriangulate hC)) ?_
    rintro g _ rfl
    refine RelE.ite Iff.rfl ?_ (RelE.pure ⟨h, rfl⟩)
    refine RelE.bind (RelE.lift h.skippedPop) fun r r' hr => ?_
    refine RelE.bind (RelE.lift hr.2.skippedPeek) fun v v' hv => ?_
    refine RelE.bind (addTriangleC hC b hv.1) ?_
    rintro b _ rfl
    exact ih hr.2 b

theorem advLoopC (fuel : Nat) (b : Mono.Bodt) :
    RelE RI (fun r r' => MonoRel RI RC r.1 r'.1 ∧ r.2 = r'.2) (Mono.advLoopC (m := TrE I) TrE.tick fuel M b)
      (Mono.advLoopC (m := TrE J) TrE.tick fuel M' b) := by
  induction fuel generalizing M M' b with
  | zero => exact RelE.stop
  | succ k ih =>
    unfold Mono.advLoopC
    refine RelE.bind RelE.tick fun _ _ _ => ?_
    refine RelE.bind (RelE.lift (h.canTriangulate hC)) ?_
    rintro g _ rfl
    refine RelE.ite Iff.rfl ?_ (RelE.pure ⟨h, rfl⟩)
    refine RelE.bind (RelE.lift h.skippedPop) fun r r' hr => ?_
    refine RelE.bind (RelE.lift hr.2.pendingPeek) fun v v' hv => ?_
    refine RelE.bind (addTriangleC hC b hv.1) ?_
    rintro b _ rfl
    exact RelE.bind (RelE.lift hr.2.transferPending) fun M M' hM => ih hM b

omit hC in
theorem extendDeferredC (bt : Bool) (i n : Nat) :
    RelE RI (fun _ _ => True) (Mono.extendDeferredC (m := TrE I) TrE.tick M bt i n)
      (Mono.extendDeferredC (m := TrE J) TrE.tick M' bt i n) := by
  induction n generalizing i with
  | zero => exact RelE.tick
  | succ n ih =>
    unfold Mono.extendDeferredC
    refine RelE.bind RelE.tick fun _ _ _ => ?_
    refine RelE.bind (RelE.lift (h.deferredIndex bt i)) fun v v' hv => ?_
    exact RelE.bind (RelE.extendFan hv) fun _ _ _ => ih (i + 1)

theorem fanStepC (w : Winding) :
    RelE RI (MonoRel RI RC) (Mono.fanStepC (m := TrE I) TrE.tick w M) (Mono.fanStepC (m := TrE J) TrE.tick w M') := by
  unfold Mono.fanStepC
  refine RelE.bind (RelE.lift h.skippedPop) ?_
  rintro ⟨v1, M1⟩ ⟨v1', M1'⟩ ⟨h1, hM1⟩
  refine RelE.bind (RelE.lift hM1.skippedPeek) fun v0 v0' h0 => ?_
  refine RelE.bind (RelE.lift hM1.pendingPeek) fun v2 v2' h2 => ?_
  refine RelE.bind (RelE.lift (hM1.canTriangulate hC)) ?_
  rintro bt _ rfl
  refine RelE.bind (R := (· = ·)) ?_ ?_
  · unfold Mono.startFan
    rw [hM1.lc]
    refine RelE.ite Iff.rfl ?_ (RelE.pure rfl)
    refine RelE.bind (RelE.newFan ?_ h1.1 ?_) fun _ _ _ => RelE.pure rfl
    · split
      · exact h2.1
      · exact h0.1
    · split
      · exact h0.1
      · exact h2.1
  · rintro bodt _ rfl
    refine RelE.bind (R := fun r r' => MonoRel RI RC r.1 r'.1 ∧ r.2 = r'.2) ?_ ?_
    · unfold Mono.growFanC
      refine RelE.ite Iff.rfl ?_ ?_
      · refine RelE.bind (RelE.lift hM1.skippedPop) fun r r' hr => ?_
        refine RelE.bind (RelE.lift hr.2.skippedPeek) fun v v' hv => ?_
        refine RelE.bind (addTriangleC hC _ hv.1) ?_
        rintro b _ rfl
        rw [hr.2.arr.length_eq]
        exact hr.2.backLoopC hC _ b
      · refine RelE.bind (RelE.lift hM1.transferPending) fun M M' hM => ?_
        rw [hM.arr.length_eq]
        exact hM.advLoopC hC _ _
    · rintro ⟨M, b⟩ ⟨M', _⟩ ⟨hM, hb⟩
      cases hb
      refine RelE.bind (R := fun _ _ => True) ?_ fun _ _ _ => RelE.pure hM
      cases b with
      | builder => exact RelE.pure trivial
      | deferred dt =>
        unfold Mono.finishFanC Mono.emitDeferredC
        refine RelE.bind (R := fun r r' => RI r.1 r'.1 ∧ RI r.2 r'.2) (RelE.lift ?_) fun v v' hv => ?_
        · unfold Mono.deferredBase
          refine RelR.ite Iff.rfl ?_ ?_
          · refine RelR.bind hM.pendingPeek fun a a' ha => ?_
            exact RelR.bind hM.skippedPeek fun b b' hb => ⟨ha.1, hb.1⟩
          · exact RelR.bind hM.skippedPeek2 fun a a' ha => ⟨ha.1.1, ha.2.1⟩
        · refine RelE.bind (RelE.lift (hM.deferredIndex bt 0)) fun v2 v2' hv2 => ?_
          exact RelE.bind (RelE.newFan hv.1 hv.2 hv2) fun _ _ _ => hM.extendDeferredC bt _ _

theorem buildFansC (w : Winding) (fuel : Nat) :
    RelE RI (fun _ _ => True) (Mono.buildFansC (m := TrE I) TrE.tick w fuel M)
      (Mono.buildFansC (m := TrE J) TrE.tick w fuel M') := by
  induction fuel generalizing M M' with
  | zero => exact RelE.stop
  | succ k ih =>
    unfold Mono.buildFansC
    refine RelE.bind RelE.tick fun _ _ _ => ?_
    refine RelE.bind (RelE.lift h.remaining) ?_
    rintro r _ rfl
    refine RelE.ite Iff.rfl ?_ (RelE.ite Iff.rfl (RelE.pure trivial) RelE.stop)
    refine RelE.bind (R := MonoRel RI RC) ?_ fun M M' hM => ?_
    · unfold Mono.maybeFanC
      refine RelE.bind (RelE.lift (h.canTriangulate hC)) ?_
      rintro b _ rfl
      exact RelE.ite Iff.rfl (h.fanStepC hC w) (RelE.pure h)
    · exact RelE.bind (RelE.lift hM.advancePosition) fun M M' hM => ih hM

end MonoRel

namespace MonoBRel
variable (hC : RespC RC) {b : MonoB I C} {b' : MonoB J D} (hb : MonoBRel RI RC b b')
include hC hb

theorem finishC (w : Winding) (fuel : Nat) :
    RelE RI (fun _ _ => True) (finishMonotoneC (m := TrE I) TrE.tick w fuel b)
      (finishMonotoneC (m := TrE J) TrE.tick w fuel b') := by
  unfold finishMonotoneC
  refine RelE.bind (RelE.lift (hb.build hC)) ?_
  rintro M M' (⟨rfl, rfl⟩ | ⟨m, m', rfl, rfl, h⟩)
  · exact RelE.pure trivial
  · exact h.buildFansC hC w fuel

end MonoBRel

section
variable (hC : RespC RC)
include hC

theorem advanceMonotonesC_rel (w : Winding) (fuel : Nat) {p : PolyList I V} {xy : V → Coords C}
    {p' : PolyList J W} {xy' : W → Coords D} (hp : PolyRel RI RC p xy p' xy')
    {st : St I C} {st' : St J D} (hst : StRel RI RC st st') (t : Trapezoid) (niDown : Nat)
    {n : Nexus I C} {n' : Nexus J D} (hn : NexusRel RI RC n n') {ms : Ot (MonoB I C)}
    {ms' : Ot (MonoB J D)} (hms : OtRel RI RC ms ms') :
    RelE RI (OOtRel RI RC) (advanceMonotonesC (m := TrE I) TrE.tick w fuel p xy st t niDown n ms)
      (advanceMonotonesC (m := TrE J) TrE.tick w fuel p' xy' st' t niDown n' ms') := by
  have hms2 : OtRel RI RC (addToAll ms n.vi n.c) (addToAll ms' n'.vi n'.c) := by
    cases ms <;> cases ms'
    · exact hms.addVertex hC hn.vi hn.c
    · exact hms.elim
    · exact hms.elim
    · exact ⟨hms.1.addVertex hC hn.vi hn.c, hms.2.addVertex hC hn.vi hn.c⟩
  unfold advanceMonotonesC
  have hseg : ∀ o : Option Nat, RelR (SegRel RC) (okInner o >>= getP st.ss) (okInner o >>= getP st'.ss) := by
    intro o
    refine RelR.bind (R := (· = ·)) RelR.eq ?_
    rintro n _ rfl
    exact RelR.getP hst.ss n
  refine RelE.bind (RelE.lift (hseg _)) fun sl sl' hsl => ?_
  refine RelE.bind (RelE.lift (hseg _)) fun sr sr' hsr => ?_
  refine RelE.bind (R := (· = ·)) (RelE.lift RelR.eq) ?_
  rintro nu _ rfl
  generalize addToAll ms n.vi n.c = m1 at hms2
  generalize addToAll ms' n'.vi n'.c = m1' at hms2
  have hsp : ((splitCompleted m1 niDown nu sl sr).1 = none ∧ (splitCompleted m1' niDown nu sl' sr').1 = none ∧
      OOtRel RI RC (splitCompleted m1 niDown nu sl sr).2 (splitCompleted m1' niDown nu sl' sr').2) ∨
      ∃ b b', (splitCompleted m1 niDown nu sl sr).1 = some b ∧
        (splitCompleted m1' niDown nu sl' sr').1 = some b' ∧ MonoBRel RI RC b b' ∧
      OOtRel RI RC (splitCompleted m1 niDown nu sl sr).2 (splitCompleted m1' niDown nu sl' sr').2 := by
    unfold splitCompleted
    rw [hsl.niMin, hsl.niMax, hsr.niMin, hsr.niMax]
    cases m1 <;> cases m1'
    · by_cases h1 : niDown = sl'.niMin ∧ niDown ≠ sr'.niMin ∧ nu ≠ sl'.niMax
      · simp only [if_pos h1]
        exact .inr ⟨_, _, rfl, rfl, hms2, trivial⟩
      · simp only [if_neg h1]
        split
        · exact .inr ⟨_, _, rfl, rfl, hms2, trivial⟩
        · exact .inl ⟨rfl, rfl, hms2⟩
    · exact hms2.elim
    · exact hms2.elim
    · by_cases h1 : niDown = sl'.niMin ∧ niDown ≠ sr'.niMin ∧ nu ≠ sl'.niMax
      · simp only [if_pos h1]
        exact .inr ⟨_, _, rfl, rfl, hms2.1, hms2.2⟩
      · simp only [if_neg h1]
        split
        · exact .inr ⟨_, _, rfl, rfl, hms2.2, hms2.1⟩
        · exact .inl ⟨rfl, rfl, hms2⟩
  generalize splitCompleted m1 niDown nu sl sr = q at hsp
  generalize splitCompleted m1' niDown nu sl' sr' = q' at hsp
  obtain ⟨q1, q2⟩ := q
  obtain ⟨q1', q2'⟩ := q'
  rcases hsp with ⟨h1, h2, h3⟩ | ⟨b, b', h1, h2, h3, h4⟩
  · simp only at h1 h2 h3
    subst h1 h2
    exact RelE.pure h3
  · simp only at h1 h2 h3 h4
    subst h1 h2
    refine RelE.bind (h3.finishC hC w fuel) fun _ _ _ => RelE.lift ?_
    cases q2 <;> cases q2'
    · unfold restartMonotone
      refine RelR.bind (RelR.getP hst.ns _) fun m m' hm => ?_
      refine RelR.bind (hp.coords _ _ hm.vi) fun c c' hc => ?_
      exact (MonoBRel.new hm.vi hc).addVertex hC hn.vi hn.c
    · exact h4.elim
    · exact h4.elim
    · exact h4

theorem triStepC_rel (w : Winding) (fuel : Nat) {p : PolyList I V} {xy : V → Coords C}
    {p' : PolyList J W} {xy' : W → Coords D} (hp : PolyRel RI RC p xy p' xy')
    {st : St I C} {st' : St J D} (hst : StRel RI RC st st') {x : TI I C} {x' : TI J D}
    (hx : TIRel RI RC x x') (t : Trapezoid) (niDown : Nat) :
    RelE RI (TIRel RI RC) (triStepC (m := TrE I) TrE.tick w fuel p xy st x t niDown)
      (triStepC (m := TrE J) TrE.tick w fuel p' xy' st' x' t niDown) := by
  unfold triStepC
  refine RelE.bind (RelE.lift (RelR.getP hst.ns _)) fun n n' hn => ?_
  refine RelE.bind (R := TIRel RI RC) ?_ fun x x' hx => ?_
  · unfold updateMonotonesC
    have hms := hx.ms
    cases h1 : x.monotones <;> cases h2 : x'.monotones <;> rw [h1, h2] at hms
    · exact RelE.pure hx
    · exact hms.elim
    · exact hms.elim
    · refine RelE.bind (advanceMonotonesC_rel hC w fuel hp hst t niDown hn hms) fun o o' ho => ?_
      exact RelE.pure ⟨hx.ti, ho, hx.branch, hx.stack⟩
  · rw [hn.finalType]
    refine RelE.bind (R := (· = ·)) (RelE.lift RelR.eq) ?_
    rintro ft _ rfl
    have hms := hx.ms
    cases ft with
    | V upleft upcenter upright down =>
      refine RelE.bind (R := TIRel RI RC) ?_ fun x x' hx => RelE.lift ?_
      · unfold joinVC
        rw [hx.ti]
        cases h1 : x.monotones <;> cases h2 : x'.monotones <;> rw [h1, h2] at hms
        · exact RelE.pure hx
        · exact hms.elim
        · exact hms.elim
        · rename_i ms ms'
          refine RelE.ite Iff.rfl ?_ (RelE.ite Iff.rfl ?_ (RelE.ite Iff.rfl ?_ RelE.stop))
          · refine RelE.bind (RelE.lift (okOne_rel hC hms)) fun mo mo' hmo => ?_
            exact RelE.pure ⟨rfl, trivial, hx.branch, .cons hmo hx.stack⟩
          · refine RelE.bind (RelE.forM (Q := MonoBRel RI RC) ?_ fun a b hab => hab.finishC hC w fuel)
              fun _ _ _ => RelE.pure ⟨rfl, trivial, hx.branch, hx.stack⟩
            cases ms <;> cases ms'
            · exact .cons hms .nil
            · exact hms.elim
            · exact hms.elim
            · exact .cons hms.1 (.cons hms.2 .nil)
          · have hs := hx.stack
            cases h3 : x.monotoneStack <;> cases h4 : x'.monotoneStack <;> rw [h3, h4] at hs
            · exact RelE.stop
            · cases hs
            · cases hs
            · cases hs with
              | cons g1 g2 =>
                refine RelE.bind (RelE.lift (okOne_rel hC hms)) fun mo mo' hmo => ?_
                exact RelE.pure ⟨rfl, ⟨g1, hmo⟩, hx.branch, g2⟩
      · unfold leaveV
        rw [hx.ti]
        refine RelR.ite Iff.rfl ⟨rfl, hx.ms, hx.branch, hx.stack⟩ ?_
        have hs := hx.branch
        cases h3 : x.branchStack <;> cases h4 : x'.branchStack <;> rw [h3, h4] at hs
        · exact rfl
        · cases hs
        · cases hs
        · cases hs with
          | cons g1 g2 =>
            exact ⟨g1.1, g1.2, g2, hx.stack⟩
    | I upleft upright downleft downright =>
      simp only [descendC, descendI, hx.ti]
      exact RelE.ite Iff.rfl (RelE.pure ⟨rfl, hx.ms, hx.branch, hx.stack⟩)
        (RelE.ite Iff.rfl (RelE.pure ⟨rfl, hx.ms, hx.branch, hx.stack⟩) RelE.stop)
    | A up downleft downcenter downright =>
      simp only [descendC, descendA]
      cases h1 : x.monotones <;> cases h2 : x'.monotones <;> rw [h1, h2] at hms
      · exact RelE.pure ⟨rfl, trivial, .cons ⟨rfl, MonoBRel.new hn.vi hn.c⟩ (.cons ⟨rfl, trivial⟩ hx.branch),
          hx.stack⟩
      · exact hms.elim
      · exact hms.elim
      · rename_i ms ms'
        refine RelE.bind (R := fun r r' => MonoBRel RI RC r.1 r'.1 ∧ MonoBRel RI RC r.2 r'.2)
          (RelE.lift ?_) ?_
        rotate_left
        · rintro ⟨r1, r2⟩ ⟨r1', r2'⟩ ⟨hr1, hr2⟩
          exact RelE.pure ⟨rfl, hr1, .cons ⟨rfl, trivial⟩ (.cons ⟨rfl, hr2⟩ hx.branch), hx.stack⟩
        unfold splitMonotones
        cases ms <;> cases ms'
        · refine RelR.bind (R := (· = ·)) RelR.eq ?_
          rintro nu _ rfl
          refine RelR.bind (RelR.getP hst.ns _) fun m m' hm => ?_
          have hnew := (MonoBRel.new hm.vi hm.c).addVertex hC hn.vi hn.c
          have hseg : ∀ o : Option Nat, RelR (SegRel RC) (okInner o >>= getP st.ss)
              (okInner o >>= getP st'.ss) := by
            intro o
            refine RelR.bind (R := (· = ·)) RelR.eq ?_
            rintro n _ rfl
            exact RelR.getP hst.ss n
          refine RelR.bind (hseg _) fun sl sl' hsl => ?_
          refine RelR.ite (by rw [hsl.niMax]) ⟨hnew, hms⟩ ?_
          refine RelR.bind (hseg _) fun sr sr' hsr => ?_
          exact RelR.ite (by rw [hsr.niMax]) ⟨hms, hnew⟩ rfl
        · exact hms.elim
        · exact hms.elim
        · exact hms

theorem innerEvents_rel (w : Winding) (fuel : Nat) {p : PolyList I V} {xy : V → Coords C}
    {p' : PolyList J W} {xy' : W → Coords D} (hp : PolyRel RI RC p xy p' xy')
    {st : St I C} {st' : St J D} (hst : StRel RI RC st st') :
    RelE RI (fun _ _ => True) (innerEvents w fuel p xy st) (innerEvents w fuel p' xy' st') := by
  unfold innerEvents triangulateInnerC
  refine RelE.bind (R := (· = ·)) ?_ ?_
  · generalize 0 = qi
    generalize fuel = k
    induction k generalizing qi with
    | zero => exact RelE.stop
    | succ k ih =>
      unfold topTrapezoidC
      refine RelE.bind RelE.tick fun _ _ _ => ?_
      refine RelE.bind (RelE.lift (RelR.getP hst.qs _)) fun q q' hq => ?_
      rcases q with ⟨l, r, _ | _⟩ | _ <;> rcases q' with ⟨l', r', _ | _⟩ | _
      · exact RelE.stop
      · exact hq.2.2.elim
      · exact hq.elim
      · exact hq.2.2.elim
      · obtain ⟨rfl, rfl, -⟩ := hq
        exact ih r
      · exact hq.elim
      · exact hq.elim
      · exact hq.elim
      · exact RelE.pure hq
  · rintro ti _ rfl
    have key : ∀ k (x : TI I C) (x' : TI J D), TIRel RI RC x x' → RelE RI (fun _ _ => True)
        (triLoopC (m := TrE I) TrE.tick w fuel p xy st k x) (triLoopC (m := TrE J) TrE.tick w fuel p' xy' st' k x') := by
      intro k
      induction k with
      | zero => exact fun _ _ _ => RelE.stop
      | succ k ih =>
        intro x x' hx
        unfold triLoopC
        refine RelE.bind RelE.tick fun _ _ _ => ?_
        rw [hx.ti, hst.ts]
        refine RelE.bind (R := (· = ·)) (RelE.lift RelR.eq) ?_
        rintro t _ rfl
        cases t.down with
        | some niDown =>
          exact RelE.bind (triStepC_rel hC w fuel hp hst hx t niDown) fun x x' hx => ih x x' hx
        | none =>
          refine RelE.ite ?_ RelE.stop (RelE.ite ?_ RelE.stop (RelE.ite ?_ RelE.stop (RelE.pure trivial)))
          · have h := hx.stack
            cases h1 : x.monotoneStack <;> cases h2 : x'.monotoneStack <;> rw [h1, h2] at h <;>
              first | (cases h; done) | simp
          · have h := hx.branch
            cases h1 : x.branchStack <;> cases h2 : x'.branchStack <;> rw [h1, h2] at h <;>
              first | (cases h; done) | simp
          · have h := hx.ms
            cases h1 : x.monotones <;> cases h2 : x'.monotones <;> rw [h1, h2] at h <;>
              first | (exact h.elim) | simp
    exact key fuel _ _ ⟨rfl, trivial, .nil, .nil⟩

end

end

/-- Equal events if the indices are the same. -/
theorem evRel_eq {es es' : List (Option (Call I))} (h : List.Forall₂ (EvRel fun i j : I => i = j) es es') : es = es' := by
  induction h with
  | nil => rfl
  | cons h _ ih =>
    rename_i e e' _ _ _
    rw [ih]
    congr 1
    rcases e with _ | ⟨a, b, c⟩ | v <;> rcases e' with _ | ⟨a', b', c'⟩ | v'
    · rfl
    · exact h.elim
    · exact h.elim
    · exact h.elim
    · obtain ⟨h1, h2, h3⟩ := h
      rw [h1, h2, h3]
    · exact h.elim
    · exact h.elim
    · exact h.elim
    · simp only [EvRel, CallRel] at h
      rw [h]

/-- Same indices, related coordinates: the counted triangulation step is the same. -/
theorem triangulateC_same {RC : Coords C → Coords D → Prop} (hC : RespC RC) (fuel : Nat) {p : PolyList I V} {xy : V → Coords C}
    {p' : PolyList I W} {xy' : W → Coords D} (hp : PolyRel (fun i j : I => i = j) RC p xy p' xy') {st : St I C} {st' : St I D}
    (hst : StRel (fun i j : I => i = j) RC st st') (F : FanFormat I) :
    st'.triangulateC fuel p' xy' F = st.triangulateC fuel p xy F := by
  have h := innerEvents_rel hC F.winding fuel hp hst
  have e : innerEvents F.winding fuel p' xy' st' = innerEvents F.winding fuel p xy st := by
    obtain ⟨h1, h2⟩ := h
    refine TrE.ext (evRel_eq h1).symm ?_
    cases h3 : (innerEvents F.winding fuel p xy st).res <;> cases h4 : (innerEvents F.winding fuel p' xy' st').res <;> rw [h3, h4] at h2
    · cases h2; rfl
    · exact h2.elim
    · exact h2.elim
  have k1 : triangulateInnerC (m := CtM F) CtM.tick F.winding fuel p xy st =
      TrE.replay F (innerEvents F.winding fuel p xy st) :=
    ((TrE.replayHom F).triangulateInnerC TrE.tick F.winding fuel p xy st).symm
  have k2 : triangulateInnerC (m := CtM F) CtM.tick F.winding fuel p' xy' st' =
      TrE.replay F (innerEvents F.winding fuel p' xy' st') :=
    ((TrE.replayHom F).triangulateInnerC TrE.tick F.winding fuel p' xy' st').symm
  simp only [St.triangulateC, k1, k2, e]

/-- Only the answers to the questions matter for the cost. -/
theorem cost_answers [DecidableEq I] (cfg : Cfg) (fuel : Nat) (p : PolyList I V)
    (xy : V → Coords C) (p' : PolyList I W) (xy' : W → Coords D) (he : p'.elems = p.elems)
    (ha : SameAnswers (fun i => (p.getVertex i).map xy) (fun i => (p'.getVertex i).map xy')) :
    RelR (SameCost fun st st' => ∀ fuel F, St.triangulateC fuel p' xy' st' F = St.triangulateC fuel p xy st F)
      (trapezoidizeC cfg fuel p xy) (trapezoidizeC cfg fuel p' xy') := by
  have hC : RespC (fun (a : Coords C) (b : Coords D) => ∃ i, (p.getVertex i).map xy = some a ∧
      (p'.getVertex i).map xy' = some b) := by
    constructor
    · rintro a a' b b' ⟨i, h1, h2⟩ ⟨j, h3, h4⟩
      exact ha.cmp _ _ _ _ _ _ h1 h3 h2 h4
    · rintro a a' b b' c c' ⟨i, h1, h2⟩ ⟨j, h3, h4⟩ ⟨k, h5, h6⟩
      exact ha.side _ _ _ _ _ _ _ _ _ h1 h3 h5 h2 h4 h6
    · rintro a a' b b' ⟨i, h1, h2⟩ ⟨j, h3, h4⟩
      exact ha.eqX _ _ _ _ _ _ h1 h3 h2 h4
    · rintro a a' b b' ⟨i, h1, h2⟩ ⟨j, h3, h4⟩
      exact ha.eqY _ _ _ _ _ _ h1 h3 h2 h4
  have hp : PolyRel (fun i j : I => i = j) (fun (a : Coords C) (b : Coords D) => ∃ i, (p.getVertex i).map xy = some a ∧
      (p'.getVertex i).map xy' = some b) p xy p' xy' := by
    refine ⟨?_⟩
    rintro i _ rfl ε
    have hd := ha.defined i
    unfold PolyList.coords
    cases h1 : p.getVertex i <;> cases h2 : p'.getVertex i <;> rw [h1, h2] at hd
    · exact rfl
    · cases hd
    · cases hd
    · exact ⟨i, by rw [h1]; rfl, by rw [h2]; rfl⟩
  have hI : RespI (fun i j : I => i = j) := by
    rintro i _ j _ rfl rfl
    exact Iff.rfl
  refine RelR.imp (trapezoidizeC_rel hC hI cfg fuel hp ?_) fun r r' hr =>
    ⟨fun fuel F => triangulateC_same hC fuel hp hr.1 F, hr.2⟩
  rw [he]
  refine List.forall₂_same.2 fun e _ => ?_
  rcases e with _ | i | _
  · exact trivial
  · exact rfl
  · exact trivial

end Tri
