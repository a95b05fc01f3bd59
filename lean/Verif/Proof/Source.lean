import Verif.Proof.Sizes
import Verif.Proof.FormatRuns2

/-!
# Where the emitted indices come from, and no undefined behaviour
-/

set_option linter.unusedSectionVars false

namespace Tri

variable {I V C : Type}

/-- A recorded computation: every call satisfies `K`, the outcome satisfies `Ens E P`. -/
def TEns {α : Type} (K : Call I → Prop) (E : Fault IErr → Prop) (P : α → Prop) (x : TrM I α) : Prop :=
  (∀ c ∈ x.calls, K c) ∧ Ens E P x.res

namespace TEns

variable {α β : Type} {K : Call I → Prop} {E : Fault IErr → Prop} {P Q : α → Prop} {R : β → Prop}

theorem pure {a : α} (h : P a) : TEns K E P (Pure.pure a : TrM I α) := ⟨by simp [TrM.pure_def], h⟩

theorem stop {e : Fault IErr} (h : E e) : TEns K E P (FanM.stop e : TrM I α) :=
  ⟨fun _ h => (by cases h), h⟩

theorem lift {r : Res IErr α} (h : Ens E P r) : TEns K E P (FanM.lift r : TrM I α) := by
  cases r with
  | ok a => exact pure h
  | error e => exact stop h

theorem imp {x : TrM I α} (h : TEns K E P x) (hPQ : ∀ a, P a → Q a) : TEns K E Q x :=
  ⟨h.1, Ens.imp h.2 hPQ⟩

theorem bind {x : TrM I α} {f : α → TrM I β} (hx : TEns K E P x) (hf : ∀ a, P a → TEns K E R (f a)) :
    TEns K E R (x >>= f) := by
  obtain ⟨h1, h2⟩ := hx
  rcases x with ⟨cs, e | a⟩
  · exact ⟨h1, h2⟩
  · obtain ⟨h3, h4⟩ := hf a h2
    rw [TrM.mk_ok_bind]
    exact ⟨forall_append h1 h3, h4⟩

theorem newFan {a b c : I} (h : K (.newFan a b c)) :
    TEns K E (fun _ => True) (FanM.newFan a b c : TrM I Unit) :=
  ⟨fun x hx => by rw [List.mem_singleton.1 hx]; exact h, trivial⟩

theorem extendFan {v : I} (h : K (.extend v)) :
    TEns K E (fun _ => True) (FanM.extendFan v : TrM I Unit) :=
  ⟨fun x hx => by rw [List.mem_singleton.1 hx]; exact h, trivial⟩

theorem ite {c : Prop} [Decidable c] {x y : TrM I α} (h1 : c → TEns K E P x) (h2 : ¬ c → TEns K E P y) :
    TEns K E P (if c then x else y) := by
  split
  · exact h1 ‹_›
  · exact h2 ‹_›

theorem forM {f : α → TrM I Unit} (l : List α) (h : ∀ a ∈ l, TEns K E (fun _ => True) (f a)) :
    TEns K E (fun _ => True) (l.forM f) := by
  induction l with
  | nil => exact pure trivial
  | cons a l ih =>
    show TEns K E _ (f a >>= fun _ => l.forM f)
    exact bind (h a (by simp)) fun _ _ => ih fun b hb => h b (by simp [hb])

end TEns

section Source
variable (B : I → Prop)

/-- All indices of a call satisfy `B`. -/
def KB (c : Call I) : Prop := ∀ i ∈ c.indices, B i

/-- All vertices of a chain satisfy `B`. -/
def MonoSrc (M : Mono I C) : Prop := ∀ v ∈ M.arr, B v.1

/-- Computation that only names vertices satisfying `B`, without undefined behaviour. -/
abbrev TSafe {α : Type} (P : α → Prop) (x : TrM I α) : Prop := TEns (KB B) (· ≠ .ub) P x

variable {B}

theorem mono_get {M : Mono I C} (h : MonoSrc B M) (i : Nat) :
    Safe (fun v => B v.1) (getP M.arr i : Res IErr _) :=
  Ens.imp (Ens.getP (by simp)) fun v hv => h v (mem_of_get hv)

theorem skippedPop_src {M : Mono I C} (h : MonoSrc B M) :
    Safe (fun r => B r.1.1 ∧ MonoSrc B r.2) M.skippedPop := by
  unfold Mono.skippedPop
  refine Ens.bind (Ens.subP (by simp)) fun top _ => ?_
  exact Ens.bind (mono_get h _) fun a ha => ⟨ha, h⟩

theorem skippedPeek_src {M : Mono I C} (h : MonoSrc B M) : Safe (fun r => B r.1) M.skippedPeek := by
  unfold Mono.skippedPeek
  exact Ens.bind (Ens.subP (by simp)) fun top _ => mono_get h _

theorem skippedPeek2_src {M : Mono I C} (h : MonoSrc B M) :
    Safe (fun r => B r.1.1 ∧ B r.2.1) M.skippedPeek2 := by
  unfold Mono.skippedPeek2
  refine Ens.bind (Ens.subP (by simp)) fun top _ => Ens.bind (mono_get h _) fun a ha => ?_
  exact Ens.bind (Ens.subP (by simp)) fun top _ => Ens.bind (mono_get h _) fun b hb => ⟨ha, hb⟩

theorem pendingPeek_src {M : Mono I C} (h : MonoSrc B M) : Safe (fun r => B r.1) M.pendingPeek :=
  mono_get h _

theorem transferPending_src {M : Mono I C} (h : MonoSrc B M) : Safe (MonoSrc B) M.transferPending := by
  unfold Mono.transferPending Mono.swapIfNe
  refine Ens.bind (P := fun arr : List (I × Coords C) => ∀ v ∈ arr, B v.1) (Ens.ite (fun _ => ?_) fun _ => h) fun arr harr => harr
  unfold Mono.swapP
  refine Ens.bind (mono_get h _) fun a ha => Ens.bind (mono_get h _) fun b hb => ?_
  exact forall_set (P := fun v : I × Coords C => B v.1) (forall_set h hb) ha

variable [Scalar C]

theorem canTriangulate_safe {M : Mono I C} : Safe (fun _ => True) M.canTriangulate := by
  unfold Mono.canTriangulate Mono.pendingPeek Mono.skippedPeek2
  refine Ens.ite (fun _ => ?_) fun _ => trivial
  refine Ens.bind (Ens.getP (by simp)) fun _ _ => ?_
  refine Ens.bind (P := fun _ => True) ?_ fun _ _ => trivial
  refine Ens.bind (Ens.subP (by simp)) fun _ _ => Ens.bind (Ens.getP (by simp)) fun _ _ => ?_
  exact Ens.bind (Ens.subP (by simp)) fun _ _ => Ens.bind (Ens.getP (by simp)) fun _ _ => trivial

theorem addTriangle_src (b : Mono.Bodt) {v : I} (hv : B v) :
    TSafe B (fun _ => True) (b.addTriangle v : TrM I Mono.Bodt) := by
  cases b with
  | builder =>
    refine TEns.bind (TEns.extendFan ?_) fun _ _ => TEns.pure trivial
    simpa [KB, Call.indices] using hv
  | deferred dt => exact TEns.pure trivial

theorem backLoop_src (fuel : Nat) {M : Mono I C} (h : MonoSrc B M) (b : Mono.Bodt) :
    TSafe B (fun r => MonoSrc B r.1) (Mono.backLoop (m := TrM I) fuel M b) := by
  induction fuel generalizing M b with
  | zero => exact TEns.stop (by simp)
  | succ k ih =>
    unfold Mono.backLoop
    refine TEns.bind (TEns.lift canTriangulate_safe) fun g _ => TEns.ite (fun _ => ?_) fun _ => TEns.pure h
    refine TEns.bind (TEns.lift (skippedPop_src h)) fun r hr => ?_
    refine TEns.bind (TEns.lift (skippedPeek_src hr.2)) fun v hv => ?_
    exact TEns.bind (addTriangle_src b hv) fun b' _ => ih hr.2 b'

theorem advLoop_src (fuel : Nat) {M : Mono I C} (h : MonoSrc B M) (b : Mono.Bodt) :
    TSafe B (fun r => MonoSrc B r.1) (Mono.advLoop (m := TrM I) fuel M b) := by
  induction fuel generalizing M b with
  | zero => exact TEns.stop (by simp)
  | succ k ih =>
    unfold Mono.advLoop
    refine TEns.bind (TEns.lift canTriangulate_safe) fun g _ => TEns.ite (fun _ => ?_) fun _ => TEns.pure h
    refine TEns.bind (TEns.lift (skippedPop_src h)) fun r hr => ?_
    refine TEns.bind (TEns.lift (pendingPeek_src hr.2)) fun v hv => ?_
    refine TEns.bind (addTriangle_src b hv) fun b' _ => ?_
    exact TEns.bind (TEns.lift (transferPending_src hr.2)) fun M' hM' => ih hM' b'

theorem deferredIndex_src {M : Mono I C} (h : MonoSrc B M) (bt : Bool) (i : Nat) :
    Safe B (M.deferredIndex bt i) := by
  unfold Mono.deferredIndex Mono.deferredPos
  refine Ens.bind (P := fun _ => True) (Ens.ite (fun _ => trivial) fun _ => ?_) fun _ _ => ?_
  · refine Ens.bind (Ens.subP (by simp)) fun _ _ => ?_
    exact Ens.imp (Ens.subP (by simp)) fun _ _ => trivial
  · exact Ens.bind (mono_get h _) fun _ hv => hv

theorem extendDeferred_src {M : Mono I C} (h : MonoSrc B M) (bt : Bool) (i n : Nat) :
    TSafe B (fun _ => True) (Mono.extendDeferred (m := TrM I) M bt i n) := by
  induction n generalizing i with
  | zero => exact TEns.pure trivial
  | succ n ih =>
    unfold Mono.extendDeferred
    refine TEns.bind (TEns.lift (deferredIndex_src h bt i)) fun v hv => ?_
    refine TEns.bind (TEns.extendFan ?_) fun _ _ => ih (i + 1)
    simpa [KB, Call.indices] using hv

theorem finishFan_src {M : Mono I C} (h : MonoSrc B M) (bt : Bool) (b : Mono.Bodt) :
    TSafe B (fun _ => True) (Mono.finishFan (m := TrM I) bt M b) := by
  cases b with
  | builder => exact TEns.pure trivial
  | deferred dt =>
    unfold Mono.finishFan Mono.emitDeferred
    refine TEns.bind (P := fun v => B v.1 ∧ B v.2) (TEns.lift ?_) fun v hv => ?_
    · unfold Mono.deferredBase
      refine Ens.ite (fun _ => ?_) fun _ => ?_
      · refine Ens.bind (pendingPeek_src h) fun v0 h0 => ?_
        exact Ens.bind (skippedPeek_src h) fun v1 h1 => ⟨h0, h1⟩
      · exact Ens.bind (skippedPeek2_src h) fun v hv => hv
    · refine TEns.bind (TEns.lift (deferredIndex_src h bt 0)) fun v2 hv2 => ?_
      refine TEns.bind (TEns.newFan ?_) fun _ _ => extendDeferred_src h bt _ _
      simpa [KB, Call.indices] using ⟨hv.1, hv.2, hv2⟩

theorem fanStep_src (w : Winding) {M : Mono I C} (h : MonoSrc B M) :
    TSafe B (MonoSrc B) (Mono.fanStep (m := TrM I) w M) := by
  unfold Mono.fanStep
  refine TEns.bind (TEns.lift (skippedPop_src h)) ?_
  rintro ⟨v1, M1⟩ ⟨h1, hM1⟩
  simp only at h1 hM1 ⊢
  refine TEns.bind (TEns.lift (skippedPeek_src hM1)) fun v0 h0 => ?_
  refine TEns.bind (TEns.lift (pendingPeek_src hM1)) fun v2 h2 => ?_
  refine TEns.bind (TEns.lift canTriangulate_safe) fun bt _ => ?_
  refine TEns.bind (P := fun _ => True) ?_ fun bodt _ => ?_
  · unfold Mono.startFan
    refine TEns.ite (fun _ => ?_) fun _ => TEns.pure trivial
    refine TEns.bind (TEns.newFan ?_) fun _ _ => TEns.pure trivial
    cases M1.isLeftChain <;> simp [KB, Call.indices, h0, h1, h2]
  · refine TEns.bind (P := fun r => MonoSrc B r.1) ?_ fun r hr => ?_
    · unfold Mono.growFan
      refine TEns.ite (fun _ => ?_) fun _ => ?_
      · refine TEns.bind (TEns.lift (skippedPop_src hM1)) fun r hr => ?_
        refine TEns.bind (TEns.lift (skippedPeek_src hr.2)) fun v hv => ?_
        exact TEns.bind (addTriangle_src _ hv) fun b' _ => backLoop_src _ hr.2 b'
      · exact TEns.bind (TEns.lift (transferPending_src hM1)) fun M' hM' => advLoop_src _ hM' _
    · exact TEns.bind (finishFan_src hr bt r.2) fun _ _ => TEns.pure hr

theorem buildFans_src (w : Winding) (fuel : Nat) {M : Mono I C} (h : MonoSrc B M) :
    TSafe B (fun _ => True) (Mono.buildFans (m := TrM I) w fuel M) := by
  induction fuel generalizing M with
  | zero => exact TEns.stop (by simp)
  | succ k ih =>
    unfold Mono.buildFans
    refine TEns.bind (P := fun _ => True) (TEns.lift ?_) fun r _ => TEns.ite (fun _ => ?_) fun _ =>
      TEns.ite (fun _ => TEns.pure trivial) fun _ => TEns.stop (by simp)
    · unfold Mono.remaining
      exact Ens.bind (Ens.subP (by simp)) fun _ _ => trivial
    · refine TEns.bind (P := MonoSrc B) ?_ fun M1 h1 => TEns.bind (P := MonoSrc B) (TEns.lift ?_)
        fun M2 h2 => ih h2
      · unfold Mono.maybeFan
        exact TEns.bind (TEns.lift canTriangulate_safe) fun b _ =>
          TEns.ite (fun _ => fanStep_src w h) fun _ => TEns.pure h
      · unfold Mono.advancePosition
        refine Ens.ite (fun _ => transferPending_src h1) fun _ => ?_
        intro v hv
        exact h1 v (List.mem_of_mem_take hv)

/-- All vertices of a chain under construction satisfy `B`. -/
def MonoBSrc (B : I → Prop) (b : MonoB I C) : Prop := B b.first.1 ∧ ∀ v ∈ b.rest, B v.1

theorem MonoBSrc.new {vi : I} (h : B vi) (c : Coords C) : MonoBSrc B (MonoB.new vi c) :=
  ⟨h, by simp [MonoB.new]⟩

theorem MonoBSrc.addVertex {b : MonoB I C} (hb : MonoBSrc B b) {vi : I} (h : B vi) (c : Coords C) :
    MonoBSrc B (b.addVertex vi c) :=
  ⟨hb.1, forall_append hb.2 (by simpa using h)⟩

theorem finishMonotone_src (w : Winding) (fuel : Nat) {b : MonoB I C} (hb : MonoBSrc B b) :
    TSafe B (fun _ => True) (finishMonotone (m := TrM I) w fuel b) := by
  unfold finishMonotone
  refine TEns.bind (P := fun M => ∀ M', M = some M' → MonoSrc B M') (TEns.lift ?_) fun M hM => ?_
  · unfold MonoB.build
    split
    · rename_i v1 v2 tl hr
      refine Ens.ite (fun _ => ?_) fun _ => by intro M' h; cases h
      rintro M' h
      cases h
      intro v hv
      rcases List.mem_cons.1 hv with rfl | hv
      · exact hb.1
      · exact hb.2 v (by rw [hr]; exact hv)
    · simp [Ens]
  · cases M with
    | none => exact TEns.pure trivial
    | some M => exact buildFans_src w fuel (hM M rfl)

/-- The same for one or two chains. -/
def OtSrc (B : I → Prop) (ms : Ot (MonoB I C)) : Prop := ∀ b ∈ ms.toList, MonoBSrc B b

/-- The same for everything `triangulate_inner` holds. -/
structure TISrc (B : I → Prop) (x : TI I C) : Prop where
  cur : ∀ ms, x.monotones = some ms → OtSrc B ms
  branch : ∀ e ∈ x.branchStack, ∀ ms, e.2 = some ms → OtSrc B ms
  stack : ∀ b ∈ x.monotoneStack, MonoBSrc B b

variable [DecidableEq I]

theorem okInner_safe {α : Type} (o : Option α) : Safe (fun _ => True) (okInner o) := by
  cases o <;> simp [okInner, Ens]

theorem okInner_getP_safe {α : Type} (o : Option Nat) (xs : List α) :
    Safe (fun _ => True) (okInner o >>= getP xs) :=
  Ens.bind (okInner_safe o) fun _ _ => Ens.imp (Ens.getP (by simp)) fun _ _ => trivial

theorem triStep_src (w : Winding) (fuel : Nat) (p : PolyList I V) (xy : V → Coords C) {st : St I C}
    (hst : ∀ n ∈ st.ns, B n.vi) {x : TI I C} (hx : TISrc B x) (t : Trapezoid) (niDown : Nat) :
    TSafe B (TISrc B) (triStep (m := TrM I) w fuel p xy st x t niDown) := by
  unfold triStep
  refine TEns.bind (TEns.lift (Ens.getP (by simp))) fun nDown hnD => ?_
  have hD := hst nDown (mem_of_get hnD)
  refine TEns.bind (P := TISrc B) ?_ fun x hx => ?_
  · unfold updateMonotones
    split
    · exact TEns.pure hx
    · rename_i ms hms
      refine TEns.bind (P := fun o => ∀ ms, o = some ms → OtSrc B ms) ?_ fun o ho =>
        TEns.pure ⟨ho, hx.branch, hx.stack⟩
      have hms0 := hx.cur ms hms
      have hms' : OtSrc B (addToAll ms nDown.vi nDown.c) := by
        cases ms with
        | one a =>
          intro b hb
          simp only [addToAll, Ot.toList, List.mem_singleton] at hb
          subst hb
          exact (hms0 a (by simp [Ot.toList])).addVertex hD _
        | two a a' =>
          intro b hb
          simp only [addToAll, Ot.toList, List.mem_cons, List.not_mem_nil, or_false] at hb
          rcases hb with rfl | rfl
          · exact (hms0 a (by simp [Ot.toList])).addVertex hD _
          · exact (hms0 a' (by simp [Ot.toList])).addVertex hD _
      unfold advanceMonotones
      refine TEns.bind (TEns.lift (okInner_getP_safe _ _)) fun sl _ => ?_
      refine TEns.bind (TEns.lift (okInner_getP_safe _ _)) fun sr _ => ?_
      refine TEns.bind (TEns.lift (okInner_safe _)) fun nu _ => ?_
      have hsp : (∀ b, (splitCompleted (addToAll ms nDown.vi nDown.c) niDown nu sl sr).1 = some b →
            MonoBSrc B b) ∧
          (∀ o, (splitCompleted (addToAll ms nDown.vi nDown.c) niDown nu sl sr).2 = some o →
            OtSrc B o) := by
        generalize addToAll ms nDown.vi nDown.c = ms at hms'
        unfold splitCompleted
        cases ms with
        | one a =>
          have ha := hms' a (by simp [Ot.toList])
          split
          · exact ⟨fun b hb => by cases hb; exact ha, fun o ho => by cases ho⟩
          · split
            · exact ⟨fun b hb => by cases hb; exact ha, fun o ho => by cases ho⟩
            · exact ⟨fun b hb => (by cases hb), fun o ho => by cases ho; exact hms'⟩
        | two a b =>
          have ha := hms' a (by simp [Ot.toList])
          have hb := hms' b (by simp [Ot.toList])
          split
          · exact ⟨fun b' hb => by cases hb; exact ha,
              fun o ho => by cases ho; simpa [OtSrc, Ot.toList] using hb⟩
          · split
            · exact ⟨fun b' hb' => by cases hb'; exact hb,
                fun o ho => by cases ho; simpa [OtSrc, Ot.toList] using ha⟩
            · exact ⟨fun b' hb => (by cases hb), fun o ho => by cases ho; exact hms'⟩
      split
      · rename_i o heq
        rw [heq] at hsp
        exact TEns.pure hsp.2
      · rename_i done o heq
        rw [heq] at hsp
        refine TEns.bind (finishMonotone_src w fuel (hsp.1 done rfl)) fun _ _ => TEns.lift ?_
        cases o with
        | some o => exact hsp.2
        | none =>
          simp only [restartMonotone]
          refine Ens.bind (Ens.getP (by simp)) fun nUp hnU => ?_
          refine Ens.bind (coords_safe p xy nUp.vi) fun c _ => ?_
          intro ms hms
          cases hms
          intro b hb
          simp only [Ot.toList, List.mem_singleton] at hb
          subst hb
          exact (MonoBSrc.new (hst nUp (mem_of_get hnU)) c).addVertex hD _
  · refine TEns.bind (P := fun _ => True) (TEns.lift ?_) fun ft _ => ?_
    · unfold Nexus.finalType
      split
      · exact trivial
      · simp [Ens]
    · cases ft with
      | V upleft upcenter upright down =>
        simp only [descend, descendV]
        refine TEns.bind (P := TISrc B) ?_ fun x hx => TEns.lift ?_
        · unfold joinV
          split
          · exact TEns.pure hx
          · rename_i ms hms
            have hms0 := hx.cur ms hms
            refine TEns.ite (fun _ => ?_) fun _ => TEns.ite (fun _ => ?_) fun _ =>
              TEns.ite (fun _ => ?_) fun _ => TEns.stop (by simp)
            · refine TEns.bind (P := MonoBSrc B) (TEns.lift ?_) fun mo hmo => TEns.pure ?_
              · cases ms with
                | one a => exact hms0 a (by simp [Ot.toList])
                | two a b => simp [Ot.okOne, Ens]
              · refine ⟨fun ms h => (by cases h), hx.branch, ?_⟩
                intro b hb
                rcases List.mem_cons.1 hb with rfl | hb
                · exact hmo
                · exact hx.stack b hb
            · refine TEns.bind (TEns.forM _ fun a ha => finishMonotone_src w fuel (hms0 a ha)) fun _ _ =>
                TEns.pure ⟨fun ms h => (by cases h), hx.branch, hx.stack⟩
            · split
              · exact TEns.stop (by simp)
              · rename_i l rest hst'
                refine TEns.bind (P := MonoBSrc B) (TEns.lift ?_) fun r hr => TEns.pure ?_
                · cases ms with
                  | one a => exact hms0 a (by simp [Ot.toList])
                  | two a b => simp [Ot.okOne, Ens]
                · refine ⟨?_, hx.branch, fun b hb => hx.stack b (by rw [hst']; simp [hb])⟩
                  intro ms h
                  cases h
                  have hl := hx.stack l (by rw [hst']; simp)
                  simpa [OtSrc, Ot.toList] using ⟨hl, hr⟩
        · unfold leaveV
          refine Ens.ite (fun _ => ⟨hx.cur, hx.branch, hx.stack⟩) fun _ => ?_
          split
          · simp [Ens]
          · rename_i ti ms rest hbs
            refine ⟨?_, ?_, hx.stack⟩
            · intro ms' h
              exact hx.branch (ti, ms) (by rw [hbs]; simp) ms' h
            · intro e he
              exact hx.branch e (by rw [hbs]; simp [show e ∈ rest from he])
      | I upleft upright downleft downright =>
        simp only [descend, descendI]
        refine TEns.ite (fun _ => TEns.pure ⟨hx.cur, hx.branch, hx.stack⟩) fun _ =>
          TEns.ite (fun _ => TEns.pure ⟨hx.cur, hx.branch, hx.stack⟩) fun _ => TEns.stop (by simp)
      | A up downleft downcenter downright =>
        simp only [descend, descendA]
        split
        · rename_i ms hms
          have hms0 := hx.cur ms hms
          refine TEns.bind (P := fun r => MonoBSrc B r.1 ∧ MonoBSrc B r.2) (TEns.lift ?_) ?_
          · unfold splitMonotones
            split
            · rename_i a b
              exact ⟨hms0 a (by simp [Ot.toList]), hms0 b (by simp [Ot.toList])⟩
            · rename_i mo
              have hmo := hms0 mo (by simp [Ot.toList])
              refine Ens.bind (okInner_safe _) fun nu _ => ?_
              refine Ens.bind (Ens.getP (by simp)) fun n hn => ?_
              have hnew := (MonoBSrc.new (hst n (mem_of_get hn)) n.c).addVertex hD nDown.c
              refine Ens.bind (okInner_getP_safe _ _) fun sl _ => Ens.ite (fun _ => ⟨hnew, hmo⟩) fun _ => ?_
              exact Ens.bind (okInner_getP_safe _ _) fun sr _ =>
                Ens.ite (fun _ => ⟨hmo, hnew⟩) fun _ => by simp [Ens]
          · rintro ⟨l, r⟩ ⟨hl, hr⟩
            refine TEns.pure ⟨?_, ?_, hx.stack⟩
            · intro ms h
              cases h
              simpa [OtSrc, Ot.toList] using hl
            · intro e he ms h
              simp only [List.mem_cons] at he
              rcases he with rfl | rfl | he
              · cases h
              · cases h
                simpa [OtSrc, Ot.toList] using hr
              · exact hx.branch e he ms h
        · refine TEns.pure ⟨fun ms h => (by cases h), ?_, hx.stack⟩
          intro e he ms h
          simp only [List.mem_cons] at he
          rcases he with rfl | rfl | he
          · cases h
            simpa [OtSrc, Ot.toList] using MonoBSrc.new hD nDown.c
          · cases h
          · exact hx.branch e he ms h

theorem topTrapezoid_safe (qs : List (QueryNode C)) (fuel qi : Nat) :
    Safe (fun _ => True) (topTrapezoid qs fuel qi) := by
  induction fuel generalizing qi with
  | zero => simp [topTrapezoid, Ens]
  | succ k ih =>
    unfold topTrapezoid
    refine Ens.bind (Ens.getP (by simp)) fun q _ => ?_
    split
    · exact ih _
    · simp [Ens]
    · exact trivial

theorem innerTrace_src (w : Winding) (fuel : Nat) (p : PolyList I V) (xy : V → Coords C) {st : St I C}
    (hst : ∀ n ∈ st.ns, B n.vi) : TSafe B (fun _ => True) (innerTrace w fuel p xy st) := by
  unfold innerTrace triangulateInner
  refine TEns.bind (TEns.lift (topTrapezoid_safe _ _ _)) fun ti _ => ?_
  have key : ∀ k (x : TI I C), TISrc B x → TSafe B (fun _ => True)
      (triLoop (m := TrM I) w fuel p xy st k x) := by
    intro k
    induction k with
    | zero => exact fun x hx => TEns.stop (by simp)
    | succ k ih =>
      intro x hx
      unfold triLoop
      refine TEns.bind (TEns.lift (Ens.getP (by simp))) fun t _ => ?_
      split
      · exact TEns.bind (triStep_src w fuel p xy hst hx t _) fun x hx => ih x hx
      · exact TEns.ite (fun _ => TEns.stop (by simp)) fun _ => TEns.ite (fun _ => TEns.stop (by simp))
          fun _ => TEns.ite (fun _ => TEns.stop (by simp)) fun _ => TEns.pure trivial
  exact key fuel _ ⟨fun ms h => (by cases h), by simp, by simp⟩

end Source

variable [Scalar C] [DecidableEq I]

/-- Either `trapezoidize` fails without undefined behaviour, or the run is the play of a recorded one
that names only yielded vertices that can be looked up, without undefined behaviour. -/
theorem triangulate_cases_src (cfg : Cfg) (fuel : Nat) (p : PolyList I V) (xy : V → Coords C)
    (w : Winding) :
    (∃ e : Fault TrapErr, e ≠ .ub ∧ ∀ F : FanFormat I, triangulate cfg fuel p xy F = (F.unused,
      .error (match e with
        | .err e => .err (.trapezoidation e)
        | .panic => .panic | .ub => .ub | .timeout => .timeout))) ∨
    (∃ cs r, StartsNew cs ∧ (∀ c ∈ cs, ∀ i ∈ c.indices, some (.cont i) ∈ p.elems ∧
        (p.getVertex i).isSome) ∧ r ≠ .error .ub ∧ ∀ F : FanFormat I, F.winding = w →
      triangulate cfg fuel p xy F = play F cs r) := by
  unfold triangulate
  have hs := trapezoidize_safe (A := fun v => some (.cont v.1) ∈ p.elems ∧ (p.getVertex v.1).isSome)
    cfg fuel p xy (fun i c hi hc => ⟨hi, by
      unfold PolyList.coords at hc
      cases hv : p.getVertex i with
      | none => rw [hv] at hc; cases hc
      | some v => rfl⟩)
  rcases h : trapezoidize cfg fuel p xy with e | st
  · left
    rw [h] at hs
    refine ⟨e, hs, fun F => ?_⟩
    cases e <;> rfl
  · right
    rw [h] at hs
    have hi := innerTrace_src (B := fun i => some (.cont i) ∈ p.elems ∧ (p.getVertex i).isSome)
      w fuel p xy (st := st) (fun n hn => (hs.ns n hn).src)
    refine ⟨(innerTrace w fuel p xy st).calls, (innerTrace w fuel p xy st).res,
      Good.innerTrace _ _ _ _ _, hi.1, ?_, fun F hF => ?_⟩
    · intro he
      exact hi.2.of_error he rfl
    · subst hF
      exact triangulate_eq_play fuel p xy st F

end Tri
