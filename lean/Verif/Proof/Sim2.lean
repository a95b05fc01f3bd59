import Verif.Proof.Sim

/-!
# Simulation between runs: the triangulation half
-/

set_option linter.unusedSectionVars false

namespace Tri

variable {I J V W C D : Type} [Scalar C] [Scalar D]

/-- Calls of the same kind with related indices. -/
def CallRel (RI : I → J → Prop) : Call I → Call J → Prop
  | .newFan a b c, .newFan a' b' c' => RI a a' ∧ RI b b' ∧ RI c c'
  | .extend v, .extend v' => RI v v'
  | _, _ => False

/-- Recorded runs with related calls and outcomes. -/
def RelT {α β : Type} (RI : I → J → Prop) (R : α → β → Prop) (x : TrM I α) (y : TrM J β) : Prop :=
  List.Forall₂ (CallRel RI) x.calls y.calls ∧ RelR R x.res y.res

namespace RelT
variable {α β α' β' : Type} {RI : I → J → Prop} {R : α → β → Prop} {S : α' → β' → Prop}

theorem pure {a : α} {b : β} (h : R a b) : RelT RI R (Pure.pure a : TrM I α) (Pure.pure b : TrM J β) :=
  ⟨.nil, h⟩

theorem stop {e : Fault IErr} : RelT RI R (FanM.stop e : TrM I α) (FanM.stop e : TrM J β) := ⟨.nil, rfl⟩

theorem lift {x : Res IErr α} {y : Res IErr β} (h : RelR R x y) :
    RelT RI R (FanM.lift x : TrM I α) (FanM.lift y : TrM J β) := by
  cases x <;> cases y
  · cases h; exact stop
  · exact h.elim
  · exact h.elim
  · exact pure h

theorem bind {x : TrM I α} {y : TrM J β} {f : α → TrM I α'} {g : β → TrM J β'} (h : RelT RI R x y)
    (hf : ∀ a b, R a b → RelT RI S (f a) (g b)) : RelT RI S (x >>= f) (y >>= g) := by
  obtain ⟨h1, h2⟩ := h
  rcases x with ⟨cs, e | a⟩ <;> rcases y with ⟨cs', e' | b⟩
  · exact ⟨h1, h2⟩
  · exact h2.elim
  · exact h2.elim
  · obtain ⟨h3, h4⟩ := hf a b h2
    exact ⟨forall₂_append h1 h3, h4⟩

theorem newFan {a b c : I} {a' b' c' : J} (ha : RI a a') (hb : RI b b') (hc : RI c c') :
    RelT RI (fun _ _ => True) (FanM.newFan a b c : TrM I Unit) (FanM.newFan a' b' c' : TrM J Unit) :=
  ⟨.cons ⟨ha, hb, hc⟩ .nil, trivial⟩

theorem extendFan {v : I} {v' : J} (hv : RI v v') :
    RelT RI (fun _ _ => True) (FanM.extendFan v : TrM I Unit) (FanM.extendFan v' : TrM J Unit) :=
  ⟨.cons hv .nil, trivial⟩

theorem ite {c d : Prop} [Decidable c] [Decidable d] {x x' : TrM I α} {y y' : TrM J β} (hcd : c ↔ d)
    (h1 : RelT RI R x y) (h2 : RelT RI R x' y') :
    RelT RI R (if c then x else x') (if d then y else y') := by
  by_cases h : c
  · rw [if_pos h, if_pos (hcd.1 h)]; exact h1
  · rw [if_neg h, if_neg fun hd => h (hcd.2 hd)]; exact h2

theorem forM {Q : α → β → Prop} {f : α → TrM I Unit} {g : β → TrM J Unit} {l : List α} {l' : List β}
    (hl : List.Forall₂ Q l l') (h : ∀ a b, Q a b → RelT RI (fun _ _ => True) (f a) (g b)) :
    RelT RI (fun _ _ => True) (l.forM f) (l'.forM g) := by
  induction hl with
  | nil => exact pure trivial
  | cons h1 h2 ih =>
    rename_i a b l l'
    show RelT RI _ (f a >>= fun _ => l.forM f) (g b >>= fun _ => l'.forM g)
    exact bind (h _ _ h1) fun _ _ _ => ih

end RelT

section
variable {RI : I → J → Prop} {RC : Coords C → Coords D → Prop}

/-- Related vertices of a chain. -/
def VRel (RI : I → J → Prop) (RC : Coords C → Coords D → Prop) (v : I × Coords C) (v' : J × Coords D) :
    Prop := RI v.1 v'.1 ∧ RC v.2 v'.2

structure MonoRel (RI : I → J → Prop) (RC : Coords C → Coords D → Prop) (M : Mono I C) (M' : Mono J D) :
    Prop where
  arr : List.Forall₂ (VRel RI RC) M.arr M'.arr
  sk : M.skippedTop = M'.skippedTop
  pt : M.pendingTop = M'.pendingTop
  lc : M.isLeftChain = M'.isLeftChain

namespace MonoRel
variable {M : Mono I C} {M' : Mono J D} (h : MonoRel RI RC M M')
include h

theorem skippedPeek : RelR (VRel RI RC) M.skippedPeek M'.skippedPeek := by
  unfold Mono.skippedPeek
  rw [h.sk]
  refine RelR.bind (R := (· = ·)) RelR.eq ?_
  rintro n _ rfl
  exact RelR.getP h.arr n

theorem skippedPeek2 : RelR (fun r r' => VRel RI RC r.1 r'.1 ∧ VRel RI RC r.2 r'.2) M.skippedPeek2
    M'.skippedPeek2 := by
  unfold Mono.skippedPeek2
  rw [h.sk]
  refine RelR.bind (R := (· = ·)) RelR.eq ?_
  rintro n _ rfl
  refine RelR.bind (RelR.getP h.arr n) fun a a' ha => ?_
  refine RelR.bind (R := (· = ·)) RelR.eq ?_
  rintro n _ rfl
  exact RelR.bind (RelR.getP h.arr n) fun b b' hb => ⟨ha, hb⟩

theorem skippedPop : RelR (fun r r' => VRel RI RC r.1 r'.1 ∧ MonoRel RI RC r.2 r'.2) M.skippedPop
    M'.skippedPop := by
  unfold Mono.skippedPop
  rw [h.sk]
  refine RelR.bind (R := (· = ·)) RelR.eq ?_
  rintro n _ rfl
  exact RelR.bind (RelR.getP h.arr n) fun b b' hb => ⟨hb, h.arr, rfl, h.pt, h.lc⟩

theorem pendingPeek : RelR (VRel RI RC) M.pendingPeek M'.pendingPeek := by
  unfold Mono.pendingPeek
  rw [h.pt]
  exact RelR.getP h.arr _

theorem remaining : RelR (· = ·) M.remaining M'.remaining := by
  unfold Mono.remaining
  rw [h.pt, h.sk, h.arr.length_eq]
  exact RelR.eq

theorem transferPending : RelR (MonoRel RI RC) M.transferPending M'.transferPending := by
  unfold Mono.transferPending Mono.swapIfNe Mono.swapP
  rw [h.pt, h.sk]
  refine RelR.bind (RelR.ite Iff.rfl ?_ h.arr) fun a a' ha => ⟨ha, rfl, rfl, h.lc⟩
  refine RelR.bind (RelR.getP h.arr _) fun a a' ha => ?_
  refine RelR.bind (RelR.getP h.arr _) fun b b' hb => ?_
  exact forall₂_set (forall₂_set h.arr _ hb) _ ha

theorem hasPending : M.hasPending = M'.hasPending := by
  simp only [Mono.hasPending, h.pt, h.arr.length_eq]

theorem advancePosition : RelR (MonoRel RI RC) M.advancePosition M'.advancePosition := by
  unfold Mono.advancePosition
  rw [h.hasPending]
  refine RelR.ite Iff.rfl h.transferPending ?_
  refine ⟨?_, rfl, rfl, h.lc⟩
  simp only [Mono.resetPosition, h.sk]
  exact List.forall₂_take _ h.arr

theorem deferredIndex (bt : Bool) (i : Nat) : RelR RI (M.deferredIndex bt i) (M'.deferredIndex bt i) := by
  unfold Mono.deferredIndex Mono.deferredPos
  rw [h.pt, h.sk]
  refine RelR.bind (R := (· = ·)) RelR.eq ?_
  rintro n _ rfl
  exact RelR.bind (RelR.getP h.arr _) fun a a' ha => ha.1

variable (hC : RespC RC)
include hC

theorem canTriangulate : RelR (· = ·) M.canTriangulate M'.canTriangulate := by
  unfold Mono.canTriangulate
  rw [h.sk, h.hasPending, h.lc]
  refine RelR.ite Iff.rfl ?_ rfl
  refine RelR.bind h.pendingPeek fun a a' ha => ?_
  refine RelR.bind h.skippedPeek2 fun b b' hb => ?_
  show _ = _
  rw [hC.left ha.2 hb.1.2 hb.2.2]

omit h in
theorem addTriangle (b : Mono.Bodt) {v : I} {v' : J} (hv : RI v v') :
    RelT RI (· = ·) (b.addTriangle v : TrM I Mono.Bodt) (b.addTriangle v' : TrM J Mono.Bodt) := by
  cases b with
  | builder => exact RelT.bind (RelT.extendFan hv) fun _ _ _ => RelT.pure rfl
  | deferred dt => exact RelT.pure rfl

theorem backLoop (fuel : Nat) (b : Mono.Bodt) :
    RelT RI (fun r r' => MonoRel RI RC r.1 r'.1 ∧ r.2 = r'.2) (Mono.backLoop (m := TrM I) fuel M b)
      (Mono.backLoop (m := TrM J) fuel M' b) := by
  induction fuel generalizing M M' b with
  | zero => exact RelT.stop
  | succ k ih =>
    unfold Mono.backLoop
    refine RelT.bind (RelT.lift (h.canTriangulate hC)) ?_
    rintro g _ rfl
    refine RelT.ite Iff.rfl ?_ (RelT.pure ⟨h, rfl⟩)
    refine RelT.bind (RelT.lift h.skippedPop) fun r r' hr => ?_
    refine RelT.bind (RelT.lift hr.2.skippedPeek) fun v v' hv => ?_
    refine RelT.bind (addTriangle hC b hv.1) ?_
    rintro b _ rfl
    exact ih hr.2 b

theorem advLoop (fuel : Nat) (b : Mono.Bodt) :
    RelT RI (fun r r' => MonoRel RI RC r.1 r'.1 ∧ r.2 = r'.2) (Mono.advLoop (m := TrM I) fuel M b)
      (Mono.advLoop (m := TrM J) fuel M' b) := by
  induction fuel generalizing M M' b with
  | zero => exact RelT.stop
  | succ k ih =>
    unfold Mono.advLoop
    refine RelT.bind (RelT.lift (h.canTriangulate hC)) ?_
    rintro g _ rfl
    refine RelT.ite Iff.rfl ?_ (RelT.pure ⟨h, rfl⟩)
    refine RelT.bind (RelT.lift h.skippedPop) fun r r' hr => ?_
    refine RelT.bind (RelT.lift hr.2.pendingPeek) fun v v' hv => ?_
    refine RelT.bind (addTriangle hC b hv.1) ?_
    rintro b _ rfl
    exact RelT.bind (RelT.lift hr.2.transferPending) fun M M' hM => ih hM b

omit hC in
theorem extendDeferred (bt : Bool) (i n : Nat) :
    RelT RI (fun _ _ => True) (Mono.extendDeferred (m := TrM I) M bt i n)
      (Mono.extendDeferred (m := TrM J) M' bt i n) := by
  induction n generalizing i with
  | zero => exact RelT.pure trivial
  | succ n ih =>
    unfold Mono.extendDeferred
    refine RelT.bind (RelT.lift (h.deferredIndex bt i)) fun v v' hv => ?_
    exact RelT.bind (RelT.extendFan hv) fun _ _ _ => ih (i + 1)

theorem fanStep (w : Winding) :
    RelT RI (MonoRel RI RC) (Mono.fanStep (m := TrM I) w M) (Mono.fanStep (m := TrM J) w M') := by
  unfold Mono.fanStep
  refine RelT.bind (RelT.lift h.skippedPop) ?_
  rintro ⟨v1, M1⟩ ⟨v1', M1'⟩ ⟨h1, hM1⟩
  refine RelT.bind (RelT.lift hM1.skippedPeek) fun v0 v0' h0 => ?_
  refine RelT.bind (RelT.lift hM1.pendingPeek) fun v2 v2' h2 => ?_
  refine RelT.bind (RelT.lift (hM1.canTriangulate hC)) ?_
  rintro bt _ rfl
  refine RelT.bind (R := (· = ·)) ?_ ?_
  · unfold Mono.startFan
    rw [hM1.lc]
    refine RelT.ite Iff.rfl ?_ (RelT.pure rfl)
    refine RelT.bind (RelT.newFan ?_ h1.1 ?_) fun _ _ _ => RelT.pure rfl
    · split
      · exact h2.1
      · exact h0.1
    · split
      · exact h0.1
      · exact h2.1
  · rintro bodt _ rfl
    refine RelT.bind (R := fun r r' => MonoRel RI RC r.1 r'.1 ∧ r.2 = r'.2) ?_ ?_
    · unfold Mono.growFan
      refine RelT.ite Iff.rfl ?_ ?_
      · refine RelT.bind (RelT.lift hM1.skippedPop) fun r r' hr => ?_
        refine RelT.bind (RelT.lift hr.2.skippedPeek) fun v v' hv => ?_
        refine RelT.bind (addTriangle hC _ hv.1) ?_
        rintro b _ rfl
        rw [hr.2.arr.length_eq]
        exact hr.2.backLoop hC _ b
      · refine RelT.bind (RelT.lift hM1.transferPending) fun M M' hM => ?_
        rw [hM.arr.length_eq]
        exact hM.advLoop hC _ _
    · rintro ⟨M, b⟩ ⟨M', _⟩ ⟨hM, hb⟩
      cases hb
      refine RelT.bind (R := fun _ _ => True) ?_ fun _ _ _ => RelT.pure hM
      cases b with
      | builder => exact RelT.pure trivial
      | deferred dt =>
        unfold Mono.finishFan Mono.emitDeferred
        refine RelT.bind (R := fun r r' => RI r.1 r'.1 ∧ RI r.2 r'.2) (RelT.lift ?_) fun v v' hv => ?_
        · unfold Mono.deferredBase
          refine RelR.ite Iff.rfl ?_ ?_
          · refine RelR.bind hM.pendingPeek fun a a' ha => ?_
            exact RelR.bind hM.skippedPeek fun b b' hb => ⟨ha.1, hb.1⟩
          · exact RelR.bind hM.skippedPeek2 fun a a' ha => ⟨ha.1.1, ha.2.1⟩
        · refine RelT.bind (RelT.lift (hM.deferredIndex bt 0)) fun v2 v2' hv2 => ?_
          exact RelT.bind (RelT.newFan hv.1 hv.2 hv2) fun _ _ _ => hM.extendDeferred bt _ _

theorem buildFans (w : Winding) (fuel : Nat) :
    RelT RI (fun _ _ => True) (Mono.buildFans (m := TrM I) w fuel M)
      (Mono.buildFans (m := TrM J) w fuel M') := by
  induction fuel generalizing M M' with
  | zero => exact RelT.stop
  | succ k ih =>
    unfold Mono.buildFans
    refine RelT.bind (RelT.lift h.remaining) ?_
    rintro r _ rfl
    refine RelT.ite Iff.rfl ?_ (RelT.ite Iff.rfl (RelT.pure trivial) RelT.stop)
    refine RelT.bind (R := MonoRel RI RC) ?_ fun M M' hM => ?_
    · unfold Mono.maybeFan
      refine RelT.bind (RelT.lift (h.canTriangulate hC)) ?_
      rintro b _ rfl
      exact RelT.ite Iff.rfl (h.fanStep hC w) (RelT.pure h)
    · exact RelT.bind (RelT.lift hM.advancePosition) fun M M' hM => ih hM

end MonoRel

structure MonoBRel (RI : I → J → Prop) (RC : Coords C → Coords D → Prop) (b : MonoB I C) (b' : MonoB J D) :
    Prop where
  first : VRel RI RC b.first b'.first
  rest : List.Forall₂ (VRel RI RC) b.rest b'.rest
  dx : b.diffX = b'.diffX
  dy : b.diffY = b'.diffY

namespace MonoBRel

theorem new {i : I} {j : J} (h : RI i j) {c : Coords C} {c' : Coords D} (hc : RC c c') :
    MonoBRel RI RC (MonoB.new i c) (MonoB.new j c') := ⟨⟨h, hc⟩, .nil, rfl, rfl⟩

variable (hC : RespC RC) {b : MonoB I C} {b' : MonoB J D} (hb : MonoBRel RI RC b b')
include hC hb

theorem addVertex {i : I} {j : J} (h : RI i j) {c : Coords C} {c' : Coords D} (hc : RC c c') :
    MonoBRel RI RC (b.addVertex i c) (b'.addVertex j c') := by
  refine ⟨hb.first, forall₂_append hb.rest (.cons ⟨h, hc⟩ .nil), ?_, ?_⟩
  · simp only [MonoB.addVertex, hb.dx, hC.eqX hc hb.first.2]
  · simp only [MonoB.addVertex, hb.dy, hC.eqY hc hb.first.2]

theorem build : RelR (fun M M' => (M = none ∧ M' = none) ∨ ∃ m m', M = some m ∧ M' = some m' ∧
    MonoRel RI RC m m') b.build b'.build := by
  have hr := hb.rest
  unfold MonoB.build
  rw [hb.dx, hb.dy]
  rcases hb1 : b.rest with _ | ⟨v1, _ | ⟨v2, tl⟩⟩ <;> rcases hb2 : b'.rest with _ | ⟨v1', _ | ⟨v2', tl'⟩⟩ <;>
    rw [hb1, hb2] at hr <;> simp only
  · exact rfl
  · cases hr
  · cases hr
  · cases hr
  · exact rfl
  · cases hr with | cons _ h => cases h
  · cases hr
  · cases hr with | cons _ h => cases h
  · refine RelR.ite Iff.rfl (.inr ⟨_, _, rfl, rfl, .cons hb.first hr, rfl, rfl, ?_⟩) (.inl ⟨rfl, rfl⟩)
    cases hr with
    | cons h1 h2 =>
      have hlast : VRel RI RC ((v2 :: tl).getLast (by simp)) ((v2' :: tl').getLast (by simp)) := by
        clear hb1 hb2 hb
        induction tl generalizing v2 v2' tl' with
        | nil =>
          cases h2 with
          | cons g1 g2 => cases g2; exact g1
        | cons a tl ih =>
          cases h2 with
          | cons g1 g2 =>
            cases g2 with
            | cons g2 g3 =>
              rw [List.getLast_cons_cons, List.getLast_cons_cons]
              exact ih _ _ _ (.cons g2 g3)
      exact hC.left hlast.2 hb.first.2 h1.2

theorem finish (w : Winding) (fuel : Nat) :
    RelT RI (fun _ _ => True) (finishMonotone (m := TrM I) w fuel b)
      (finishMonotone (m := TrM J) w fuel b') := by
  unfold finishMonotone
  refine RelT.bind (RelT.lift (hb.build hC)) ?_
  rintro M M' (⟨rfl, rfl⟩ | ⟨m, m', rfl, rfl, h⟩)
  · exact RelT.pure trivial
  · exact h.buildFans hC w fuel

end MonoBRel

def OtRel (RI : I → J → Prop) (RC : Coords C → Coords D → Prop) : Ot (MonoB I C) → Ot (MonoB J D) → Prop
  | .one a, .one a' => MonoBRel RI RC a a'
  | .two a b, .two a' b' => MonoBRel RI RC a a' ∧ MonoBRel RI RC b b'
  | _, _ => False

def OOtRel (RI : I → J → Prop) (RC : Coords C → Coords D → Prop) :
    Option (Ot (MonoB I C)) → Option (Ot (MonoB J D)) → Prop
  | none, none => True
  | some a, some b => OtRel RI RC a b
  | _, _ => False

structure TIRel (RI : I → J → Prop) (RC : Coords C → Coords D → Prop) (x : TI I C) (x' : TI J D) : Prop where
  ti : x.ti = x'.ti
  ms : OOtRel RI RC x.monotones x'.monotones
  branch : List.Forall₂ (fun e e' => e.1 = e'.1 ∧ OOtRel RI RC e.2 e'.2) x.branchStack x'.branchStack
  stack : List.Forall₂ (MonoBRel RI RC) x.monotoneStack x'.monotoneStack

section
variable (hC : RespC RC)
include hC

theorem okOne_rel {a : Ot (MonoB I C)} {a' : Ot (MonoB J D)} (h : OtRel RI RC a a') :
    RelR (MonoBRel RI RC) a.okOne a'.okOne := by
  cases a <;> cases a'
  · exact h
  · exact h.elim
  · exact h.elim
  · exact rfl

theorem advanceMonotones_rel (w : Winding) (fuel : Nat) {p : PolyList I V} {xy : V → Coords C}
    {p' : PolyList J W} {xy' : W → Coords D} (hp : PolyRel RI RC p xy p' xy')
    {st : St I C} {st' : St J D} (hst : StRel RI RC st st') (t : Trapezoid) (niDown : Nat)
    {n : Nexus I C} {n' : Nexus J D} (hn : NexusRel RI RC n n') {ms : Ot (MonoB I C)}
    {ms' : Ot (MonoB J D)} (hms : OtRel RI RC ms ms') :
    RelT RI (OOtRel RI RC) (advanceMonotones (m := TrM I) w fuel p xy st t niDown n ms)
      (advanceMonotones (m := TrM J) w fuel p' xy' st' t niDown n' ms') := by
  have hms2 : OtRel RI RC (addToAll ms n.vi n.c) (addToAll ms' n'.vi n'.c) := by
    cases ms <;> cases ms'
    · exact hms.addVertex hC hn.vi hn.c
    · exact hms.elim
    · exact hms.elim
    · exact ⟨hms.1.addVertex hC hn.vi hn.c, hms.2.addVertex hC hn.vi hn.c⟩
  unfold advanceMonotones
  have hseg : ∀ o : Option Nat, RelR (SegRel RC) (okInner o >>= getP st.ss) (okInner o >>= getP st'.ss) := by
    intro o
    refine RelR.bind (R := (· = ·)) RelR.eq ?_
    rintro n _ rfl
    exact RelR.getP hst.ss n
  refine RelT.bind (RelT.lift (hseg _)) fun sl sl' hsl => ?_
  refine RelT.bind (RelT.lift (hseg _)) fun sr sr' hsr => ?_
  refine RelT.bind (R := (· = ·)) (RelT.lift RelR.eq) ?_
  rintro nu _ rfl
  generalize addToAll ms n.vi n.c = m1 at hms2
  generalize addToAll ms' n'.vi n'.c = m1' at hms2
  have hsp : ((splitCompleted m1 niDown nu sl sr).1 = none ∧ (splitCompleted m1' niDown nu sl' sr').1 = none ∧
      OOtRel RI RC (splitCompleted m1 niDown nu sl sr).2 (splitCompleted m1' niDown nu sl' sr').2) ∨
      ∃ b b', (splitCompleted m1 niDown nu sl sr).1 = some b ∧
        (splitCompleted m1' niDown nu sl' sr').1 = some b' ∧ MonoBRel RI RC b b' ∧
      OOtRel RI RC (splitCompleted m1 niDown nu sl sr).2 (splitCompleted m1' niDown nu sl' sr').2 := by
    unfold splitCompleted
    rw [hsl.niMin, hsl.niMax, hsr.niMin, hsr.niMax]
    cases m1 <;> cases m1'
    · by_cases h1 : niDown = sl'.niMin ∧ niDown ≠ sr'.niMin ∧ nu ≠ sl'.niMax
      · simp only [if_pos h1]
        exact .inr ⟨_, _, rfl, rfl, hms2, trivial⟩
      · simp only [if_neg h1]
        split
        · exact .inr ⟨_, _, rfl, rfl, hms2, trivial⟩
        · exact .inl ⟨rfl, rfl, hms2⟩
    · exact hms2.elim
    · exact hms2.elim
    · by_cases h1 : niDown = sl'.niMin ∧ niDown ≠ sr'.niMin ∧ nu ≠ sl'.niMax
      · simp only [if_pos h1]
        exact .inr ⟨_, _, rfl, rfl, hms2.1, hms2.2⟩
      · simp only [if_neg h1]
        split
        · exact .inr ⟨_, _, rfl, rfl, hms2.2, hms2.1⟩
        · exact .inl ⟨rfl, rfl, hms2⟩
  generalize splitCompleted m1 niDown nu sl sr = q at hsp
  generalize splitCompleted m1' niDown nu sl' sr' = q' at hsp
  obtain ⟨q1, q2⟩ := q
  obtain ⟨q1', q2'⟩ := q'
  rcases hsp with ⟨h1, h2, h3⟩ | ⟨b, b', h1, h2, h3, h4⟩
  · simp only at h1 h2 h3
    subst h1 h2
    exact RelT.pure h3
  · simp only at h1 h2 h3 h4
    subst h1 h2
    refine RelT.bind (h3.finish hC w fuel) fun _ _ _ => RelT.lift ?_
    cases q2 <;> cases q2'
    · unfold restartMonotone
      refine RelR.bind (RelR.getP hst.ns _) fun m m' hm => ?_
      refine RelR.bind (hp.coords _ _ hm.vi) fun c c' hc => ?_
      exact (MonoBRel.new hm.vi hc).addVertex hC hn.vi hn.c
    · exact h4.elim
    · exact h4.elim
    · exact h4

theorem triStep_rel (w : Winding) (fuel : Nat) {p : PolyList I V} {xy : V → Coords C}
    {p' : PolyList J W} {xy' : W → Coords D} (hp : PolyRel RI RC p xy p' xy')
    {st : St I C} {st' : St J D} (hst : StRel RI RC st st') {x : TI I C} {x' : TI J D}
    (hx : TIRel RI RC x x') (t : Trapezoid) (niDown : Nat) :
    RelT RI (TIRel RI RC) (triStep (m := TrM I) w fuel p xy st x t niDown)
      (triStep (m := TrM J) w fuel p' xy' st' x' t niDown) := by
  unfold triStep
  refine RelT.bind (RelT.lift (RelR.getP hst.ns _)) fun n n' hn => ?_
  refine RelT.bind (R := TIRel RI RC) ?_ fun x x' hx => ?_
  · unfold updateMonotones
    have hms := hx.ms
    cases h1 : x.monotones <;> cases h2 : x'.monotones <;> rw [h1, h2] at hms
    · exact RelT.pure hx
    · exact hms.elim
    · exact hms.elim
    · refine RelT.bind (advanceMonotones_rel hC w fuel hp hst t niDown hn hms) fun o o' ho => ?_
      exact RelT.pure ⟨hx.ti, ho, hx.branch, hx.stack⟩
  · rw [hn.finalType]
    refine RelT.bind (R := (· = ·)) (RelT.lift RelR.eq) ?_
    rintro ft _ rfl
    have hms := hx.ms
    cases ft with
    | V upleft upcenter upright down =>
      refine RelT.bind (R := TIRel RI RC) ?_ fun x x' hx => RelT.lift ?_
      · unfold joinV
        rw [hx.ti]
        cases h1 : x.monotones <;> cases h2 : x'.monotones <;> rw [h1, h2] at hms
        · exact RelT.pure hx
        · exact hms.elim
        · exact hms.elim
        · rename_i ms ms'
          refine RelT.ite Iff.rfl ?_ (RelT.ite Iff.rfl ?_ (RelT.ite Iff.rfl ?_ RelT.stop))
          · refine RelT.bind (RelT.lift (okOne_rel hC hms)) fun mo mo' hmo => ?_
            exact RelT.pure ⟨rfl, trivial, hx.branch, .cons hmo hx.stack⟩
          · refine RelT.bind (RelT.forM (Q := MonoBRel RI RC) ?_ fun a b hab => hab.finish hC w fuel)
              fun _ _ _ => RelT.pure ⟨rfl, trivial, hx.branch, hx.stack⟩
            cases ms <;> cases ms'
            · exact .cons hms .nil
            · exact hms.elim
            · exact hms.elim
            · exact .cons hms.1 (.cons hms.2 .nil)
          · have hs := hx.stack
            cases h3 : x.monotoneStack <;> cases h4 : x'.monotoneStack <;> rw [h3, h4] at hs
            · exact RelT.stop
            · cases hs
            · cases hs
            · cases hs with
              | cons g1 g2 =>
                refine RelT.bind (RelT.lift (okOne_rel hC hms)) fun mo mo' hmo => ?_
                exact RelT.pure ⟨rfl, ⟨g1, hmo⟩, hx.branch, g2⟩
      · unfold leaveV
        rw [hx.ti]
        refine RelR.ite Iff.rfl ⟨rfl, hx.ms, hx.branch, hx.stack⟩ ?_
        have hs := hx.branch
        cases h3 : x.branchStack <;> cases h4 : x'.branchStack <;> rw [h3, h4] at hs
        · exact rfl
        · cases hs
        · cases hs
        · cases hs with
          | cons g1 g2 =>
            exact ⟨g1.1, g1.2, g2, hx.stack⟩
    | I upleft upright downleft downright =>
      simp only [descend, descendI, hx.ti]
      exact RelT.ite Iff.rfl (RelT.pure ⟨rfl, hx.ms, hx.branch, hx.stack⟩)
        (RelT.ite Iff.rfl (RelT.pure ⟨rfl, hx.ms, hx.branch, hx.stack⟩) RelT.stop)
    | A up downleft downcenter downright =>
      simp only [descend, descendA]
      cases h1 : x.monotones <;> cases h2 : x'.monotones <;> rw [h1, h2] at hms
      · exact RelT.pure ⟨rfl, trivial, .cons ⟨rfl, MonoBRel.new hn.vi hn.c⟩ (.cons ⟨rfl, trivial⟩ hx.branch),
          hx.stack⟩
      · exact hms.elim
      · exact hms.elim
      · rename_i ms ms'
        refine RelT.bind (R := fun r r' => MonoBRel RI RC r.1 r'.1 ∧ MonoBRel RI RC r.2 r'.2)
          (RelT.lift ?_) ?_
        rotate_left
        · rintro ⟨r1, r2⟩ ⟨r1', r2'⟩ ⟨hr1, hr2⟩
          exact RelT.pure ⟨rfl, hr1, .cons ⟨rfl, trivial⟩ (.cons ⟨rfl, hr2⟩ hx.branch), hx.stack⟩
        unfold splitMonotones
        cases ms <;> cases ms'
        · refine RelR.bind (R := (· = ·)) RelR.eq ?_
          rintro nu _ rfl
          refine RelR.bind (RelR.getP hst.ns _) fun m m' hm => ?_
          have hnew := (MonoBRel.new hm.vi hm.c).addVertex hC hn.vi hn.c
          have hseg : ∀ o : Option Nat, RelR (SegRel RC) (okInner o >>= getP st.ss)
              (okInner o >>= getP st'.ss) := by
            intro o
            refine RelR.bind (R := (· = ·)) RelR.eq ?_
            rintro n _ rfl
            exact RelR.getP hst.ss n
          refine RelR.bind (hseg _) fun sl sl' hsl => ?_
          refine RelR.ite (by rw [hsl.niMax]) ⟨hnew, hms⟩ ?_
          refine RelR.bind (hseg _) fun sr sr' hsr => ?_
          exact RelR.ite (by rw [hsr.niMax]) ⟨hms, hnew⟩ rfl
        · exact hms.elim
        · exact hms.elim
        · exact hms

theorem innerTrace_rel (w : Winding) (fuel : Nat) {p : PolyList I V} {xy : V → Coords C}
    {p' : PolyList J W} {xy' : W → Coords D} (hp : PolyRel RI RC p xy p' xy')
    {st : St I C} {st' : St J D} (hst : StRel RI RC st st') :
    RelT RI (fun _ _ => True) (innerTrace w fuel p xy st) (innerTrace w fuel p' xy' st') := by
  unfold innerTrace triangulateInner
  refine RelT.bind (R := (· = ·)) (RelT.lift ?_) ?_
  · generalize 0 = qi
    generalize fuel = k
    induction k generalizing qi with
    | zero => exact rfl
    | succ k ih =>
      unfold topTrapezoid
      refine RelR.bind (RelR.getP hst.qs _) fun q q' hq => ?_
      rcases q with ⟨l, r, _ | _⟩ | _ <;> rcases q' with ⟨l', r', _ | _⟩ | _
      · exact rfl
      · exact hq.2.2.elim
      · exact hq.elim
      · exact hq.2.2.elim
      · obtain ⟨rfl, rfl, -⟩ := hq
        exact ih r
      · exact hq.elim
      · exact hq.elim
      · exact hq.elim
      · exact hq
  · rintro ti _ rfl
    have key : ∀ k (x : TI I C) (x' : TI J D), TIRel RI RC x x' → RelT RI (fun _ _ => True)
        (triLoop (m := TrM I) w fuel p xy st k x) (triLoop (m := TrM J) w fuel p' xy' st' k x') := by
      intro k
      induction k with
      | zero => exact fun _ _ _ => RelT.stop
      | succ k ih =>
        intro x x' hx
        unfold triLoop
        rw [hx.ti, hst.ts]
        refine RelT.bind (R := (· = ·)) (RelT.lift RelR.eq) ?_
        rintro t _ rfl
        cases t.down with
        | some niDown =>
          exact RelT.bind (triStep_rel hC w fuel hp hst hx t niDown) fun x x' hx => ih x x' hx
        | none =>
          refine RelT.ite ?_ RelT.stop (RelT.ite ?_ RelT.stop (RelT.ite ?_ RelT.stop (RelT.pure trivial)))
          · have h := hx.stack
            cases h1 : x.monotoneStack <;> cases h2 : x'.monotoneStack <;> rw [h1, h2] at h <;>
              first | (cases h; done) | simp
          · have h := hx.branch
            cases h1 : x.branchStack <;> cases h2 : x'.branchStack <;> rw [h1, h2] at h <;>
              first | (cases h; done) | simp
          · have h := hx.ms
            cases h1 : x.monotones <;> cases h2 : x'.monotones <;> rw [h1, h2] at h <;>
              first | (exact h.elim) | simp
    exact key fuel _ _ ⟨rfl, trivial, .nil, .nil⟩

end

end
end Tri
