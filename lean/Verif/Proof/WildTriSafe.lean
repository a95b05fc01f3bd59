import Verif.Model.WildTri
import Verif.Proof.WildSafe
import Verif.Proof.Settle

/-!
# Triangulation with arbitrary user code: no undefined behaviour, no panic

All positions of `Monotone` stay in range whatever the tests answer, and the traversal only reads positions that are
stored in a well-formed trapezoidation.
-/

namespace Tri

variable {I C E O : Type}

/-- The format was not asked yet or has not failed. -/
def Phase.Alive : Phase → Prop
  | .uninit => True
  | .init => True
  | _ => False

/-- An error value, running out of steps, or a panic of user code. -/
def WildFault (up : Bool) {ε : Type} (f : Fault ε) : Prop :=
  f = .timeout ∨ (∃ e, f = .err e) ∨ (up = true ∧ f = .panic)

/-- Started while the format is alive, every outcome is a value with `P`, with the format still alive, or a fault that
is allowed. -/
def EnsM {α : Type} (up : Bool) (P : α → Prop) (X : WildM E α) : Prop :=
  ∀ s, s.Alive → ∀ r, X s r →
    match r with
    | (s, .ok a) => s.Alive ∧ P a
    | (_, .error e) => WildFault up e

namespace EnsM

variable {α β : Type} {up : Bool} {P Q : α → Prop} {R : β → Prop}

theorem pure {a : α} (h : P a) : EnsM up P (Pure.pure a : WildM E α) := by
  rintro s hs r rfl
  exact ⟨hs, h⟩

theorem bind {X : WildM E α} {K : α → WildM E β} (hX : EnsM up P X) (hK : ∀ a, P a → EnsM up R (K a)) :
    EnsM up R (X >>= K) := by
  rintro s hs r ⟨⟨s', e | a⟩, hx, h⟩
  · have := hX s hs _ hx
    cases h
    exact this
  · have := hX s hs _ hx
    exact hK a this.2 s' this.1 r h

theorem imp {X : WildM E α} (h : EnsM up P X) (hPQ : ∀ a, P a → Q a) : EnsM up Q X := by
  intro s hs r hr
  have := h s hs r hr
  rcases r with ⟨s', e | a⟩
  · exact this
  · exact ⟨this.1, hPQ a this.2⟩

theorem lift {x : Res IErr α} (h : Ens IsErr P x) : EnsM up P (WildM.lift x : WildM E α) := by
  rintro s hs r rfl
  rcases x with e | a
  · obtain ⟨e, rfl⟩ := h
    exact .inr (.inl ⟨_, rfl⟩)
  · exact ⟨hs, h⟩

theorem lift' {x : Res IErr α} (h : Ens ErrOrOut P x) : EnsM up P (WildM.lift x : WildM E α) := by
  rintro s hs r rfl
  rcases x with e | a
  · rcases h with h | ⟨e, h⟩
    · subst h
      exact .inl rfl
    · subst h
      exact .inr (.inl ⟨_, rfl⟩)
  · exact ⟨hs, h⟩

theorem stop {e : IErr} : EnsM up P (WildM.stop (.err e) : WildM E α) := by
  rintro s hs r rfl
  exact .inr (.inl ⟨_, rfl⟩)

theorem out : EnsM up P (WildM.stop .timeout : WildM E α) := by
  rintro s hs r rfl
  exact .inl rfl

theorem call : EnsM up (fun _ => True) (WildM.call up α : WildM E α) := by
  rintro s hs r (⟨a, rfl⟩ | ⟨h, rfl⟩)
  · exact ⟨hs, trivial⟩
  · exact .inr (.inr ⟨h, rfl⟩)

theorem ite {c : Prop} [Decidable c] {X Y : WildM E α} (h1 : c → EnsM up P X) (h2 : ¬ c → EnsM up P Y) :
    EnsM up P (if c then X else Y) := by
  split
  · exact h1 (by assumption)
  · exact h2 (by assumption)

theorem forM {f : β → WildM E Unit} (h : ∀ b, EnsM up (fun _ => True) (f b)) (l : List β) :
    EnsM up (fun _ => True) (l.forM f) := by
  induction l with
  | nil => exact pure trivial
  | cons b l ih => exact bind (h b) fun _ _ => ih

theorem newFan : EnsM up (fun _ => True) (WildM.newFan up : WildM E Unit) := by
  intro s hs r hr
  cases s with
  | uninit =>
    rcases hr with rfl | ⟨e, rfl⟩ | ⟨h, rfl⟩
    · exact ⟨trivial, trivial⟩
    · exact .inr (.inl ⟨_, rfl⟩)
    · exact .inr (.inr ⟨h, rfl⟩)
  | init =>
    rcases hr with rfl | ⟨e, rfl⟩ | ⟨h, rfl⟩
    · exact ⟨trivial, trivial⟩
    · exact .inr (.inl ⟨_, rfl⟩)
    · exact .inr (.inr ⟨h, rfl⟩)
  | error => exact hs.elim
  | dead => exact hs.elim

theorem extendFan : EnsM up (fun _ => True) (WildM.extendFan up : WildM E Unit) := by
  intro s hs r hr
  cases s with
  | uninit =>
    cases hr
    exact .inr (.inl ⟨_, rfl⟩)
  | init =>
    rcases hr with rfl | ⟨e, rfl⟩ | ⟨h, rfl⟩
    · exact ⟨trivial, trivial⟩
    · exact .inr (.inl ⟨_, rfl⟩)
    · exact .inr (.inr ⟨h, rfl⟩)
  | error => exact hs.elim
  | dead => exact hs.elim

end EnsM

/-! ## Chains -/

namespace WildM

variable {up : Bool}

/-- The stack and the queue of a chain are in the array. -/
structure Fits (k : Nat) (M : Mono I C) : Prop where
  low : k ≤ M.skippedTop
  mid : M.skippedTop ≤ M.pendingTop
  high : M.pendingTop ≤ M.arr.length

theorem cloned_ens {x : Res IErr (I × Coords C)} (h : Ens IsErr (fun _ => True) x) :
    EnsM up (fun _ => True) (cloned up x : WildM E Unit) :=
  EnsM.bind (EnsM.lift h) fun _ _ => EnsM.call

theorem subP_ens {a b : Nat} (h : b ≤ a) : Ens IsErr (· = a - b) (subP a b : Res IErr Nat) := by
  unfold subP
  rw [if_pos h]
  rfl

theorem skippedPeek_ens {M : Mono I C} (h : Fits 1 M) : Ens IsErr (fun _ => True) M.skippedPeek := by
  unfold Mono.skippedPeek
  have := h.low
  have := h.mid
  have := h.high
  exact Ens.bind (subP_ens h.low) fun i hi => (Ens.getP_lt (by subst hi; omega)).imp fun _ _ => trivial

theorem skippedPeek2_ens {M : Mono I C} (h : Fits 2 M) : Ens IsErr (fun _ => True) M.skippedPeek2 := by
  unfold Mono.skippedPeek2
  have := h.low
  have := h.mid
  have := h.high
  refine Ens.bind (subP_ens h.low) fun i hi => Ens.bind (Ens.getP_lt (by subst hi; omega)) fun _ _ => ?_
  exact Ens.bind (subP_ens (by omega)) fun i hi => Ens.bind (Ens.getP_lt (by subst hi; omega)) fun _ _ => trivial

theorem pendingPeek_ens {M : Mono I C} (h : M.hasPending = true) : Ens IsErr (fun _ => True) M.pendingPeek := by
  unfold Mono.pendingPeek
  exact (Ens.getP_lt (of_decide_eq_true h)).imp fun _ _ => trivial

theorem skippedPop_ens {k : Nat} {M : Mono I C} (h : Fits (k + 1) M) :
    EnsM up (fun M' => Fits k M' ∧ M'.arr = M.arr ∧ M'.pendingTop = M.pendingTop ∧ M'.skippedTop + 1 = M.skippedTop)
      (skippedPop up M : WildM E (Mono I C)) := by
  unfold skippedPop
  have h1 := h.low
  have h2 := h.mid
  have h3 := h.high
  refine EnsM.bind (P := fun r => Fits k r.2 ∧ r.2.arr = M.arr ∧ r.2.pendingTop = M.pendingTop ∧
    r.2.skippedTop + 1 = M.skippedTop) (EnsM.lift ?_) ?_
  · unfold Mono.skippedPop
    refine Ens.bind (subP_ens (by omega)) fun i hi => Ens.bind (Ens.getP_lt (by subst hi; omega)) fun _ _ => ?_
    subst hi
    exact ⟨⟨by show k ≤ M.skippedTop - 1; omega, by show M.skippedTop - 1 ≤ M.pendingTop; omega, h3⟩, rfl, rfl,
      by show M.skippedTop - 1 + 1 = _; omega⟩
  · rintro ⟨_, M'⟩ hM'
    exact EnsM.bind EnsM.call fun _ _ => EnsM.pure hM'

theorem transferPending_ens {k : Nat} {M : Mono I C} (h : Fits k M) (hp : M.hasPending = true) :
    Ens IsErr (fun M' => Fits (k + 1) M' ∧ M'.arr.length = M.arr.length ∧ M'.pendingTop = M.pendingTop + 1)
      M.transferPending := by
  have hp : M.pendingTop < M.arr.length := of_decide_eq_true hp
  have h1 := h.low
  have h2 := h.mid
  have h3 := h.high
  unfold Mono.transferPending
  refine Ens.bind (P := fun arr => arr.length = M.arr.length) ?_ fun arr harr => ?_
  · unfold Mono.swapIfNe Mono.swapP
    refine Ens.ite (fun _ => ?_) fun _ => rfl
    refine Ens.bind (Ens.getP_lt (by omega)) fun _ _ => Ens.bind (Ens.getP_lt (by omega)) fun _ _ => ?_
    simp [Ens]
  · refine ⟨⟨?_, ?_, ?_⟩, harr, rfl⟩
    · show k + 1 ≤ M.skippedTop + 1
      omega
    · show M.skippedTop + 1 ≤ M.pendingTop + 1
      omega
    · show M.pendingTop + 1 ≤ arr.length
      omega

theorem canTriangulate_ens {M : Mono I C} (h : Fits 0 M) :
    EnsM up (fun b => b = true → Fits 2 M ∧ M.hasPending = true) (canTriangulate up M : WildM E Bool) := by
  unfold canTriangulate
  refine EnsM.ite (fun hc => ?_) fun _ => EnsM.pure (by simp)
  have h2 : Fits 2 M := ⟨hc.1, h.mid, h.high⟩
  refine EnsM.bind (cloned_ens (pendingPeek_ens hc.2)) fun _ _ => EnsM.bind (EnsM.lift (skippedPeek2_ens h2)) fun _ _ => ?_
  exact EnsM.bind EnsM.call fun _ _ => EnsM.call.imp fun _ _ _ => ⟨h2, hc.2⟩

/-- The number of deferred triangles. -/
def dts : Mono.Bodt → Nat
  | .builder => 0
  | .deferred dt => dt

/-- A deferred fan has a triangle. -/
def Some1 : Mono.Bodt → Prop
  | .builder => True
  | .deferred dt => 0 < dt

theorem addTriangle_ens (b : Mono.Bodt) :
    EnsM up (fun b' => dts b' ≤ dts b + 1 ∧ Some1 b') (addTriangle up b : WildM E Mono.Bodt) := by
  cases b with
  | builder => exact EnsM.bind EnsM.extendFan fun _ _ => EnsM.pure ⟨by simp [dts], trivial⟩
  | deferred dt => exact EnsM.pure ⟨by simp [dts], Nat.succ_pos _⟩

theorem Fits.weaken {k k' : Nat} {M : Mono I C} (h : Fits k M) (hk : k' ≤ k) : Fits k' M :=
  ⟨Nat.le_trans hk h.low, h.mid, h.high⟩

theorem backLoop_ens (fuel : Nat) (M : Mono I C) (b : Mono.Bodt) (h : Fits 1 M) (hp : M.hasPending = true)
    (hb : M.skippedTop + dts b ≤ M.pendingTop) (hs : Some1 b) :
    EnsM up (fun r => Fits 1 r.1 ∧ r.1.hasPending = true ∧ r.1.skippedTop + dts r.2 ≤ r.1.pendingTop ∧ Some1 r.2)
      (backLoop up fuel M b : WildM E (Mono I C × Mono.Bodt)) := by
  induction fuel generalizing M b with
  | zero => exact EnsM.out
  | succ k ih =>
    unfold backLoop
    refine EnsM.bind (canTriangulate_ens (h.weaken (by omega))) fun go hgo => EnsM.ite (fun hg => ?_) fun _ =>
      EnsM.pure ⟨h, hp, hb, hs⟩
    refine EnsM.bind (skippedPop_ens (hgo hg).1) fun M' hM' => ?_
    obtain ⟨h1, h2, h3, h4⟩ := hM'
    refine EnsM.bind (cloned_ens (skippedPeek_ens h1)) fun _ _ => EnsM.bind (addTriangle_ens b) fun b' hb' => ?_
    refine ih M' b' h1 ?_ (by omega) hb'.2
    unfold Mono.hasPending at hp ⊢
    rw [h2, h3]
    exact hp

theorem advLoop_ens (fuel : Nat) (M : Mono I C) (b : Mono.Bodt) (h : Fits 2 M) (hb : dts b + 2 ≤ M.pendingTop)
    (hs : Some1 b) :
    EnsM up (fun r => Fits 2 r.1 ∧ dts r.2 + 2 ≤ r.1.pendingTop ∧ Some1 r.2)
      (advLoop up fuel M b : WildM E (Mono I C × Mono.Bodt)) := by
  induction fuel generalizing M b with
  | zero => exact EnsM.out
  | succ k ih =>
    unfold advLoop
    refine EnsM.bind (canTriangulate_ens (h.weaken (by omega))) fun go hgo => EnsM.ite (fun hg => ?_) fun _ =>
      EnsM.pure ⟨h, hb, hs⟩
    refine EnsM.bind (skippedPop_ens (hgo hg).1) fun M' hM' => ?_
    obtain ⟨h1, h2, h3, h4⟩ := hM'
    have hp : M'.hasPending = true := by
      have := (hgo hg).2
      unfold Mono.hasPending at this ⊢
      rw [h2, h3]
      exact this
    refine EnsM.bind (cloned_ens (pendingPeek_ens hp)) fun _ _ => EnsM.bind (addTriangle_ens b) fun b' hb' => ?_
    refine EnsM.bind (EnsM.lift (transferPending_ens h1 hp)) fun M'' hM'' => ?_
    exact ih M'' b' hM''.1 (by omega) hb'.2

/-- The deferred vertices are in the array. -/
def Deferred (M : Mono I C) (bt : Bool) (dt : Nat) : Prop :=
  if bt then M.skippedTop + dt ≤ M.pendingTop ∧ M.hasPending = true else dt + 2 ≤ M.pendingTop

theorem deferredIndex_ens {M : Mono I C} {bt : Bool} {dt i : Nat} (h : Fits 1 M) (hd : Deferred M bt dt) (hi : i < dt) :
    EnsM up (fun _ => True) (deferredIndex up M bt i : WildM E Unit) := by
  unfold deferredIndex
  refine EnsM.bind (P := fun _ => True) (EnsM.lift ?_) fun _ _ => EnsM.call
  unfold Mono.deferredIndex
  refine Ens.bind (P := (· < M.arr.length)) ?_ fun j hj => Ens.bind (Ens.getP_lt hj) fun _ _ => trivial
  have h3 := h.high
  unfold Mono.deferredPos
  unfold Deferred at hd
  cases bt with
  | true =>
    have hd1 := hd.1
    have hp : M.pendingTop < M.arr.length := of_decide_eq_true hd.2
    show M.skippedTop + i < M.arr.length
    omega
  | false =>
    have hd : dt + 2 ≤ M.pendingTop := hd
    refine Ens.bind (subP_ens (by omega)) fun a ha => (subP_ens (by omega)).imp fun b hb => ?_
    show b < M.arr.length
    subst ha
    omega

theorem extendDeferred_ens {M : Mono I C} {bt : Bool} {dt : Nat} (h : Fits 1 M) (hd : Deferred M bt dt) (n i : Nat)
    (hi : i + n ≤ dt) : EnsM up (fun _ => True) (extendDeferred up M bt i n : WildM E Unit) := by
  induction n generalizing i with
  | zero => exact EnsM.pure trivial
  | succ n ih =>
    unfold extendDeferred
    exact EnsM.bind (deferredIndex_ens h hd (by omega)) fun _ _ => EnsM.bind EnsM.extendFan fun _ _ => ih _ (by omega)

theorem fanStep_ens (w : Winding) {M : Mono I C} (h : Fits 2 M) (hp : M.hasPending = true) :
    EnsM up (fun M' => Fits 1 M' ∧ (M'.hasPending = false → Fits 2 M')) (fanStep up w M : WildM E (Mono I C)) := by
  unfold fanStep
  have hm := h.mid
  refine EnsM.bind (skippedPop_ens h) fun M' hM' => ?_
  obtain ⟨h1, h2, h3, h4⟩ := hM'
  have hp' : M'.hasPending = true := by
    unfold Mono.hasPending at hp ⊢
    rw [h2, h3]
    exact hp
  refine EnsM.bind (cloned_ens (skippedPeek_ens h1)) fun _ _ => EnsM.bind (cloned_ens (pendingPeek_ens hp')) fun _ _ => ?_
  refine EnsM.bind (canTriangulate_ens (h1.weaken (by omega))) fun bt hbt => ?_
  refine EnsM.bind (P := fun b => dts b ≤ 1 ∧ Some1 b) ?_ fun bodt hb => ?_
  · unfold startFan
    exact EnsM.ite (fun _ => EnsM.bind EnsM.newFan fun _ _ => EnsM.pure ⟨by simp [dts], trivial⟩) fun _ =>
      EnsM.pure ⟨by simp [dts], Nat.one_pos⟩
  refine EnsM.bind (P := fun r => Fits 1 r.1 ∧ (r.1.hasPending = false → Fits 2 r.1) ∧ (bt = false → Fits 2 r.1) ∧
    Deferred r.1 bt (dts r.2) ∧ Some1 r.2) ?_ ?_
  · unfold growFan
    cases bt with
    | true =>
      simp only [if_true]
      refine EnsM.bind (skippedPop_ens (hbt rfl).1) fun M2 hM2 => ?_
      obtain ⟨i1, i2, i3, i4⟩ := hM2
      have hp2 : M2.hasPending = true := by
        unfold Mono.hasPending at hp' ⊢
        rw [i2, i3]
        exact hp'
      refine EnsM.bind (cloned_ens (skippedPeek_ens i1)) fun _ _ => EnsM.bind (addTriangle_ens bodt) fun b' hb' => ?_
      refine (backLoop_ens _ M2 b' i1 hp2 (by omega) hb'.2).imp fun r hr => ⟨hr.1, ?_, by simp, ?_, hr.2.2.2⟩
      · intro h
        rw [hr.2.1] at h
        cases h
      · exact ⟨hr.2.2.1, hr.2.1⟩
    | false =>
      simp only [Bool.false_eq_true, if_false]
      refine EnsM.bind (EnsM.lift (transferPending_ens h1 hp')) fun M2 hM2 => ?_
      have := hM2.2.2
      have := h.low
      refine (advLoop_ens _ M2 bodt hM2.1 (by omega) hb.2).imp fun r hr =>
        ⟨hr.1.weaken (by omega), fun _ => hr.1, fun _ => hr.1, hr.2.1, hr.2.2⟩
  · rintro ⟨M2, b2⟩ ⟨h1, h2, h3, h4, h5⟩
    refine EnsM.bind (P := fun _ => True) ?_ fun _ _ => EnsM.pure ⟨h1, h2⟩
    cases b2 with
    | builder => exact EnsM.pure trivial
    | deferred dt =>
      unfold finishFan emitDeferred
      refine EnsM.bind (P := fun _ => True) (EnsM.lift ?_) fun _ _ => EnsM.bind EnsM.call fun _ _ => ?_
      · unfold Mono.deferredBase
        cases bt with
        | true =>
          simp only [if_true]
          exact Ens.bind (pendingPeek_ens h4.2) fun _ _ => Ens.bind (skippedPeek_ens h1) fun _ _ => trivial
        | false =>
          simp only [Bool.false_eq_true, if_false]
          exact Ens.bind (skippedPeek2_ens (h3 rfl)) fun _ _ => trivial
      · have h5 : 0 < dt := h5
        refine EnsM.bind (deferredIndex_ens h1 h4 h5) fun _ _ => EnsM.bind EnsM.newFan fun _ _ => ?_
        exact extendDeferred_ens h1 h4 _ _ (by show 1 + (dt - 1) ≤ dt; omega)

theorem buildFans_ens (w : Winding) (fuel : Nat) (M : Mono I C) (h : Fits 2 M) :
    EnsM up (fun _ => True) (buildFans up w fuel M : WildM E Unit) := by
  induction fuel generalizing M with
  | zero => exact EnsM.out
  | succ k ih =>
    unfold buildFans
    refine EnsM.bind (P := fun _ => True) (EnsM.lift ?_) fun r _ => EnsM.ite (fun _ => ?_) fun _ =>
      EnsM.ite (fun _ => EnsM.pure trivial) fun _ => EnsM.stop
    · exact Ens.bind (subP_ens h.high) fun _ _ => trivial
    · refine EnsM.bind (P := fun M' => Fits 1 M' ∧ (M'.hasPending = false → Fits 2 M')) ?_ fun M' hM' => ?_
      · unfold maybeFan
        exact EnsM.bind (canTriangulate_ens (h.weaken (by omega))) fun b hb =>
          EnsM.ite (fun hb' => fanStep_ens w h (hb hb').2) fun _ => EnsM.pure ⟨h.weaken (by omega), fun _ => h⟩
      · refine EnsM.bind (P := Fits 2) (EnsM.lift ?_) fun M'' hM'' => ih M'' hM''
        unfold Mono.advancePosition
        refine Ens.ite (fun hp => (transferPending_ens hM'.1 hp).imp fun _ h => h.1) fun hp => ?_
        have h2 := hM'.2 (by simpa using hp)
        have := h2.low
        have := h2.mid
        have := h2.high
        refine ⟨Nat.le_refl _, Nat.le_refl _, ?_⟩
        show 2 ≤ (M'.arr.take M'.skippedTop).length
        rw [List.length_take]
        omega

theorem finishMonotone_ens (w : Winding) (fuel : Nat) (b : MonoB I C) :
    EnsM up (fun _ => True) (finishMonotone up w fuel b : WildM E Unit) := by
  unfold finishMonotone
  refine EnsM.bind (P := fun M => ∀ M', M = some M' → Fits 2 M') ?_ fun M hM => ?_
  · unfold build
    split
    · refine EnsM.ite (fun _ => EnsM.bind EnsM.call fun _ _ => EnsM.pure ?_) fun _ => EnsM.pure (by simp)
      rintro M' ⟨⟩
      exact ⟨Nat.le_refl _, Nat.le_refl _, by simp⟩
    · exact EnsM.stop
  · cases M with
    | none => exact EnsM.pure trivial
    | some M => exact buildFans_ens w fuel M (hM M rfl)

/-! ## The descent -/

/-- The positions the descent has open are trapezoids. -/
structure InRange (T : Nat) (x : TI I C) : Prop where
  ti : x.ti < T
  branch : ∀ e ∈ x.branchStack, e.1 < T

theorem addVertex_ens (b : MonoB I C) (c : Coords C) :
    EnsM up (fun _ => True) (addVertex up b c : WildM E (MonoB I C)) :=
  EnsM.bind EnsM.call fun _ _ => EnsM.bind EnsM.call fun _ _ => EnsM.bind EnsM.call fun _ _ => EnsM.pure trivial

theorem newMonotone_ens (c : Coords C) (n : Nexus I C) :
    EnsM up (fun _ => True) (newMonotone up c n : WildM E (MonoB I C)) :=
  EnsM.bind EnsM.call fun _ _ => addVertex_ens _ _

theorem updateMonotones_ens (w : Winding) (fuel : Nat) {st : St I C} (hwf : WF AnyKey st) {x : TI I C} {t : Trapezoid}
    (ht : t ∈ st.ts) (d : Nat) (n : Nexus I C) (hx : InRange st.ts.length x) :
    EnsM up (fun x' => InRange st.ts.length x' ∧ x'.ti = x.ti)
      (updateMonotones up w fuel st x t d n : WildM E (TI I C)) := by
  have hok := hwf.ts t ht
  have hE : ∀ e, IsErr (.err e : Fault IErr) := fun e => ⟨e, rfl⟩
  unfold updateMonotones
  split
  · exact EnsM.pure ⟨hx, rfl⟩
  refine EnsM.bind (P := fun _ => True) ?_ fun ms _ => EnsM.pure ⟨⟨hx.ti, hx.branch⟩, rfl⟩
  unfold advanceMonotones
  refine EnsM.bind (P := fun _ => True) ?_ fun ms _ => ?_
  · unfold addToAll
    split
    · exact EnsM.bind (addVertex_ens _ _) fun _ _ => EnsM.pure trivial
    · exact EnsM.bind (addVertex_ens _ _) fun _ _ => EnsM.bind (addVertex_ens _ _) fun _ _ => EnsM.pure trivial
  refine EnsM.bind (EnsM.lift (okInner_getP_err hE _ _ hok.left)) fun _ _ => ?_
  refine EnsM.bind (EnsM.lift (okInner_getP_err hE _ _ hok.right)) fun _ _ => ?_
  refine EnsM.bind (EnsM.lift (okInner_err hE _)) fun u hu => ?_
  split
  · exact EnsM.pure trivial
  · refine EnsM.bind (finishMonotone_ens w fuel _) fun _ _ => ?_
    unfold restartMonotone
    split
    · exact EnsM.pure trivial
    · refine EnsM.bind (EnsM.lift (Ens.getP_lt (hok.up u hu))) fun _ _ => EnsM.bind EnsM.call fun _ _ => ?_
      exact EnsM.bind (newMonotone_ens _ _) fun _ _ => EnsM.pure trivial

theorem okOne_ens {α : Type} (o : Ot α) : Ens IsErr (fun _ => True) o.okOne := by
  cases o with
  | one a => exact trivial
  | two a b => exact ⟨_, rfl⟩

theorem descend_ens (w : Winding) (fuel : Nat) {st : St I C} (hwf : WF AnyKey st) {x : TI I C} {t : Trapezoid}
    (ht : t ∈ st.ts) {n : Nexus I C} (hn : n ∈ st.ns) (hx : InRange st.ts.length x) :
    EnsM up (InRange st.ts.length)
      (WildM.lift n.finalType >>= fun ft => descend up w fuel st x t n ft : WildM E (TI I C)) := by
  have hok := hwf.ts t ht
  have hnok := hwf.ns n hn
  have hE : ∀ e, IsErr (.err e : Fault IErr) := fun e => ⟨e, rfl⟩
  refine EnsM.bind (P := fun ft => match ft with
      | .V _ _ _ down => down < st.ts.length
      | .I _ _ dl dr => dl < st.ts.length ∧ dr < st.ts.length
      | .A _ dl dc dr => dl < st.ts.length ∧ dc < st.ts.length ∧ dr < st.ts.length) (EnsM.lift ?_) fun ft hft => ?_
  · unfold Nexus.finalType
    split
    · rename_i d0 d1 hdiv
      have h0 : n.leftmost .desc < st.ts.length := hnok.down
      have h1 := (hnok.divs d0 (by simp [hdiv, Zot.toList])).1
      have h2 := (hnok.divs d1 (by simp [hdiv, Zot.toList])).1
      split
      · exact ⟨h0, h1, h2⟩
      · split
        · exact h0
        · exact ⟨h0, h2⟩
    · exact hE _
  cases ft with
  | V upleft upcenter upright down =>
    refine EnsM.bind (P := InRange st.ts.length) ?_ fun y hy => EnsM.lift ?_
    · unfold joinV
      split
      · exact EnsM.pure hx
      · refine EnsM.ite (fun _ => ?_) fun _ => EnsM.ite (fun _ => ?_) fun _ => EnsM.ite (fun _ => ?_) fun _ => EnsM.stop
        · exact EnsM.bind (EnsM.lift (okOne_ens _)) fun _ _ => EnsM.pure ⟨hx.ti, hx.branch⟩
        · exact EnsM.bind (EnsM.forM (finishMonotone_ens w fuel) _) fun _ _ => EnsM.pure ⟨hx.ti, hx.branch⟩
        · split
          · exact EnsM.stop
          · exact EnsM.bind (EnsM.lift (okOne_ens _)) fun _ _ => EnsM.pure ⟨hx.ti, hx.branch⟩
    · unfold leaveV
      refine Ens.ite (fun _ => ⟨hft, hy.branch⟩) fun _ => ?_
      split
      · exact hE _
      · rename_i ti ms rest hb
        exact ⟨hy.branch (ti, ms) (by rw [hb]; simp),
          fun e he => hy.branch e (by rw [hb]; simp [show e ∈ rest from he])⟩
  | I upleft upright downleft downright =>
    exact EnsM.ite (fun _ => EnsM.pure ⟨hft.1, hx.branch⟩) fun _ =>
      EnsM.ite (fun _ => EnsM.pure ⟨hft.2, hx.branch⟩) fun _ => EnsM.stop
  | A u downleft downcenter downright =>
    have hbr : ∀ (a b : Option (Ot (MonoB I C))), ∀ e ∈ (downcenter, a) :: (downright, b) :: x.branchStack,
        e.1 < st.ts.length := by
      intro a b e he
      simp only [List.mem_cons] at he
      rcases he with rfl | rfl | he
      · exact hft.2.1
      · exact hft.2.2
      · exact hx.branch e he
    unfold descend descendA
    dsimp only
    split
    · refine EnsM.bind (P := fun _ => True) ?_ fun r _ => EnsM.pure ⟨hft.1, hbr _ _⟩
      unfold splitMonotones
      split
      · exact EnsM.pure trivial
      · refine EnsM.bind (EnsM.lift (okInner_err hE _)) fun nu hnu => ?_
        refine EnsM.bind (EnsM.lift (Ens.getP_lt (hok.up nu hnu))) fun n _ => ?_
        refine EnsM.bind (newMonotone_ens _ _) fun _ _ => ?_
        refine EnsM.bind (EnsM.lift (okInner_getP_err hE _ _ hok.left)) fun sl _ =>
          EnsM.ite (fun _ => EnsM.pure trivial) fun _ => ?_
        exact EnsM.bind (EnsM.lift (okInner_getP_err hE _ _ hok.right)) fun sr _ =>
          EnsM.ite (fun _ => EnsM.pure trivial) fun _ => EnsM.stop
    · exact EnsM.bind EnsM.call fun _ _ => EnsM.pure ⟨hft.1, hbr _ _⟩

end WildM

open WildM in
theorem triLoop_ensM {up : Bool} (w : Winding) (fuel : Nat) {st : St I C} (hwf : WF AnyKey st) (k : Nat) (x : TI I C)
    (hx : InRange st.ts.length x) : EnsM up (fun _ => True) (WildM.triLoop up w fuel st k x : WildM E Unit) := by
  induction k generalizing x with
  | zero => exact EnsM.out
  | succ k ih =>
    unfold WildM.triLoop
    refine EnsM.bind (EnsM.lift (Ens.getP_lt hx.ti)) fun t ht => ?_
    have ht := mem_of_get ht
    cases hd : t.down with
    | none =>
      exact EnsM.ite (fun _ => EnsM.stop) fun _ => EnsM.ite (fun _ => EnsM.stop) fun _ =>
        EnsM.ite (fun _ => EnsM.stop) fun _ => EnsM.pure trivial
    | some d =>
      refine EnsM.bind (P := InRange st.ts.length) ?_ fun x' hx' => ih x' hx'
      unfold WildM.triStep
      refine EnsM.bind (EnsM.lift (Ens.getP_lt ((hwf.ts t ht).down d hd))) fun n hn => ?_
      exact EnsM.bind (updateMonotones_ens w fuel hwf ht d n hx) fun x' hx' =>
        descend_ens w fuel hwf ht (mem_of_get hn) hx'.1

theorem topTrapezoid_errOrOut {T : Nat} {qs : List (QueryNode C)} (hq : ∀ q ∈ qs, QOK qs.length T q) (fuel qi : Nat)
    (hqi : qi < qs.length) : Ens ErrOrOut (· < T) (topTrapezoid qs fuel qi) := by
  induction fuel generalizing qi with
  | zero => exact .inl rfl
  | succ k ih =>
    unfold topTrapezoid
    refine Ens.bind (Ens.getP_lt hqi) fun q hget => ?_
    have := hq q (mem_of_get hget)
    split
    · exact ih _ this.2
    · exact .inr ⟨_, rfl⟩
    · exact this

/-- Every outcome of the triangulation of a well-formed trapezoidation is a value, an error value, running out of steps
or a panic of user code. -/
theorem stTriangulate_fault {up : Bool} (w : Winding) (fuel : Nat) {st : St I C} (hwf : WF AnyKey st)
    {r : Res (TriErr E) O} (h : Wild.stTriangulate up w fuel st r) {e : Fault (TriErr E)} (he : r = .error e) :
    WildFault up e := by
  subst he
  obtain ⟨⟨s, x⟩, hx, hr⟩ := h
  have hi : EnsM up (fun _ => True) (WildM.triangulateInner up w fuel st : WildM E Unit) :=
    EnsM.bind (EnsM.lift' (topTrapezoid_errOrOut hwf.qs fuel 0 hwf.root)) fun ti hti =>
      triLoop_ensM w fuel hwf fuel _ ⟨hti, by simp⟩
  have hx := hi .uninit trivial _ hx
  rcases x with e' | u
  · have hx : WildFault up e' := hx
    rcases hx with rfl | ⟨e', rfl⟩ | ⟨hup, rfl⟩
    · cases s <;> cases hr <;> exact .inl rfl
    · cases s <;> simp only [Phase.complete] at hr
      · cases hr
        exact .inr (.inl ⟨_, rfl⟩)
      · rcases hr with hr | ⟨hup, hr⟩ <;> cases hr
        · exact .inr (.inl ⟨_, rfl⟩)
        · exact .inr (.inr ⟨hup, rfl⟩)
      · rcases hr with hr | ⟨hup, hr⟩ <;> cases hr
        · exact .inr (.inl ⟨_, rfl⟩)
        · exact .inr (.inr ⟨hup, rfl⟩)
      · cases hr
        exact .inr (.inl ⟨_, rfl⟩)
    · exact .inr (.inr ⟨hup, by cases s <;> cases hr <;> rfl⟩)
  · cases s with
    | uninit =>
      cases hr
      exact .inr (.inl ⟨_, rfl⟩)
    | init =>
      rcases hr with ⟨o, hr⟩ | ⟨e, hr⟩ | ⟨hup, hr⟩ <;> cases hr
      · exact .inr (.inl ⟨_, rfl⟩)
      · exact .inr (.inr ⟨hup, rfl⟩)
    | error => exact hx.1.elim
    | dead => exact hx.1.elim

end Tri
