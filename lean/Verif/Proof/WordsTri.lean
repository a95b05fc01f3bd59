import Verif.Model.WordsTri
import Verif.Proof.Words

/-!
# The triangulation step on a machine with words of a fixed length

Within a chain nothing can overflow (`Same`).  When chains are put together, vectors may become too long (`NearF`).
-/

namespace Tri

open Machine

variable {I V C : Type} {F : FanFormat I} {α β : Type}

/-! ## Runs that are equal -/

/-- Equal results, with the property `P`. -/
def SameR (P : α → Prop) (x y : Res IErr α) : Prop := x = y ∧ ∀ a, y = .ok a → P a

theorem SameR.ok {P : α → Prop} {a : α} (h : P a) : SameR P (.ok a) (.ok a) := ⟨rfl, fun _ e => by cases e; exact h⟩

theorem SameR.bind {P : α → Prop} {Q : β → Prop} {x y : Res IErr α} {f g : α → Res IErr β} (h : SameR P x y)
    (hf : ∀ a, P a → SameR Q (f a) (g a)) : SameR Q (x >>= f) (y >>= g) := by
  obtain ⟨rfl, h⟩ := h
  cases x with
  | error e => exact ⟨rfl, fun _ e => by cases e⟩
  | ok a => exact hf a (h a rfl)

theorem SameR.imp {P Q : α → Prop} {x y : Res IErr α} (h : SameR P x y) (hPQ : ∀ a, P a → Q a) : SameR Q x y :=
  ⟨h.1, fun a ha => hPQ a (h.2 a ha)⟩

theorem SameR.ite {P : α → Prop} {c : Prop} [Decidable c] {x y x' y' : Res IErr α} (h : c → SameR P x x') (h' : ¬ c → SameR P y y') :
    SameR P (if c then x else y) (if c then x' else y') := by
  by_cases hc : c
  · rw [if_pos hc, if_pos hc]; exact h hc
  · rw [if_neg hc, if_neg hc]; exact h' hc

theorem SameR.refl (x : Res IErr α) : SameR (fun a => x = .ok a) x x := ⟨rfl, fun _ h => h⟩

theorem SameR.sub {mc : Machine} {debug : Bool} {a b : Nat} (h : b ≤ a) :
    SameR (· = a - b) (mc.sub debug a b) (subP a b) := by
  unfold Machine.sub subP
  rw [if_pos h, if_pos h]
  exact SameR.ok rfl

theorem SameR.add {mc : Machine} {debug : Bool} {a b : Nat} (h : a + b < 2 ^ mc.bits) :
    SameR (· = a + b) (mc.add debug a b) (.ok (a + b)) := by
  rw [add_ok h]
  exact SameR.ok rfl

/-- Equal runs that use a format. -/
def Same (P : α → Prop) (x y : FBM F α) : Prop := ∀ s, x s = y s ∧ ∀ a, (y s).2 = .ok a → P a

theorem Same.refl (x : FBM F α) : Same (fun _ => True) x x := fun _ => ⟨rfl, fun _ _ => trivial⟩

theorem Same.pure {P : α → Prop} {a : α} (h : P a) : Same P (pure a : FBM F α) (pure a) :=
  fun _ => ⟨rfl, fun _ e => by cases e; exact h⟩

theorem Same.stop {P : α → Prop} {e : Fault IErr} : Same P (FanM.stop e : FBM F α) (FanM.stop e) :=
  fun _ => ⟨rfl, fun _ e => by cases e⟩

theorem Same.lift {P : α → Prop} {x y : Res IErr α} (h : SameR P x y) : Same P (FanM.lift x : FBM F α) (FanM.lift y) := by
  obtain ⟨rfl, h⟩ := h
  cases x with
  | error e => exact Same.stop
  | ok a => exact Same.pure (h a rfl)

theorem Same.bind {P : α → Prop} {Q : β → Prop} {x y : FBM F α} {f g : α → FBM F β} (h : Same P x y)
    (hf : ∀ a, P a → Same Q (f a) (g a)) : Same Q (x >>= f) (y >>= g) := by
  intro s
  obtain ⟨h1, h2⟩ := h s
  show (match x s with | (s, .ok a) => f a s | (s, .error e) => (s, .error e)) = (match y s with | (s, .ok a) => g a s | (s, .error e) => (s, .error e)) ∧
    ∀ b, (match y s with | (s, .ok a) => g a s | (s, .error e) => (s, .error e)).2 = .ok b → Q b
  rw [h1]
  generalize y s = r at h2
  rcases r with ⟨s', e | a⟩
  · exact ⟨rfl, fun _ e => by cases e⟩
  · exact hf a (h2 a rfl) s'

theorem Same.ite {P : α → Prop} {c : Prop} [Decidable c] {x y x' y' : FBM F α} (h : c → Same P x x') (h' : ¬ c → Same P y y') :
    Same P (if c then x else y) (if c then x' else y') := by
  by_cases hc : c
  · rw [if_pos hc, if_pos hc]; exact h hc
  · rw [if_neg hc, if_neg hc]; exact h' hc

theorem Same.imp {P Q : α → Prop} {x y : FBM F α} (h : Same P x y) (hPQ : ∀ a, P a → Q a) : Same Q x y :=
  fun s => ⟨(h s).1, fun a ha => hPQ a ((h s).2 a ha)⟩

/-! ## Chains -/

namespace Mono

/-- The stack and the queue of a chain are in the array, and its positions are words. -/
structure InWords (mc : Machine) (k : Nat) (M : Mono I C) : Prop where
  low : k ≤ M.skippedTop
  mid : M.skippedTop ≤ M.pendingTop
  high : M.pendingTop ≤ M.arr.length
  len : M.arr.length + 3 ≤ 2 ^ mc.bits

variable {mc : Machine} {debug : Bool}

theorem InWords.weaken {k k' : Nat} {M : Mono I C} (h : InWords mc k M) (hk : k' ≤ k) : InWords mc k' M :=
  ⟨Nat.le_trans hk h.low, h.mid, h.high, h.len⟩

theorem skippedPeek_same {M : Mono I C} (h : InWords mc 1 M) : SameR (fun _ => True) (M.skippedPeekW mc debug) M.skippedPeek :=
  SameR.bind (SameR.sub h.low) fun _ _ => (SameR.refl _).imp fun _ _ => trivial

theorem skippedPeek2_same {M : Mono I C} (h : InWords mc 2 M) : SameR (fun _ => True) (M.skippedPeek2W mc debug) M.skippedPeek2 := by
  have := h.low
  refine SameR.bind (SameR.sub h.low) fun _ _ => SameR.bind (SameR.refl _) fun _ _ => SameR.bind (SameR.sub (by omega)) fun _ _ => ?_
  exact SameR.bind (SameR.refl _) fun _ _ => SameR.ok trivial

theorem skippedPop_same {k : Nat} {M : Mono I C} (h : InWords mc (k + 1) M) :
    SameR (fun r => InWords mc k r.2 ∧ r.2.arr = M.arr ∧ r.2.pendingTop = M.pendingTop ∧ r.2.skippedTop + 1 = M.skippedTop)
      (M.skippedPopW mc debug) M.skippedPop := by
  have h1 := h.low
  have h2 := h.mid
  refine SameR.bind (SameR.sub (by omega)) fun i hi => SameR.bind (SameR.refl _) fun a _ => SameR.ok ?_
  subst hi
  exact ⟨⟨by show k ≤ M.skippedTop - 1; omega, by show M.skippedTop - 1 ≤ M.pendingTop; omega, h.high, h.len⟩, rfl, rfl,
    by show M.skippedTop - 1 + 1 = _; omega⟩

theorem swapIfNe_length {xs ys : List α} {i j : Nat} (h : swapIfNe xs i j = .ok ys) : ys.length = xs.length := by
  unfold swapIfNe swapP at h
  split at h
  · cases hi : (getP xs i : Res IErr α) with
    | error e => rw [hi] at h; cases h
    | ok a =>
      cases hj : (getP xs j : Res IErr α) with
      | error e => rw [hi, hj] at h; cases h
      | ok b =>
        rw [hi, hj] at h
        cases h
        simp
  · cases h
    rfl

theorem transferPending_same {k : Nat} {M : Mono I C} (h : InWords mc k M) (hp : M.pendingTop < M.arr.length) :
    SameR (fun M' => InWords mc (k + 1) M' ∧ M'.arr.length = M.arr.length ∧ M'.pendingTop = M.pendingTop + 1 ∧
      M'.skippedTop = M.skippedTop + 1) (M.transferPendingW mc debug) M.transferPending := by
  have h1 := h.low
  have h2 := h.mid
  have h3 := h.len
  refine SameR.bind (SameR.refl _) fun arr harr => ?_
  have hl := swapIfNe_length harr
  rw [show (mc.add debug M.skippedTop 1 : Res IErr Nat) = .ok (M.skippedTop + 1) from add_ok (by omega),
    show (mc.add debug M.pendingTop 1 : Res IErr Nat) = .ok (M.pendingTop + 1) from add_ok (by omega)]
  refine SameR.ok ⟨⟨?_, ?_, ?_, ?_⟩, hl, rfl, rfl⟩
  · show k + 1 ≤ M.skippedTop + 1
    omega
  · show M.skippedTop + 1 ≤ M.pendingTop + 1
    omega
  · show M.pendingTop + 1 ≤ arr.length
    omega
  · show arr.length + 3 ≤ _
    omega

theorem pendingPeek_same {M : Mono I C} : SameR (fun _ => M.pendingTop < M.arr.length) M.pendingPeek M.pendingPeek := by
  refine ⟨rfl, fun a h => ?_⟩
  unfold pendingPeek getP at h
  by_contra hc
  rw [List.getElem?_eq_none (by omega)] at h
  cases h

variable [Scalar C]

theorem canTriangulate_same {M : Mono I C} (h : InWords mc 0 M) :
    SameR (fun b => b = true → InWords mc 2 M ∧ M.pendingTop < M.arr.length) (M.canTriangulateW mc debug) M.canTriangulate := by
  refine SameR.ite (fun hc => ?_) fun _ => SameR.ok (by simp)
  have h2 : InWords mc 2 M := ⟨hc.1, h.mid, h.high, h.len⟩
  exact SameR.bind pendingPeek_same fun _ hp => SameR.bind (skippedPeek2_same h2) fun _ _ => SameR.ok fun _ => ⟨h2, hp⟩

/-- The number of deferred triangles. -/
def Bodt.count : Bodt → Nat
  | .builder => 0
  | .deferred dt => dt

theorem addTriangle_same {b : Bodt} {v : I} (h : b.count + 1 < 2 ^ mc.bits) :
    Same (fun b' => b'.count ≤ b.count + 1) (b.addTriangleW mc debug v : FBM F Bodt) (b.addTriangle v) := by
  cases b with
  | builder => exact Same.bind (Same.refl _) fun _ _ => Same.pure (by simp [Bodt.count])
  | deferred dt =>
    show Same _ (FanM.lift (mc.add debug dt 1) >>= fun dt => (pure (.deferred dt) : FBM F Bodt)) (pure (.deferred (dt + 1)))
    rw [show (mc.add debug dt 1 : Res IErr Nat) = .ok (dt + 1) from add_ok h]
    exact Same.pure (Nat.le_refl _)

theorem backLoop_same (fuel : Nat) (M : Mono I C) (b : Bodt) (h : InWords mc 1 M) (hp : M.pendingTop < M.arr.length)
    (hb : M.skippedTop + b.count ≤ M.pendingTop) :
    Same (fun r => InWords mc 1 r.1 ∧ r.1.pendingTop < r.1.arr.length ∧ r.1.skippedTop + r.2.count ≤ r.1.pendingTop)
      (backLoopW mc debug fuel M b : FBM F _) (backLoop fuel M b) := by
  induction fuel generalizing M b with
  | zero => exact Same.stop
  | succ k ih =>
    unfold backLoopW backLoop
    refine Same.bind (Same.lift (canTriangulate_same (h.weaken (by omega)))) fun go hgo => Same.ite (fun hg => ?_) fun _ =>
      Same.pure ⟨h, hp, hb⟩
    refine Same.bind (Same.lift (skippedPop_same (hgo hg).1)) ?_
    rintro ⟨_, M'⟩ ⟨h1, h2, h3, h4⟩
    have hl := h.len
    simp only at h2 h3 h4
    refine Same.bind (Same.lift (skippedPeek_same h1)) fun _ _ => Same.bind (addTriangle_same (by omega)) fun b' hb' => ?_
    exact ih M' b' h1 (by rw [h2, h3]; exact hp) (by omega)

theorem advLoop_same (fuel : Nat) (M : Mono I C) (b : Bodt) (h : InWords mc 2 M) (hb : M.skippedTop + b.count ≤ M.pendingTop) :
    Same (fun r => InWords mc 2 r.1 ∧ r.1.skippedTop + r.2.count ≤ r.1.pendingTop)
      (advLoopW mc debug fuel M b : FBM F _) (advLoop fuel M b) := by
  induction fuel generalizing M b with
  | zero => exact Same.stop
  | succ k ih =>
    unfold advLoopW advLoop
    refine Same.bind (Same.lift (canTriangulate_same (h.weaken (by omega)))) fun go hgo => Same.ite (fun hg => ?_) fun _ =>
      Same.pure ⟨h, hb⟩
    refine Same.bind (Same.lift (skippedPop_same (hgo hg).1)) ?_
    rintro ⟨_, M'⟩ ⟨h1, h2, h3, h4⟩
    have hl := h.len
    have hh := h.high
    simp only at h2 h3 h4
    refine Same.bind (Same.lift pendingPeek_same) fun _ hp => Same.bind (addTriangle_same (by omega)) fun b' hb' => ?_
    refine Same.bind (Same.lift (transferPending_same h1 hp)) fun M'' hM'' => ?_
    exact ih M'' b' hM''.1 (by omega)

theorem deferredIndex_same {M : Mono I C} {bt : Bool} {dt i : Nat} (h : InWords mc 1 M) (hd : M.skippedTop + dt ≤ M.pendingTop)
    (hi : i ≤ dt) :
    SameR (fun _ => True) (M.deferredIndexW mc debug bt i) (M.deferredIndex bt i) := by
  have h1 := h.low
  have h3 := h.high
  have h4 := h.len
  refine SameR.bind (P := fun _ => True) ?_ fun _ _ => SameR.bind (SameR.refl _) fun _ _ => SameR.ok trivial
  unfold deferredPosW deferredPos
  refine SameR.ite (fun _ => (SameR.add (by omega)).imp fun _ _ => trivial) fun _ => ?_
  refine SameR.bind (SameR.sub (by omega)) fun a ha => (SameR.sub (by omega)).imp fun _ _ => trivial

theorem extendDeferred_same {M : Mono I C} {bt : Bool} {dt : Nat} (h : InWords mc 1 M) (hd : M.skippedTop + dt ≤ M.pendingTop) (n i : Nat)
    (hi : i + n ≤ dt + 1) :
    Same (fun _ => True) (extendDeferredW mc debug M bt i n : FBM F Unit) (extendDeferred M bt i n) := by
  induction n generalizing i with
  | zero => exact Same.pure trivial
  | succ n ih =>
    unfold extendDeferredW extendDeferred
    exact Same.bind (Same.lift (deferredIndex_same h hd (by omega))) fun _ _ => Same.bind (Same.refl _) fun _ _ => ih _ (by omega)

theorem fanStep_same (w : Winding) {M : Mono I C} (h : InWords mc 2 M) (hp : M.pendingTop < M.arr.length) :
    Same (fun M' => InWords mc 1 M' ∧ (¬ M'.pendingTop < M'.arr.length → InWords mc 2 M'))
      (fanStepW mc debug w M : FBM F (Mono I C)) (fanStep w M) := by
  unfold fanStepW fanStep
  have hm := h.mid
  refine Same.bind (Same.lift (skippedPop_same h)) ?_
  rintro ⟨_, M'⟩ ⟨h1, h2, h3, h4⟩
  simp only at h2 h3 h4
  have hp' : M'.pendingTop < M'.arr.length := by rw [h2, h3]; exact hp
  have hl := h1.len
  refine Same.bind (Same.lift (skippedPeek_same h1)) fun _ _ => Same.bind (Same.lift pendingPeek_same) fun _ _ => ?_
  refine Same.bind (Same.lift (canTriangulate_same (h1.weaken (by omega)))) fun bt hbt => ?_
  refine Same.bind (P := fun b => b.count ≤ 1) ?_ fun bodt hb => ?_
  · unfold startFan
    exact Same.ite (fun _ => Same.bind (Same.refl _) fun _ _ => Same.pure (by simp [Bodt.count])) fun _ =>
      Same.pure (Nat.le_refl _)
  refine Same.bind (P := fun r => InWords mc 1 r.1 ∧ (¬ r.1.pendingTop < r.1.arr.length → InWords mc 2 r.1) ∧ (bt = false → InWords mc 2 r.1) ∧
    r.1.skippedTop + r.2.count ≤ r.1.pendingTop) ?_ ?_
  · unfold growFanW growFan
    refine Same.ite (fun hc => ?_) fun hc => ?_
    · refine Same.bind (Same.lift (skippedPop_same (hbt hc).1)) ?_
      rintro ⟨_, M2⟩ ⟨i1, i2, i3, i4⟩
      simp only at i2 i3 i4
      have hp2 : M2.pendingTop < M2.arr.length := by rw [i2, i3]; exact hp'
      refine Same.bind (Same.lift (skippedPeek_same i1)) fun _ _ => Same.bind (addTriangle_same (by omega)) fun b' hb' => ?_
      refine (backLoop_same _ M2 b' i1 hp2 (by omega)).imp fun r hr => ⟨hr.1, fun hn => (hn hr.2.1).elim, ?_, hr.2.2⟩
      intro hf
      rw [hc] at hf
      cases hf
    · refine Same.bind (Same.lift (transferPending_same h1 hp')) fun M2 hM2 => ?_
      refine (advLoop_same _ M2 bodt hM2.1 (by omega)).imp fun r hr =>
        ⟨hr.1.weaken (by omega), fun _ => hr.1, fun _ => hr.1, hr.2⟩
  · rintro ⟨M2, b2⟩ ⟨h1, h2, h3, h4⟩
    refine Same.bind (P := fun _ => True) ?_ fun _ _ => Same.pure ⟨h1, h2⟩
    cases b2 with
    | builder => exact Same.pure trivial
    | deferred dt =>
      unfold finishFanW finishFan emitDeferredW emitDeferred
      simp only [Bodt.count] at h4
      refine Same.bind (P := fun _ => True) (Same.lift ?_) fun _ _ => ?_
      · unfold deferredBaseW deferredBase
        refine SameR.ite (fun _ => ?_) fun hc => ?_
        · exact SameR.bind (SameR.refl _) fun _ _ => SameR.bind (skippedPeek_same h1) fun _ _ => SameR.ok trivial
        · exact SameR.bind (skippedPeek2_same (h3 (by simpa using hc))) fun _ _ => SameR.ok trivial
      · refine Same.bind (Same.lift (deferredIndex_same h1 h4 (Nat.zero_le _))) fun _ _ => Same.bind (Same.refl _) fun _ _ => ?_
        exact extendDeferred_same h1 h4 _ _ (by omega)

theorem buildFans_same (w : Winding) (fuel : Nat) (M : Mono I C) (h : InWords mc 2 M) :
    Same (fun _ => True) (buildFansW mc debug w fuel M : FBM F Unit) (buildFans w fuel M) := by
  induction fuel generalizing M with
  | zero => exact Same.stop
  | succ k ih =>
    unfold buildFansW buildFans
    refine Same.bind (P := fun _ => True) (Same.lift ?_) fun r _ => Same.ite (fun _ => ?_) fun _ =>
      Same.ite (fun _ => Same.pure trivial) fun _ => Same.stop
    · have := h.mid
      have := h.high
      have := h.len
      refine SameR.bind (SameR.sub h.high) fun d hd => ?_
      subst hd
      exact (SameR.add (by omega)).imp fun _ _ => trivial
    · refine Same.bind (P := fun M' => InWords mc 1 M' ∧ (¬ M'.pendingTop < M'.arr.length → InWords mc 2 M')) ?_ fun M' hM' => ?_
      · unfold maybeFanW maybeFan
        exact Same.bind (Same.lift (canTriangulate_same (h.weaken (by omega)))) fun b hb =>
          Same.ite (fun hb' => fanStep_same w h (hb hb').2) fun _ => Same.pure ⟨h.weaken (by omega), fun _ => h⟩
      · refine Same.bind (P := InWords mc 2) (Same.lift ?_) fun M'' hM'' => ih M'' hM''
        unfold advancePositionW advancePosition
        refine SameR.ite (fun hp => (transferPending_same hM'.1 (of_decide_eq_true hp)).imp fun _ h => h.1) fun hp => SameR.ok ?_
        have h2 := hM'.2 (by simpa [hasPending] using hp)
        have := h2.low
        have := h2.mid
        have := h2.high
        have := h2.len
        refine ⟨Nat.le_refl _, Nat.le_refl _, ?_, ?_⟩
        · show 2 ≤ (M'.arr.take M'.skippedTop).length
          rw [List.length_take]
          omega
        · show (M'.arr.take M'.skippedTop).length + 3 ≤ _
          rw [List.length_take]
          omega

end Mono

/-! ## Chains are put together -/

/-- The run with limits panics or is the one without. -/
def NearF (P : α → Prop) (x y : FBM F α) : Prop := ∀ s, (x s).2 = .error .panic ∨ x s = y s ∧ ∀ a, (y s).2 = .ok a → P a

theorem Same.nearF {P : α → Prop} {x y : FBM F α} (h : Same P x y) : NearF P x y := fun s => .inr (h s)

theorem NearF.pure {P : α → Prop} {a : α} (h : P a) : NearF P (pure a : FBM F α) (pure a) := (Same.pure h).nearF

theorem NearF.stop {P : α → Prop} {e : Fault IErr} : NearF P (FanM.stop e : FBM F α) (FanM.stop e) := Same.stop.nearF

theorem NearF.lift {P : α → Prop} {x y : Res IErr α} (h : Limited P x y) : NearF P (FanM.lift x : FBM F α) (FanM.lift y) := by
  rcases h with rfl | ⟨rfl, h⟩
  · exact fun s => .inl rfl
  · exact (Same.lift ⟨rfl, h⟩).nearF

theorem NearF.bind {P : α → Prop} {Q : β → Prop} {x y : FBM F α} {f g : α → FBM F β} (h : NearF P x y)
    (hf : ∀ a, P a → NearF Q (f a) (g a)) : NearF Q (x >>= f) (y >>= g) := by
  intro s
  show (match x s with | (s, .ok a) => f a s | (s, .error e) => (s, .error e)).2 = .error .panic ∨
    (match x s with | (s, .ok a) => f a s | (s, .error e) => (s, .error e)) = (match y s with | (s, .ok a) => g a s | (s, .error e) => (s, .error e)) ∧
    ∀ b, (match y s with | (s, .ok a) => g a s | (s, .error e) => (s, .error e)).2 = .ok b → Q b
  rcases h s with h1 | ⟨h1, h2⟩
  · left
    generalize x s = r at h1
    rcases r with ⟨s', e | a⟩
    · cases h1
      rfl
    · cases h1
  · rw [h1]
    generalize y s = r at h2
    rcases r with ⟨s', e | a⟩
    · exact .inr ⟨rfl, fun _ e => by cases e⟩
    · exact hf a (h2 a rfl) s'

theorem NearF.ite {P : α → Prop} {c : Prop} [Decidable c] {x y x' y' : FBM F α} (h : c → NearF P x x') (h' : ¬ c → NearF P y y') :
    NearF P (if c then x else y) (if c then x' else y') := by
  by_cases hc : c
  · rw [if_pos hc, if_pos hc]; exact h hc
  · rw [if_neg hc, if_neg hc]; exact h' hc

theorem NearF.imp {P Q : α → Prop} {x y : FBM F α} (h : NearF P x y) (hPQ : ∀ a, P a → Q a) : NearF Q x y :=
  fun s => (h s).imp id fun h => ⟨h.1, fun a ha => hPQ a (h.2 a ha)⟩

theorem Limited.bind_ok {P : α → Prop} {Q : β → Prop} {x : Res IErr α} {a : α} {f : α → Res IErr β} {y : Res IErr β} (h : Limited P x (.ok a))
    (hf : P a → Limited Q (f a) y) : Limited Q (x >>= f) y := by
  rcases h with rfl | ⟨rfl, h⟩
  · exact .inl rfl
  · exact hf (h a rfl)

theorem NearF.bind_ok {P : α → Prop} {Q : β → Prop} {x : Res IErr α} {a : α} {f : α → FBM F β} {y : FBM F β} (h : Limited P x (.ok a))
    (hf : P a → NearF Q (f a) y) : NearF Q (FanM.lift x >>= f) y := by
  rcases h with rfl | ⟨rfl, h⟩
  · exact fun s => .inl rfl
  · exact hf (h a rfl)

section
variable {mc : Machine} {debug : Bool}

/-- The positions in a chain are words. -/
def MonoB.InWords (mc : Machine) (b : MonoB I C) : Prop := b.rest.length + 4 ≤ 2 ^ mc.bits

/-- The same for one or two chains. -/
def Ot.InWords (mc : Machine) (ms : Ot (MonoB I C)) : Prop := ∀ b ∈ ms.toList, b.InWords mc

/-- The same for none, one or two chains. -/
def AllInWords (mc : Machine) (ms : Option (Ot (MonoB I C))) : Prop := ∀ o, ms = some o → o.InWords mc

/-- The same for all chains of the descent. -/
structure TI.InWords (mc : Machine) (x : TI I C) : Prop where
  now : AllInWords mc x.monotones
  branch : ∀ e ∈ x.branchStack, AllInWords mc e.2
  wait : ∀ b ∈ x.monotoneStack, b.InWords mc

theorem Ot.InWords.one {b : MonoB I C} (h : b.InWords mc) : (Ot.one b).InWords mc := by
  intro b' hb'
  simp only [Ot.toList, List.mem_singleton] at hb'
  subst hb'
  exact h

theorem Ot.InWords.two {a b : MonoB I C} (ha : a.InWords mc) (hb : b.InWords mc) : (Ot.two a b).InWords mc := by
  intro b' hb'
  simp only [Ot.toList, List.mem_cons, List.not_mem_nil, or_false] at hb'
  rcases hb' with rfl | rfl
  · exact ha
  · exact hb

theorem AllInWords.some {o : Ot (MonoB I C)} (h : o.InWords mc) : AllInWords mc (some o) := fun _ e => by cases e; exact h

theorem AllInWords.none : AllInWords mc (none : Option (Ot (MonoB I C))) := fun _ e => by cases e

variable [Scalar C]

theorem new_inWords (hM : mc.Valid) (vi : I) (c : Coords C) : (MonoB.new vi c).InWords mc := by
  have := hM.big
  show 0 + 4 ≤ _
  omega

theorem addVertex_nearW (hM : mc.Valid) (b : MonoB I C) (vi : I) (c : Coords C) :
    Limited (MonoB.InWords mc) (b.addVertexW mc vi c) (.ok (b.addVertex vi c)) := by
  refine Limited.push fun h => Limited.ok ?_
  have hf := hM.fits (room := mc.chain) (by simp) h
  simp only [List.length_append, List.length_cons, List.length_nil] at hf
  show (b.rest ++ [(vi, c)]).length + 4 ≤ _
  rw [List.length_append, List.length_singleton]
  omega

theorem build_inWords {b : MonoB I C} (h : b.InWords mc) : SameR (fun M => ∀ M', M = some M' → Mono.InWords mc 2 M') b.build b.build := by
  refine ⟨rfl, fun M hM M' e => ?_⟩
  subst e
  unfold MonoB.build at hM
  unfold MonoB.InWords at h
  split at hM
  · rename_i v1 v2 tl hr
    split at hM
    · cases hM
      refine ⟨Nat.le_refl _, Nat.le_refl _, by simp, ?_⟩
      rw [hr] at h
      simp only [List.length_cons] at h ⊢
      omega
    · cases hM
  · cases hM

theorem finishMonotone_same (w : Winding) (fuel : Nat) {b : MonoB I C} (h : b.InWords mc) :
    Same (fun _ => True) (finishMonotoneW mc debug w fuel b : FBM F Unit) (finishMonotone w fuel b) := by
  unfold finishMonotoneW finishMonotone
  refine Same.bind (Same.lift (build_inWords h)) fun M hM => ?_
  cases M with
  | none => exact Same.pure trivial
  | some M => exact Mono.buildFans_same w fuel M (hM M rfl)

theorem finishAll_same (w : Winding) (fuel : Nat) {bs : List (MonoB I C)} (h : ∀ b ∈ bs, b.InWords mc) :
    Same (fun _ => True) (bs.forM (finishMonotoneW mc debug w fuel) : FBM F Unit) (bs.forM (finishMonotone w fuel)) := by
  induction bs with
  | nil => exact Same.pure trivial
  | cons b bs ih =>
    exact Same.bind (finishMonotone_same w fuel (h b (by simp))) fun _ _ => ih fun b hb => h b (by simp [hb])

theorem addToAll_near (hM : mc.Valid) (ms : Ot (MonoB I C)) (vi : I) (c : Coords C) :
    Limited (Ot.InWords mc) (addToAllW mc ms vi c) (.ok (addToAll ms vi c)) := by
  cases ms with
  | one a => exact Limited.bind_ok (addVertex_nearW hM a vi c) fun h => Limited.ok (Ot.InWords.one h)
  | two a b =>
    exact Limited.bind_ok (addVertex_nearW hM a vi c) fun ha => Limited.bind_ok (addVertex_nearW hM b vi c) fun hb =>
      Limited.ok (Ot.InWords.two ha hb)

theorem restart_near (hM : mc.Valid) (p : PolyList I V) (xy : V → Coords C) (st : St I C) (niUp : Nat) (nDown : Nexus I C)
    {ms : Option (Ot (MonoB I C))} (h : AllInWords mc ms) :
    Limited (AllInWords mc) (restartMonotoneW mc p xy st niUp nDown ms) (restartMonotone p xy st niUp nDown ms) := by
  cases ms with
  | some ms => exact Limited.ok h
  | none =>
    refine Limited.bind (Limited.same _) fun nUp _ => Limited.bind (Limited.same _) fun c _ => ?_
    exact Limited.bind_ok (addVertex_nearW hM _ _ _) fun h =>
      Limited.ok (AllInWords.some (Ot.InWords.one h))

theorem advanceMonotones_near (hM : mc.Valid) (w : Winding) (fuel : Nat) (p : PolyList I V) (xy : V → Coords C) (st : St I C)
    (t : Trapezoid) (niDown : Nat) (nDown : Nexus I C) (ms : Ot (MonoB I C)) :
    NearF (AllInWords mc) (advanceMonotonesW mc debug w fuel p xy st t niDown nDown ms : FBM F _)
      (advanceMonotones w fuel p xy st t niDown nDown ms) := by
  unfold advanceMonotonesW advanceMonotones
  refine NearF.bind_ok (addToAll_near hM ms _ _) fun hms => ?_
  generalize addToAll ms nDown.vi nDown.c = ms at hms
  refine NearF.bind (NearF.lift (Limited.same _)) fun sLeft _ => NearF.bind (NearF.lift (Limited.same _)) fun sRight _ =>
    NearF.bind (NearF.lift (Limited.same _)) fun niUp _ => ?_
  have hs : (∀ b, (splitCompleted ms niDown niUp sLeft sRight).1 = some b → b.InWords mc) ∧
      AllInWords mc (splitCompleted ms niDown niUp sLeft sRight).2 := by
    unfold splitCompleted
    unfold Ot.InWords at hms
    split
    · cases ms with
      | one a => exact ⟨fun b e => by cases e; exact hms _ (by simp [Ot.toList]), AllInWords.none⟩
      | two a b =>
        exact ⟨fun b e => by cases e; exact hms _ (by simp [Ot.toList]), AllInWords.some (Ot.InWords.one (hms _ (by simp [Ot.toList])))⟩
    · split
      · cases ms with
        | one a => exact ⟨fun b e => by cases e; exact hms _ (by simp [Ot.toList]), AllInWords.none⟩
        | two a b =>
          exact ⟨fun b e => by cases e; exact hms _ (by simp [Ot.toList]), AllInWords.some (Ot.InWords.one (hms _ (by simp [Ot.toList])))⟩
      · exact ⟨fun b e => (by cases e), AllInWords.some hms⟩
  generalize splitCompleted ms niDown niUp sLeft sRight = r at hs
  rcases r with ⟨_ | done, ms'⟩
  · exact NearF.pure hs.2
  · exact NearF.bind (finishMonotone_same w fuel (hs.1 done rfl)).nearF fun _ _ => NearF.lift (restart_near hM p xy st niUp nDown hs.2)

theorem pushTop_near {room : Nat} {xs : List α} {x : α} : Limited (fun ys => ys = x :: xs) (pushTop room xs x) (.ok (x :: xs)) :=
  Limited.push fun _ => Limited.ok rfl

theorem okOne_near {ms : Ot (MonoB I C)} (h : ms.InWords mc) : Limited (MonoB.InWords mc) ms.okOne ms.okOne := by
  cases ms with
  | one a => exact Limited.ok (h a (by simp [Ot.toList]))
  | two a b => exact Limited.error

theorem joinV_near (w : Winding) (fuel : Nat) (x : TI I C) (hx : x.InWords mc) (a b c : Nat) :
    NearF (TI.InWords mc) (joinVW mc debug w fuel x a b c : FBM F _) (joinV w fuel x a b c) := by
  unfold joinVW joinV
  rcases hms : x.monotones with _ | ms
  · exact NearF.pure hx
  · have hm := hx.now ms hms
    refine NearF.ite (fun _ => ?_) fun _ => NearF.ite (fun _ => ?_) fun _ => NearF.ite (fun _ => ?_) fun _ => NearF.stop
    · refine NearF.bind (NearF.lift (okOne_near hm)) fun mo hmo => ?_
      refine NearF.bind_ok pushTop_near fun _ => NearF.pure ⟨AllInWords.none, hx.branch, ?_⟩
      intro b hb
      rcases List.mem_cons.1 hb with rfl | hb
      · exact hmo
      · exact hx.wait b hb
    · exact NearF.bind (finishAll_same w fuel hm).nearF fun _ _ => NearF.pure ⟨AllInWords.none, hx.branch, hx.wait⟩
    · rcases hl : x.monotoneStack with _ | ⟨l, rest⟩
      · exact NearF.stop
      · have hw := hx.wait
        rw [hl] at hw
        refine NearF.bind (NearF.lift (okOne_near hm)) fun r hr => NearF.pure ⟨?_, hx.branch, fun b hb => hw b (by simp [hb])⟩
        exact AllInWords.some (Ot.InWords.two (hw l (by simp)) hr)

theorem leaveV_near (x : TI I C) (hx : x.InWords mc) (a b : Nat) : Limited (TI.InWords mc) (leaveV x a b) (leaveV x a b) := by
  unfold leaveV
  refine Limited.ite (fun _ => Limited.ok ⟨hx.now, hx.branch, hx.wait⟩) fun _ => ?_
  split
  · exact Limited.error
  · rename_i ti ms rest hl
    have hb := hx.branch
    rw [hl] at hb
    exact Limited.ok ⟨hb (ti, ms) (by simp), fun e he => hb e (by simp [he]), hx.wait⟩

theorem splitMonotones_near (hM : mc.Valid) (st : St I C) (t : Trapezoid) (nDown : Nexus I C) (ms : Ot (MonoB I C)) (hm : ms.InWords mc) :
    Limited (fun r => r.1.InWords mc ∧ r.2.InWords mc) (splitMonotonesW mc st t nDown ms) (splitMonotones st t nDown ms) := by
  cases ms with
  | two a b => exact Limited.ok ⟨hm a (by simp [Ot.toList]), hm b (by simp [Ot.toList])⟩
  | one mo =>
    have hmo := hm mo (by simp [Ot.toList])
    unfold splitMonotonesW splitMonotones
    refine Limited.bind (Limited.same _) fun niUp _ => Limited.bind (Limited.same _) fun n _ => ?_
    refine Limited.bind_ok (addVertex_nearW hM _ _ _) fun hnew => ?_
    refine Limited.bind (Limited.same _) fun sl _ => Limited.ite (fun _ => Limited.ok ⟨hnew, hmo⟩) fun _ => ?_
    exact Limited.bind (Limited.same _) fun sr _ => Limited.ite (fun _ => Limited.ok ⟨hmo, hnew⟩) fun _ => Limited.error

theorem descendA_near (hM : mc.Valid) (st : St I C) (t : Trapezoid) (nDown : Nexus I C) (x : TI I C) (hx : x.InWords mc) (a b c : Nat) :
    NearF (TI.InWords mc) (descendAW mc st t nDown x a b c : FBM F _) (descendA st t nDown x a b c) := by
  unfold descendAW descendA
  rcases hms : x.monotones with _ | ms
  rotate_left
  · refine NearF.bind (NearF.lift (splitMonotones_near hM st t nDown ms (hx.now ms hms))) ?_
    rintro ⟨l, r⟩ ⟨hl, hr⟩
    refine NearF.bind_ok pushTop_near fun _ => NearF.bind_ok pushTop_near fun _ =>
      NearF.pure ⟨AllInWords.some (Ot.InWords.one hl), ?_, hx.wait⟩
    intro e he
    rcases List.mem_cons.1 he with rfl | he
    · exact AllInWords.none
    · rcases List.mem_cons.1 he with rfl | he
      · exact AllInWords.some (Ot.InWords.one hr)
      · exact hx.branch e he
  · refine NearF.bind_ok pushTop_near fun _ => NearF.bind_ok pushTop_near fun _ => NearF.pure ⟨AllInWords.none, ?_, hx.wait⟩
    intro e he
    rcases List.mem_cons.1 he with rfl | he
    · exact AllInWords.some (Ot.InWords.one (new_inWords hM _ _))
    · rcases List.mem_cons.1 he with rfl | he
      · exact AllInWords.none
      · exact hx.branch e he

theorem triStep_near (hM : mc.Valid) (w : Winding) (fuel : Nat) (p : PolyList I V) (xy : V → Coords C) (st : St I C)
    (x : TI I C) (hx : x.InWords mc) (t : Trapezoid) (niDown : Nat) :
    NearF (TI.InWords mc) (triStepW mc debug w fuel p xy st x t niDown : FBM F _) (triStep w fuel p xy st x t niDown) := by
  unfold triStepW triStep
  refine NearF.bind (NearF.lift (Limited.same _)) fun nDown _ => NearF.bind (P := TI.InWords mc) ?_ fun x hx =>
    NearF.bind (NearF.lift (Limited.same _)) fun ft _ => ?_
  · unfold updateMonotonesW updateMonotones
    rcases x.monotones with _ | ms
    · exact NearF.pure hx
    · exact NearF.bind (advanceMonotones_near hM w fuel p xy st t niDown nDown _) fun ms hms => NearF.pure ⟨hms, hx.branch, hx.wait⟩
  · cases ft with
    | V a b c d => exact NearF.bind (joinV_near w fuel x hx a b c) fun x hx => NearF.lift (leaveV_near x hx c d)
    | I a b c d =>
      unfold descendW descend descendI
      exact NearF.ite (fun _ => NearF.pure ⟨hx.now, hx.branch, hx.wait⟩) fun _ =>
        NearF.ite (fun _ => NearF.pure ⟨hx.now, hx.branch, hx.wait⟩) fun _ => NearF.stop
    | A _ a b c => exact descendA_near hM st t nDown x hx a b c

theorem triLoop_near (hM : mc.Valid) (w : Winding) (fuel : Nat) (p : PolyList I V) (xy : V → Coords C) (st : St I C) (k : Nat)
    (x : TI I C) (hx : x.InWords mc) :
    NearF (fun _ => True) (triLoopW mc debug w fuel p xy st k x : FBM F Unit) (triLoop w fuel p xy st k x) := by
  induction k generalizing x with
  | zero => exact NearF.stop
  | succ k ih =>
    unfold triLoopW triLoop
    refine NearF.bind (NearF.lift (Limited.same _)) fun t _ => ?_
    rcases t.down with _ | niDown
    rotate_left
    · exact NearF.bind (triStep_near hM w fuel p xy st x hx t _) fun x hx => ih x hx
    · exact NearF.ite (fun _ => NearF.stop) fun _ => NearF.ite (fun _ => NearF.stop) fun _ => NearF.ite (fun _ => NearF.stop) fun _ =>
        NearF.pure trivial

theorem triangulateInner_near (hM : mc.Valid) (w : Winding) (fuel : Nat) (p : PolyList I V) (xy : V → Coords C) (st : St I C) :
    NearF (fun _ => True) (triangulateInnerW mc debug w fuel p xy st : FBM F Unit) (triangulateInner w fuel p xy st) :=
  NearF.bind (NearF.lift (Limited.same _)) fun _ _ =>
    triLoop_near hM w fuel p xy st fuel _ ⟨AllInWords.none, fun _ h => (List.not_mem_nil h).elim, fun _ h => (List.not_mem_nil h).elim⟩

/-- Triangulation with limits panics or is the one without. -/
theorem triangulate_near [DecidableEq I] (hM : mc.Valid) (cfg : Cfg) (hcfg : cfg.Valid) (fuel : Nat) (p : PolyList I V) (xy : V → Coords C)
    (F : FanFormat I) :
    (triangulateW mc cfg fuel p xy F).2 = .error .panic ∨ triangulateW mc cfg fuel p xy F = triangulate cfg fuel p xy F := by
  unfold triangulateW triangulate
  rcases trapezoidize_near hM cfg hcfg fuel p xy with h | ⟨h, -⟩
  · rw [h]
    exact .inl rfl
  · rw [h]
    generalize trapezoidize cfg fuel p xy = r
    rcases r with e | st
    · cases e <;> exact .inr rfl
    · show (St.triangulateW mc cfg.debug fuel p xy st F).2 = _ ∨ St.triangulateW mc cfg.debug fuel p xy st F = St.triangulate fuel p xy st F
      unfold St.triangulateW St.triangulate
      have h := triangulateInner_near (F := F) (debug := cfg.debug) hM F.winding fuel p xy st .uninit
      simp only
      generalize triangulateInnerW (m := FBM F) mc cfg.debug F.winding fuel p xy st .uninit = r at h ⊢
      rcases h with h | ⟨h, -⟩
      · left
        rw [h]
        cases r.1 <;> rfl
      · right
        rw [h]

end

end Tri
