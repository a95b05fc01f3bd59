import Verif.Proof.CostTri

/-!
# What the counting version counts for one chain
-/

set_option linter.unusedSectionVars false

namespace Tri

variable {I V C : Type} [Scalar C]

namespace TrE

theorem len_lift {α : Type} (r : Res IErr α) : (FanM.lift r : TrE I α).len = 0 := by cases r <;> rfl
theorem calls_lift {α : Type} (r : Res IErr α) : (FanM.lift r : TrE I α).calls = 0 := by cases r <;> rfl
theorem len_pure {α : Type} (a : α) : (pure a : TrE I α).len = 0 := rfl
theorem calls_pure {α : Type} (a : α) : (pure a : TrE I α).calls = 0 := rfl
theorem len_tick : (tick : TrE I Unit).len = 1 := rfl
theorem calls_tick : (tick : TrE I Unit).calls = 0 := rfl

theorem res_lift {α : Type} (r : Res IErr α) : (FanM.lift r : TrE I α).res = r := by cases r <;> rfl

theorem erase_res {α : Type} (x : TrE I α) : (erase.app x).res = x.res := rfl
theorem erase_calls {α : Type} (x : TrE I α) : (erase.app x).calls.length = x.calls := rfl
theorem erase_tick : erase.app (tick : TrE I Unit) = TrM.skip := rfl

end TrE

open TrE

/-- A triangle added to a fan. -/
theorem addTriangle_len (b b' : Mono.Bodt) (v : I) (h : (b.addTriangle v : TrE I Mono.Bodt).res = .ok b') :
    (b = .builder ∧ b' = .builder ∧ (b.addTriangle v : TrE I Mono.Bodt).len = 1 ∧
        (b.addTriangle v : TrE I Mono.Bodt).calls = 1) ∨
      ∃ dt, b = .deferred dt ∧ b' = .deferred (dt + 1) ∧ (b.addTriangle v : TrE I Mono.Bodt).len = 0 ∧
        (b.addTriangle v : TrE I Mono.Bodt).calls = 0 := by
  rcases b with _ | dt
  · cases h; exact .inl ⟨rfl, rfl, rfl, rfl⟩
  · cases h; exact .inr ⟨dt, rfl, rfl, rfl, rfl⟩

/-- What a loop over the triangles of a fan counts. -/
def LoopLen (b b' : Mono.Bodt) (l c : Nat) : Prop :=
  (b = .builder ∧ b' = .builder ∧ l = 2 * c + 1) ∨ ∃ dt j, b = .deferred dt ∧ b' = .deferred (dt + j) ∧ l = j + 1 ∧ c = 0

theorem LoopLen.step {b b1 b' : Mono.Bodt} {v : I} {l c : Nat} (h : (b.addTriangle v : TrE I Mono.Bodt).res = .ok b1)
    (h' : LoopLen b1 b' l c) : LoopLen b b' (1 + ((b.addTriangle v : TrE I Mono.Bodt).len + l))
      ((b.addTriangle v : TrE I Mono.Bodt).calls + c) := by
  rcases addTriangle_len b b1 v h with ⟨rfl, rfl, e1, e2⟩ | ⟨dt, rfl, rfl, e1, e2⟩
  · rcases h' with ⟨-, h2, h3⟩ | ⟨_, _, h1, -⟩
    · exact .inl ⟨rfl, h2, by omega⟩
    · cases h1
  · rcases h' with ⟨h1, -⟩ | ⟨dt', j, h1, h2, h3, h4⟩
    · cases h1
    · cases h1
      exact .inr ⟨dt, j + 1, rfl, by rw [h2]; congr 1; omega, by omega, by omega⟩

theorem backLoopC_len (fuel : Nat) (M : Mono I C) (b : Mono.Bodt) (r : Mono I C × Mono.Bodt)
    (h : (Mono.backLoopC (tick (I := I)) fuel M b).res = .ok r) :
    LoopLen b r.2 (Mono.backLoopC (tick (I := I)) fuel M b).len (Mono.backLoopC (tick (I := I)) fuel M b).calls := by
  induction fuel generalizing M b r with
  | zero => cases h
  | succ k ih =>
    unfold Mono.backLoopC at h ⊢
    obtain ⟨u, -, h, e1, e2⟩ := bind_ok h
    rw [e1, e2, len_tick, calls_tick]
    clear e1 e2
    obtain ⟨go, -, h, e1, e2⟩ := bind_ok h
    rw [e1, e2, len_lift, calls_lift]
    clear e1 e2
    cases go with
    | false =>
      simp only [Bool.false_eq_true, if_false] at h ⊢
      cases h
      rcases b with _ | dt
      · exact .inl ⟨rfl, rfl, rfl⟩
      · exact .inr ⟨dt, 0, rfl, rfl, rfl, rfl⟩
    | true =>
      simp only [if_true] at h ⊢
      obtain ⟨⟨x, M1⟩, -, h, e1, e2⟩ := bind_ok h
      rw [e1, e2, len_lift, calls_lift]
      clear e1 e2
      obtain ⟨v, -, h, e1, e2⟩ := bind_ok h
      rw [e1, e2, len_lift, calls_lift]
      clear e1 e2
      obtain ⟨b1, h1, h, e1, e2⟩ := bind_ok h
      rw [e1, e2]
      have := LoopLen.step h1 (ih M1 b1 r h)
      simp only [Nat.zero_add]
      exact this

theorem advLoopC_len (fuel : Nat) (M : Mono I C) (b : Mono.Bodt) (r : Mono I C × Mono.Bodt)
    (h : (Mono.advLoopC (tick (I := I)) fuel M b).res = .ok r) :
    LoopLen b r.2 (Mono.advLoopC (tick (I := I)) fuel M b).len (Mono.advLoopC (tick (I := I)) fuel M b).calls := by
  induction fuel generalizing M b r with
  | zero => cases h
  | succ k ih =>
    unfold Mono.advLoopC at h ⊢
    obtain ⟨u, -, h, e1, e2⟩ := bind_ok h
    rw [e1, e2, len_tick, calls_tick]
    clear e1 e2
    obtain ⟨go, -, h, e1, e2⟩ := bind_ok h
    rw [e1, e2, len_lift, calls_lift]
    clear e1 e2
    cases go with
    | false =>
      simp only [Bool.false_eq_true, if_false] at h ⊢
      cases h
      rcases b with _ | dt
      · exact .inl ⟨rfl, rfl, rfl⟩
      · exact .inr ⟨dt, 0, rfl, rfl, rfl, rfl⟩
    | true =>
      simp only [if_true] at h ⊢
      obtain ⟨⟨x, M1⟩, -, h, e1, e2⟩ := bind_ok h
      rw [e1, e2, len_lift, calls_lift]
      clear e1 e2
      obtain ⟨v, -, h, e1, e2⟩ := bind_ok h
      rw [e1, e2, len_lift, calls_lift]
      clear e1 e2
      obtain ⟨b1, h1, h, e1, e2⟩ := bind_ok h
      rw [e1, e2]
      clear e1 e2
      obtain ⟨M2, -, h, e1, e2⟩ := bind_ok h
      rw [e1, e2, len_lift, calls_lift]
      have := LoopLen.step h1 (ih M2 b1 r h)
      simp only [Nat.zero_add]
      exact this

theorem extendDeferredC_len (M : Mono I C) (bt : Bool) (i n : Nat) (r : Unit)
    (h : (Mono.extendDeferredC (tick (I := I)) M bt i n).res = .ok r) :
    (Mono.extendDeferredC (tick (I := I)) M bt i n).len = 2 * n + 1 ∧
      (Mono.extendDeferredC (tick (I := I)) M bt i n).calls = n := by
  induction n generalizing i with
  | zero => exact ⟨rfl, rfl⟩
  | succ k ih =>
    unfold Mono.extendDeferredC at h ⊢
    obtain ⟨u, -, h, e1, e2⟩ := bind_ok h
    rw [e1, e2, len_tick, calls_tick]
    clear e1 e2
    obtain ⟨v, -, h, e1, e2⟩ := bind_ok h
    rw [e1, e2, len_lift, calls_lift]
    clear e1 e2
    obtain ⟨u, -, h, e1, e2⟩ := bind_ok h
    rw [e1, e2]
    obtain ⟨k1, k2⟩ := ih (i + 1) h
    have e3 : (FanM.extendFan v : TrE I Unit).len = 1 := rfl
    have e4 : (FanM.extendFan v : TrE I Unit).calls = 1 := rfl
    omega

theorem finishFanC_len (bt : Bool) (M : Mono I C) (b : Mono.Bodt) (r : Unit)
    (h : (Mono.finishFanC (tick (I := I)) bt M b).res = .ok r) :
    (b = .builder ∧ (Mono.finishFanC (tick (I := I)) bt M b).len = 0 ∧
        (Mono.finishFanC (tick (I := I)) bt M b).calls = 0) ∨
      ∃ dt, b = .deferred dt ∧ (Mono.finishFanC (tick (I := I)) bt M b).len = 2 * (dt - 1) + 2 ∧
        (Mono.finishFanC (tick (I := I)) bt M b).calls = dt - 1 + 1 := by
  rcases b with _ | dt
  · exact .inl ⟨rfl, rfl, rfl⟩
  · refine .inr ⟨dt, rfl, ?_⟩
    simp only [Mono.finishFanC, Mono.emitDeferredC] at h ⊢
    obtain ⟨v, -, h, e1, e2⟩ := bind_ok h
    rw [e1, e2, len_lift, calls_lift]
    clear e1 e2
    obtain ⟨v2, -, h, e1, e2⟩ := bind_ok h
    rw [e1, e2, len_lift, calls_lift]
    clear e1 e2
    obtain ⟨u, -, h, e1, e2⟩ := bind_ok h
    rw [e1, e2]
    obtain ⟨k1, k2⟩ := extendDeferredC_len M bt 1 (dt - 1) r h
    have e3 : (FanM.newFan v.1 v.2 v2 : TrE I Unit).len = 1 := rfl
    have e4 : (FanM.newFan v.1 v.2 v2 : TrE I Unit).calls = 1 := rfl
    omega

theorem startFan_len (w : Winding) (a bt : Bool) (v0 v1 v2 : I) (b : Mono.Bodt)
    (h : (Mono.startFan w a bt v0 v1 v2 : TrE I Mono.Bodt).res = .ok b) :
    (b = .builder ∧ (Mono.startFan w a bt v0 v1 v2 : TrE I Mono.Bodt).len = 1 ∧
        (Mono.startFan w a bt v0 v1 v2 : TrE I Mono.Bodt).calls = 1) ∨
      (b = .deferred 1 ∧ (Mono.startFan w a bt v0 v1 v2 : TrE I Mono.Bodt).len = 0 ∧
        (Mono.startFan w a bt v0 v1 v2 : TrE I Mono.Bodt).calls = 0) := by
  unfold Mono.startFan at h ⊢
  split at h
  · next hc => rw [if_pos hc]; cases h; exact .inl ⟨rfl, rfl, rfl⟩
  · next hc => rw [if_neg hc]; cases h; exact .inr ⟨rfl, rfl, rfl⟩

/-- The rest of a fan. -/
theorem growFanC_len (bt : Bool) (M : Mono I C) (b : Mono.Bodt) (r : Mono I C × Mono.Bodt)
    (h : (Mono.growFanC (tick (I := I)) bt M b).res = .ok r) :
    (b = .builder ∧ r.2 = .builder ∧ (Mono.growFanC (tick (I := I)) bt M b).len ≤
        2 * (Mono.growFanC (tick (I := I)) bt M b).calls + 1) ∨
      ∃ dt j, b = .deferred dt ∧ r.2 = .deferred (dt + j) ∧ (Mono.growFanC (tick (I := I)) bt M b).len ≤ j + 1 ∧
        (Mono.growFanC (tick (I := I)) bt M b).calls = 0 := by
  cases bt with
  | true =>
    simp only [Mono.growFanC, if_true] at h ⊢
    obtain ⟨⟨x, M1⟩, -, h, e1, e2⟩ := bind_ok h
    rw [e1, e2, len_lift, calls_lift]
    clear e1 e2
    obtain ⟨v, -, h, e1, e2⟩ := bind_ok h
    rw [e1, e2, len_lift, calls_lift]
    clear e1 e2
    obtain ⟨b1, h1, h, e1, e2⟩ := bind_ok h
    rw [e1, e2]
    have hl := backLoopC_len _ _ _ _ h
    rcases addTriangle_len b b1 v.1 h1 with ⟨rfl, rfl, k1, k2⟩ | ⟨dt, rfl, rfl, k1, k2⟩
    · rcases hl with ⟨-, h2, h3⟩ | ⟨_, _, h2, -⟩
      · exact .inl ⟨rfl, h2, by omega⟩
      · cases h2
    · rcases hl with ⟨h2, -⟩ | ⟨dt', j, h2, h3, h4, h5⟩
      · cases h2
      · cases h2
        exact .inr ⟨dt, j + 1, rfl, by rw [h3]; congr 1; omega, by omega, by omega⟩
  | false =>
    simp only [Mono.growFanC, Bool.false_eq_true, if_false] at h ⊢
    obtain ⟨M1, -, h, e1, e2⟩ := bind_ok h
    rw [e1, e2, len_lift, calls_lift]
    have hl := advLoopC_len _ _ _ _ h
    rcases hl with ⟨h1, h2, h3⟩ | ⟨dt', j, h2, h3, h4, h5⟩
    · exact .inl ⟨h1, h2, by omega⟩
    · exact .inr ⟨dt', j, h2, h3, by omega, by omega⟩

/-- A fan costs at most three steps for each triangle. -/
theorem maybeFanC_len (w : Winding) (M M' : Mono I C)
    (h : (Mono.maybeFanC (tick (I := I)) w M).res = .ok M') :
    (Mono.maybeFanC (tick (I := I)) w M).len ≤ 3 * (Mono.maybeFanC (tick (I := I)) w M).calls := by
  unfold Mono.maybeFanC at h ⊢
  obtain ⟨b, -, h, e1, e2⟩ := bind_ok h
  rw [e1, e2, len_lift, calls_lift]
  clear e1 e2
  cases b with
  | false => simp only [Bool.false_eq_true, if_false]; simp [len_pure]
  | true =>
    simp only [if_true, Mono.fanStepC] at h ⊢
    obtain ⟨⟨v1, M1⟩, -, h, e1, e2⟩ := bind_ok h
    rw [e1, e2, len_lift, calls_lift]
    clear e1 e2
    obtain ⟨v0, -, h, e1, e2⟩ := bind_ok h
    rw [e1, e2, len_lift, calls_lift]
    clear e1 e2
    obtain ⟨v2, -, h, e1, e2⟩ := bind_ok h
    rw [e1, e2, len_lift, calls_lift]
    clear e1 e2
    obtain ⟨bt, -, h, e1, e2⟩ := bind_ok h
    rw [e1, e2, len_lift, calls_lift]
    clear e1 e2
    obtain ⟨b1, h1, h, e1, e2⟩ := bind_ok h
    rw [e1, e2]
    clear e1 e2
    obtain ⟨⟨M2, b2⟩, h2, h, e1, e2⟩ := bind_ok h
    rw [e1, e2]
    clear e1 e2
    obtain ⟨u, h3, h, e1, e2⟩ := bind_ok h
    rw [e1, e2, len_pure, calls_pure]
    clear e1 e2
    have k2 := growFanC_len _ _ _ _ h2
    have k3 := finishFanC_len _ _ _ _ h3
    rcases startFan_len _ _ _ _ _ _ _ h1 with ⟨rfl, k4, k5⟩ | ⟨rfl, k4, k5⟩
    · rcases k2 with ⟨-, k6, k7⟩ | ⟨_, _, k6, -⟩
      · simp only at k6; subst k6
        rcases k3 with ⟨-, k8, k9⟩ | ⟨_, k8, -⟩
        · omega
        · cases k8
      · cases k6
    · rcases k2 with ⟨k6, -⟩ | ⟨dt, j, k6, k7, k8, k9⟩
      · cases k6
      · cases k6
        simp only at k7; subst k7
        rcases k3 with ⟨k10, -⟩ | ⟨dt, k10, k11, k12⟩
        · cases k10
        · cases k10
          omega

/-- A chain costs at most one step for each pass and three for each triangle. -/
theorem buildFansC_len (w : Winding) (fuel : Nat) (M : Mono I C)
    (h : (Mono.buildFansC (tick (I := I)) w fuel M).res = .ok ()) :
    (Mono.buildFansC (tick (I := I)) w fuel M).len ≤ fuel + 3 * (Mono.buildFansC (tick (I := I)) w fuel M).calls := by
  induction fuel generalizing M with
  | zero => cases h
  | succ k ih =>
    unfold Mono.buildFansC at h ⊢
    obtain ⟨u, -, h, e1, e2⟩ := bind_ok h
    rw [e1, e2, len_tick, calls_tick]
    clear e1 e2
    obtain ⟨r, -, h, e1, e2⟩ := bind_ok h
    rw [e1, e2, len_lift, calls_lift]
    clear e1 e2
    split at h
    · next h3 =>
      rw [if_pos h3]
      obtain ⟨M1, h1, h, e1, e2⟩ := bind_ok h
      rw [e1, e2]
      clear e1 e2
      obtain ⟨M2, -, h, e1, e2⟩ := bind_ok h
      rw [e1, e2, len_lift, calls_lift]
      have k1 := maybeFanC_len _ _ _ h1
      have k2 := ih M2 h
      omega
    · next h3 =>
      rw [if_neg h3]
      split at h
      · next h4 => rw [if_pos h4, len_pure]; omega
      · cases h

/-- More passes do not change a run that ended well. -/
theorem buildFansC_mono (w : Winding) (k k' : Nat) (hk : k ≤ k') (M : Mono I C)
    (h : (Mono.buildFansC (tick (I := I)) w k M).res = .ok ()) :
    Mono.buildFansC (tick (I := I)) w k' M = Mono.buildFansC (tick (I := I)) w k M := by
  induction k generalizing k' M with
  | zero => cases h
  | succ k ih =>
    obtain ⟨k', rfl⟩ : ∃ j, k' = j + 1 := ⟨k' - 1, by omega⟩
    unfold Mono.buildFansC at h ⊢
    obtain ⟨u, -, h, -⟩ := bind_ok h
    obtain ⟨r, hr, h, -⟩ := bind_ok h
    rw [res_lift] at hr
    rw [tick_bind, tick_bind, hr, lift_ok, lift_ok]
    split at h
    · next h3 =>
      rw [if_pos h3, if_pos h3]
      obtain ⟨M1, h1, h, -⟩ := bind_ok h
      obtain ⟨M2, h2, h, -⟩ := bind_ok h
      rw [res_lift] at h2
      rcases hm : Mono.maybeFanC (tick (I := I)) w M with ⟨l, r⟩
      rw [hm] at h1
      simp only at h1; subst h1
      rw [ok_bind, ok_bind, h2, lift_ok, lift_ok, ih k' (by omega) M2 h]
    · next h3 => rw [if_neg h3, if_neg h3]

theorem finishMonotoneC_mono (w : Winding) (k k' : Nat) (hk : k ≤ k') (b : MonoB I C)
    (h : (finishMonotoneC (tick (I := I)) w k b).res = .ok ()) :
    finishMonotoneC (tick (I := I)) w k' b = finishMonotoneC (tick (I := I)) w k b := by
  unfold finishMonotoneC at h ⊢
  obtain ⟨M, hM, h, -⟩ := bind_ok h
  rw [res_lift] at hM
  rw [hM, lift_ok, lift_ok]
  rcases M with _ | M
  · rfl
  · exact buildFansC_mono w k k' hk M h

/-- The cost of a chain that needs at most `k` passes. -/
theorem finishMonotoneC_len (w : Winding) (k k' : Nat) (hk : k ≤ k') (b : MonoB I C)
    (h : (finishMonotone (m := TrM I) w k b).res = .ok ()) :
    (finishMonotoneC (tick (I := I)) w k' b).res = .ok () ∧
      (finishMonotoneC (tick (I := I)) w k' b).len ≤ k + 3 * (finishMonotone (m := TrM I) w k b).calls.length := by
  have e : erase.app (finishMonotoneC (tick (I := I)) w k b) = finishMonotone (m := TrM I) w k b := by
    rw [erase.finishMonotoneC]; exact TrM.finishMonotoneC ..
  rw [← e] at h ⊢
  rw [erase_res] at h
  rw [erase_calls, finishMonotoneC_mono w k k' hk b h]
  refine ⟨h, ?_⟩
  unfold finishMonotoneC at h ⊢
  obtain ⟨M, hM, h, e1, e2⟩ := bind_ok h
  rw [e1, e2, len_lift, calls_lift]
  rcases M with _ | M
  · simp [len_pure]
  · have := buildFansC_len w k M h
    simp only; omega

end Tri
