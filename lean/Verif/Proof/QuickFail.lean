import Verif.Proof.Quick
import Verif.Proof.CostEnough
import Verif.Proof.FuelRun

/-!
# The cost of the triangulation step, whatever its outcome
-/

set_option linter.unusedSectionVars false

namespace Tri

variable {I V C : Type}

/-- `y` does what `x` does and counts the same, unless `x` runs out of steps. -/
def CLe {F : FanFormat I} {α : Type} (x y : CtM F α) : Prop := ∀ s, (x s).2 = .error .timeout ∨ y s = x s

namespace CLe

variable {F : FanFormat I} {α β : Type}

theorem refl (x : CtM F α) : CLe x x := fun _ => .inr rfl

theorem bind {x y : CtM F α} {f g : α → CtM F β} (h : CLe x y) (hf : ∀ a, CLe (f a) (g a)) :
    CLe (x >>= f) (y >>= g) := by
  intro s
  have e : ∀ (x : CtM F α) (f : α → CtM F β), (x >>= f) s =
      match x s with
      | (s, .ok a) => f a s
      | (s, .error e) => (s, .error e) := fun _ _ => rfl
  rw [e, e]
  rcases h s with h | h
  · left
    rcases hx : x s with ⟨s', e | a⟩
    · rw [hx] at h
      injection h with h
      rw [h]
    · rw [hx] at h
      cases h
  · rw [h]
    rcases hx : x s with ⟨s', e | a⟩
    · exact .inr rfl
    · exact hf a s'

theorem bind' {x : CtM F α} {f g : α → CtM F β} (hf : ∀ a, CLe (f a) (g a)) : CLe (x >>= f) (x >>= g) := bind (refl x) hf

theorem out (x : CtM F α) : CLe (FanM.stop .timeout) x := fun _ => .inl rfl

theorem forM {f g : β → CtM F Unit} (h : ∀ b, CLe (f b) (g b)) (l : List β) : CLe (l.forM f) (l.forM g) := by
  induction l with
  | nil => exact refl _
  | cons b l ih =>
    show CLe (f b >>= fun _ => l.forM f) (g b >>= fun _ => l.forM g)
    exact bind (h b) fun _ => ih

end CLe

section
variable [Scalar C] (F : FanFormat I)

theorem buildFansC_cle (w : Winding) {k n : Nat} (h : k ≤ n) (M : Mono I C) :
    CLe (F := F) (Mono.buildFansC CtM.tick w k M) (Mono.buildFansC CtM.tick w n M) := by
  induction k generalizing n M with
  | zero => exact .out _
  | succ k ih =>
    obtain ⟨n, rfl⟩ : ∃ m, n = m + 1 := ⟨n - 1, by omega⟩
    unfold Mono.buildFansC
    refine .bind' fun _ => .bind' fun r => ?_
    split
    · exact .bind' fun M => .bind' fun M => ih (by omega) M
    · exact .refl _

theorem finishMonotoneC_cle (w : Winding) {k n : Nat} (h : k ≤ n) (b : MonoB I C) :
    CLe (F := F) (finishMonotoneC CtM.tick w k b) (finishMonotoneC CtM.tick w n b) := by
  unfold finishMonotoneC
  refine .bind' fun M => ?_
  split
  · exact buildFansC_cle F w h _
  · exact .refl _

theorem triStepC_cle (w : Winding) {k n : Nat} (h : k ≤ n) (p : PolyList I V) (xy : V → Coords C) (st : St I C)
    (x : TI I C) (t : Trapezoid) (niDown : Nat) :
    CLe (F := F) (triStepC CtM.tick w k p xy st x t niDown) (triStepC CtM.tick w n p xy st x t niDown) := by
  unfold triStepC
  refine .bind' fun nDown => .bind ?_ fun x => .bind' fun ft => ?_
  · unfold updateMonotonesC
    split
    · exact .refl _
    · refine .bind ?_ fun _ => .refl _
      unfold advanceMonotonesC
      refine .bind' fun sl => .bind' fun sr => .bind' fun nu => ?_
      split
      · exact .refl _
      · exact .bind (finishMonotoneC_cle F w h _) fun _ => .refl _
  · unfold descendC
    split
    · unfold descendVC
      refine .bind ?_ fun _ => .refl _
      unfold joinVC
      split
      · exact .refl _
      · split
        · exact .refl _
        · split
          · exact .bind (.forM (fun b => finishMonotoneC_cle F w h b) _) fun _ => .refl _
          · exact .refl _
    · exact .refl _
    · exact .refl _

theorem triLoopC_cle (w : Winding) {k n : Nat} (h : k ≤ n) (p : PolyList I V) (xy : V → Coords C) (st : St I C)
    {i j : Nat} (hij : i ≤ j) (x : TI I C) :
    CLe (F := F) (triLoopC CtM.tick w k p xy st i x) (triLoopC CtM.tick w n p xy st j x) := by
  induction i generalizing j x with
  | zero => exact .out _
  | succ i ih =>
    obtain ⟨j, rfl⟩ : ∃ m, j = m + 1 := ⟨j - 1, by omega⟩
    unfold triLoopC
    refine .bind' fun _ => .bind' fun t => ?_
    split
    · exact .bind (triStepC_cle F w h p xy st x t _) fun x => ih (by omega) x
    · exact .refl _

omit [Scalar C] in
theorem topTrapezoidC_cle (qs : List (QueryNode C)) {k n : Nat} (h : k ≤ n) (qi : Nat) :
    CLe (F := F) (topTrapezoidC CtM.tick qs k qi) (topTrapezoidC CtM.tick qs n qi) := by
  induction k generalizing n qi with
  | zero => exact .out _
  | succ k ih =>
    obtain ⟨n, rfl⟩ : ∃ m, n = m + 1 := ⟨n - 1, by omega⟩
    unfold topTrapezoidC
    refine .bind' fun _ => .bind' fun q => ?_
    split
    · exact ih (by omega) _
    · exact .refl _
    · exact .refl _

/-- More steps change neither the outcome nor the cost of a triangulation step that ended. -/
theorem triangulateC_more (p : PolyList I V) (xy : V → Coords C) (st : St I C) {k n : Nat} (h : k ≤ n)
    (hk : (st.triangulate k p xy F).2 ≠ .error .timeout) : st.triangulateC n p xy F = st.triangulateC k p xy F := by
  rw [← (triangulateC_eq k p xy st F).1] at hk
  unfold St.triangulateC at hk ⊢
  have hi : CLe (F := F) (triangulateInnerC CtM.tick F.winding k p xy st) (triangulateInnerC CtM.tick F.winding n p xy st) :=
    .bind (topTrapezoidC_cle F _ h _) fun ti => triLoopC_cle F _ h p xy st h _
  rcases hi (.uninit, 0) with h' | h'
  · simp only [h'] at hk
    exact absurd (complete_timeout _) hk
  · rw [h']

end

section
variable [Scalar C]

open TrE

/-- A chain costs at most one step for each pass and three for each triangle, also if it is not finished. -/
theorem buildFansC_any (w : Winding) (fuel : Nat) (M : Mono I C) (S D Q : List (I × Coords C)) (hR : Rep M S D Q)
    (hS : 2 ≤ S.length) :
    (Mono.buildFansC (tick (I := I)) w fuel M).len ≤ fuel + 3 * (Mono.buildFansC (tick (I := I)) w fuel M).calls := by
  induction fuel generalizing M S D Q with
  | zero => exact Nat.zero_le _
  | succ k ih =>
    unfold Mono.buildFansC
    rw [tick_bind, hR.remaining, lift_ok]
    by_cases h3 : 3 ≤ Q.length + S.length
    · rw [if_pos h3]
      obtain ⟨M1, M2, S2, D2, Q2, k0, k1, k2, k3⟩ : ∃ M1 M2 S2 D2 Q2, (Mono.maybeFan (m := TrM I) w M).res = .ok M1 ∧
          M1.advancePosition = .ok M2 ∧ Rep M2 S2 D2 Q2 ∧ 2 ≤ S2.length := by
        have adv : ∀ (M1 : Mono I C) (S1 D1 Q1 : List (I × Coords C)), Rep M1 S1 D1 Q1 → S1 ≠ [] → (Q1 ≠ [] ∨ 2 ≤ S1.length) →
            ∃ M2 S2 D2 Q2, M1.advancePosition = .ok M2 ∧ Rep M2 S2 D2 Q2 ∧ 2 ≤ S2.length := by
          intro M1 S1 D1 Q1 g2 g6 g7
          unfold Mono.advancePosition
          rw [g2.hasPending]
          cases Q1 with
          | nil =>
            rw [if_neg (by simp)]
            have g7 : 2 ≤ S1.length := g7.resolve_left (by simp)
            rcases hS1 : S1.reverse with _ | ⟨x, _ | ⟨y, L⟩⟩
            · have := congrArg List.length hS1
              simp at this; simp [this] at g7
            · have := congrArg List.length hS1
              simp at this; omega
            · exact ⟨_, _, _, _, rfl, g2.reset hS1, by simp⟩
          | cons q' Q1 =>
            rw [if_pos (by simp)]
            obtain ⟨M2, h1, h2, h3⟩ := g2.transferPending
            refine ⟨M2, _, _, _, h1, h3, ?_⟩
            have := List.length_pos_iff.2 g6
            simp; omega
        unfold Mono.maybeFan
        rcases hR.can with ⟨hc, b, a, S1, c, Q1, rfl, rfl, hok⟩ | ⟨hc, -⟩
        · obtain ⟨M1, bt, r, W, S1', D1, Q1', g1, g2, g3, g4, g5, g6, g7⟩ := fanStep_tr M b a c S1 D Q1 hR hok
          obtain ⟨M2, S2, D2, Q2, k1, k2, k3⟩ := adv M1 S1' D1 Q1' g2 g6 g7
          refine ⟨M1, M2, S2, D2, Q2, ?_, k1, k2, k3⟩
          rw [hc, TrM.lift_ok, if_pos rfl, g1]
        · obtain ⟨M2, S2, D2, Q2, k1, k2, k3⟩ := adv M S D Q hR (by rintro rfl; simp at hS) (.inr hS)
          refine ⟨M, M2, S2, D2, Q2, ?_, k1, k2, k3⟩
          rw [hc, TrM.lift_ok, if_neg (by simp)]
          rfl
      have e : erase.app (Mono.maybeFanC (tick (I := I)) w M) = Mono.maybeFan (m := TrM I) w M := by
        rw [erase.maybeFanC]; exact TrM.maybeFanC ..
      rw [← e, erase_res] at k0
      have k4 := maybeFanC_len w M M1 k0
      rcases hm : Mono.maybeFanC (tick (I := I)) w M with ⟨l, r⟩
      rw [hm] at k0 k4
      simp only at k0; subst k0
      rw [ok_bind, k1, lift_ok]
      have k5 := ih M2 S2 D2 Q2 k2 k3
      generalize Mono.buildFansC (tick (I := I)) w k M2 = z at k5
      simp only [len, calls, List.length_cons, List.length_append, List.filterMap_cons, List.filterMap_append, id] at k4 k5 ⊢
      omega
    · rw [if_neg h3]
      split
      · simp [len, pure_def]; omega
      · simp [len, FanM.stop]; omega

theorem finishMonotoneC_any (w : Winding) (fuel : Nat) (b : MonoB I C) :
    (finishMonotoneC (tick (I := I)) w fuel b).len ≤ fuel + 3 * b.rest.length := by
  have e : erase.app (finishMonotoneC (tick (I := I)) w fuel b) = finishMonotone (m := TrM I) w fuel b := by
    rw [erase.finishMonotoneC]; exact TrM.finishMonotoneC ..
  have hc := finishMonotone_calls w b fuel
  rw [← e, erase_calls] at hc
  unfold finishMonotoneC at hc ⊢
  cases hb : b.build with
  | error e => exact Nat.zero_le _
  | ok M =>
    rw [hb, lift_ok] at hc
    rw [lift_ok]
    cases M with
    | none => exact Nat.zero_le _
    | some M =>
      simp only at hc ⊢
      have hR : ∃ S D Q, Rep M S D Q ∧ 2 ≤ S.length := by
        unfold MonoB.build at hb
        split at hb
        · next v1 v2 tl hr =>
          split at hb
          · simp only [Except.ok.injEq, Option.some.injEq] at hb
            refine ⟨[v1, b.first], [], v2 :: tl, ?_, by simp⟩
            subst hb
            exact ⟨by simp, rfl, rfl⟩
          · cases hb
        · cases hb
      obtain ⟨S, D, Q, h1, h2⟩ := hR
      have := buildFansC_any w fuel M S D Q h1 h2
      omega

theorem finishMonotoneC_res (w : Winding) (fuel : Nat) (b : MonoB I C) :
    (finishMonotoneC (tick (I := I)) w fuel b).res = (finishMonotone (m := TrM I) w fuel b).res := by
  have e : erase.app (finishMonotoneC (tick (I := I)) w fuel b) = finishMonotone (m := TrM I) w fuel b := by
    rw [erase.finishMonotoneC]; exact TrM.finishMonotoneC ..
  rw [← e, erase_res]

/-- What chains may cost that are finished. -/
def chainsMax (bs : List (MonoB I C)) : Nat := (bs.map fun b => b.rest.length ^ 2 + 6 * b.rest.length).sum

theorem chainsMax_append (bs bs' : List (MonoB I C)) : chainsMax (bs ++ bs') = chainsMax bs + chainsMax bs' := by
  simp [chainsMax]

theorem chainsMax_le (bs : List (MonoB I C)) : chainsMax bs ≤ total bs ^ 2 + 6 * total bs := by
  induction bs with
  | nil => simp [chainsMax]
  | cons b bs ih =>
    have e1 : chainsMax (b :: bs) = b.rest.length ^ 2 + 6 * b.rest.length + chainsMax bs := by simp [chainsMax]
    have e2 : total (b :: bs) = b.rest.length + total bs := by simp [total]
    rw [e1, e2]
    nlinarith

/-- What is left to pay: nothing if the run goes on. -/
def stopCost (fuel : Nat) {α : Type} : Res IErr α → Nat
  | .ok _ => 0
  | .error _ => fuel

/-- A counted run and a traversal without the triangulation: whatever the outcome, the cost is at most `t`, what the chains may
cost, and `fuel` for a chain that is not finished. -/
def WalkMax (fuel : Nat) {α : Type} (t : Nat) (x : TrE I α) (y : BM I C α) : Prop :=
  (∀ a, x.res = .ok a → y.res = .ok a) ∧ x.len ≤ t + chainsMax y.done + stopCost fuel x.res

namespace WalkMax

variable {w : Winding} {fuel : Nat}

theorem bind_of {α β : Type} {t t' : Nat} {x : TrE I α} {y : BM I C α} {f : α → TrE I β} {g : α → BM I C β}
    (h : WalkMax fuel t x y) (h' : ∀ a, y.res = .ok a → WalkMax fuel t' (f a) (g a)) :
    WalkMax fuel (t + t') (x >>= f) (y >>= g) := by
  obtain ⟨h1, h2⟩ := h
  rcases x with ⟨l, e | a⟩
  · rw [error_bind]
    refine ⟨fun a h => (by cases h), ?_⟩
    rcases y with ⟨bs, e' | a⟩
    · rw [BM.mk_error_bind]
      simp only [len, stopCost] at h2 ⊢
      omega
    · rw [BM.mk_ok_bind, chainsMax_append]
      simp only [len, stopCost] at h2 ⊢
      omega
  · have ha := h1 a rfl
    obtain ⟨k1, k2⟩ := h' a ha
    rcases y with ⟨bs, r⟩
    simp only at ha; subst ha
    rw [ok_bind, BM.mk_ok_bind]
    refine ⟨k1, ?_⟩
    rw [chainsMax_append]
    simp only [len, List.length_append, stopCost] at h2 k2 ⊢
    omega

theorem bind {α β : Type} {t t' : Nat} {x : TrE I α} {y : BM I C α} {f : α → TrE I β} {g : α → BM I C β}
    (h : WalkMax fuel t x y) (h' : ∀ a, WalkMax fuel t' (f a) (g a)) :
    WalkMax fuel (t + t') (x >>= f) (y >>= g) := bind_of h fun a _ => h' a

theorem lift {α : Type} (r : Res IErr α) : WalkMax fuel 0 (FanM.lift r : TrE I α) (BM.lift r : BM I C α) := by
  cases r <;> exact ⟨fun _ h => h, Nat.zero_le _⟩

theorem stop {α : Type} (e : Fault IErr) :
    WalkMax fuel 0 (FanM.stop e : TrE I α) (BM.lift (.error e) : BM I C α) := lift (.error e)

theorem pure {α : Type} (a : α) : WalkMax fuel 0 (Pure.pure a : TrE I α) (Pure.pure a : BM I C α) := lift (.ok a)

theorem mono {α : Type} {t t' : Nat} {x : TrE I α} {y : BM I C α} (h : WalkMax fuel t x y) (ht : t ≤ t') :
    WalkMax fuel t' x y := ⟨h.1, by have := h.2; omega⟩

theorem tick {α : Type} {t : Nat} {x : Unit → TrE I α} {y : BM I C α} (h : WalkMax fuel t (x ()) y) :
    WalkMax fuel (t + 1) (TrE.tick >>= x) y := by
  obtain ⟨h1, h2⟩ := h
  rw [tick_bind]
  refine ⟨h1, ?_⟩
  simp only [len, List.length_cons] at h2 ⊢
  omega

theorem finish (b : MonoB I C) : WalkMax fuel 0 (finishMonotoneC (TrE.tick (I := I)) w fuel b) (BM.finish b) := by
  refine ⟨fun a _ => rfl, ?_⟩
  have e : chainsMax (BM.finish b : BM I C Unit).done = b.rest.length ^ 2 + 6 * b.rest.length := by simp [BM.finish, chainsMax]
  rw [e]
  have h1 := finishMonotoneC_any w fuel b
  rcases hr : (finishMonotoneC (TrE.tick (I := I)) w fuel b).res with e | u
  · simp only [stopCost]
    omega
  · have := (finishMonotoneC_quick w fuel b (by rw [← finishMonotoneC_res, hr])).2
    simp only [stopCost]
    omega

theorem forM (bs : List (MonoB I C)) :
    WalkMax fuel 0 (bs.forM (finishMonotoneC (TrE.tick (I := I)) w fuel)) (bs.forM BM.finish) := by
  induction bs with
  | nil => exact pure ()
  | cons b bs ih => exact bind (t := 0) (t' := 0) (finish b) fun _ => ih

theorem advance (p : PolyList I V) (xy : V → Coords C) (st : St I C)
    (t : Trapezoid) (niDown : Nat) (nDown : Nexus I C) (ms : Ot (MonoB I C)) :
    WalkMax fuel 0 (advanceMonotonesC (TrE.tick (I := I)) w fuel p xy st t niDown nDown ms)
      (advanceMonotonesB p xy st t niDown nDown ms) := by
  unfold advanceMonotonesC advanceMonotonesB
  refine bind (t := 0) (t' := 0) (lift _) fun sl => bind (t := 0) (t' := 0) (lift _) fun sr =>
    bind (t := 0) (t' := 0) (lift _) fun nu => ?_
  rcases splitCompleted (addToAll ms nDown.vi nDown.c) niDown nu sl sr with ⟨_ | d, ms'⟩
  · exact pure _
  · exact bind (t := 0) (t' := 0) (finish d) fun _ => lift _

theorem join (x : TI I C) (a b c : Nat) :
    WalkMax fuel 0 (joinVC (TrE.tick (I := I)) w fuel x a b c) (joinVB x a b c) := by
  unfold joinVC joinVB
  rcases x.monotones with _ | ms
  · exact pure _
  · simp only []
    split
    · exact bind (t := 0) (t' := 0) (lift _) fun _ => pure _
    · split
      · exact bind (t := 0) (t' := 0) (forM _) fun _ => pure _
      · split
        · rcases x.monotoneStack with _ | ⟨l, rest⟩
          · exact stop _
          · exact bind (t := 0) (t' := 0) (lift _) fun _ => pure _
        · exact stop _

theorem descend (st : St I C) (x : TI I C) (t : Trapezoid) (nDown : Nexus I C) (ft : FinalType) :
    WalkMax fuel 0 (descendC (TrE.tick (I := I)) w fuel st x t nDown ft) (descendB st x t nDown ft) := by
  cases ft with
  | V => exact bind (t := 0) (t' := 0) (join _ _ _ _) fun _ => lift _
  | I a b c d =>
    simp only [descendC, descendB, descendI, descendIB]
    split
    · exact pure _
    · split
      · exact pure _
      · exact stop _
  | A a b c d =>
    simp only [descendC, descendB, descendA, descendAB]
    rcases x.monotones with _ | ms
    · exact pure _
    · exact bind (t := 0) (t' := 0) (lift _) fun _ => pure _

theorem step (p : PolyList I V) (xy : V → Coords C) (st : St I C) (x : TI I C) (t : Trapezoid) (niDown : Nat) :
    WalkMax fuel 0 (triStepC (TrE.tick (I := I)) w fuel p xy st x t niDown) (triStepB p xy st x t niDown) := by
  unfold triStepC triStepB
  refine bind (t := 0) (t' := 0) (lift _) fun nd => bind (t := 0) (t' := 0) ?_ fun x' =>
    bind (t := 0) (t' := 0) (lift _) fun ft => descend _ _ _ _ _
  unfold updateMonotonesC updateMonotonesB
  rcases x.monotones with _ | ms
  · exact pure _
  · exact bind (t := 0) (t' := 0) (advance _ _ _ _ _ _ _) fun _ => pure _

/-- Each pass of the loop counts as one, and no more passes are made than the traversal needs. -/
theorem loop (p : PolyList I V) (xy : V → Coords C) (st : St I C) (k k' : Nat) (hk : k ≤ k') (x : TI I C)
    (hne : (triLoopB p xy st k x).res ≠ .error .timeout) :
    WalkMax fuel k (triLoopC (TrE.tick (I := I)) w fuel p xy st k' x) (triLoopB p xy st k x) := by
  induction k generalizing k' x with
  | zero => exact absurd rfl hne
  | succ k ih =>
    obtain ⟨k', rfl⟩ : ∃ j, k' = j + 1 := ⟨k' - 1, by omega⟩
    unfold triLoopC
    unfold triLoopB at hne ⊢
    refine tick ?_
    refine (bind_of (t := 0) (t' := k) (lift _) fun t ht => ?_).mono (by omega)
    have ht : getP (ε := IErr) st.ts x.ti = .ok t := by
      rcases h : getP (ε := IErr) st.ts x.ti with e | t'
      · rw [h] at ht; cases ht
      · rw [h] at ht; exact ht
    rw [ht, BM.lift_ok_bind] at hne
    rcases hd : t.down with _ | nd
    · simp only []
      split
      · exact (stop _).mono (Nat.zero_le _)
      · split
        · exact (stop _).mono (Nat.zero_le _)
        · split
          · exact (stop _).mono (Nat.zero_le _)
          · exact (pure _).mono (Nat.zero_le _)
    · rw [hd] at hne
      refine (bind_of (t := 0) (t' := k) (step _ _ _ _ _ _) fun x' hx => ih k' (by omega) x' ?_).mono (by omega)
      rcases hs : triStepB p xy st x t nd with ⟨bs, r⟩
      rw [hs] at hx
      simp only at hx; subst hx
      simp only [hs, BM.mk_ok_bind] at hne
      exact hne

end WalkMax

/-- The search for the top trapezoid costs at most as many steps as it needs. -/
theorem topTrapezoidC_any (qs : List (QueryNode C)) (k k' : Nat) (hk : k ≤ k') (q : Nat)
    (h : topTrapezoid qs k q ≠ .error .timeout) :
    (topTrapezoidC (tick (I := I)) qs k' q).res = topTrapezoid qs k q ∧ (topTrapezoidC (tick (I := I)) qs k' q).len ≤ k := by
  induction k generalizing k' q with
  | zero => exact absurd rfl h
  | succ k ih =>
    obtain ⟨k', rfl⟩ : ∃ j, k' = j + 1 := ⟨k' - 1, by omega⟩
    unfold topTrapezoid at h ⊢
    unfold topTrapezoidC
    rw [tick_bind]
    rcases hq : getP (ε := IErr) qs q with e | r
    · rw [lift_error]
      exact ⟨rfl, by simp [len]⟩
    · rw [hq] at h
      rw [lift_ok]
      rcases r with ⟨_, r, _ | _⟩ | t'
      · exact ⟨rfl, by simp [len, FanM.stop]⟩
      · obtain ⟨h1, h2⟩ := ih k' (by omega) r h
        refine ⟨h1, ?_⟩
        simp only [len, List.length_cons] at h2 ⊢
        omega
      · exact ⟨rfl, by simp [len, pure_def]⟩

/-- The cost of the triangulation step, whatever its outcome. -/
theorem innerEvents_any [DecidableEq I] (w : Winding) (p : PolyList I V) (xy : V → Coords C) {N : Nat} {st : St I C}
    (hwf : WF (Given p xy) st) (ht : Tidy N st) (hf : Fork st.ns st.ts) (fuel : Nat) (hfu : st.ts.length ≤ fuel) :
    (innerEvents w fuel p xy st).len ≤ 2 * st.ts.length + ((3 * st.ts.length) ^ 2 + 6 * (3 * st.ts.length)) + fuel := by
  obtain ⟨htot, hres⟩ := inner_tour p xy hwf ht hf (given_coords p xy) st.ts.length
  have hres := hres (Nat.le_refl _)
  unfold triangulateInnerB at htot hres
  have htop : topTrapezoid st.qs st.ts.length 0 ≠ .error .timeout := by
    intro h
    rw [h] at hres
    exact hres rfl
  obtain ⟨h1, h2⟩ := topTrapezoidC_any (I := I) st.qs _ fuel hfu 0 htop
  unfold innerEvents triangulateInnerC
  rcases hc : topTrapezoidC (tick (I := I)) st.qs fuel 0 with ⟨l, e | t⟩
  · rw [hc] at h2
    rw [error_bind]
    simp only [len] at h2 ⊢
    omega
  · rw [hc] at h1 h2
    simp only at h1
    rw [← h1, BM.lift_ok_bind] at htot hres
    rw [ok_bind]
    obtain ⟨-, h3⟩ := WalkMax.loop (w := w) (fuel := fuel) p xy st _ fuel hfu ⟨t, none, [], []⟩ hres
    have h4 := chainsMax_le (triLoopB p xy st st.ts.length ⟨t, none, [], []⟩).done
    have h5 : stopCost fuel (triLoopC (tick (I := I)) w fuel p xy st fuel ⟨t, none, [], []⟩).res ≤ fuel := by
      unfold stopCost
      split <;> omega
    have h6 := Nat.pow_le_pow_left htot 2
    simp only [len, List.length_append] at h2 h3 ⊢
    omega

end

end Tri
