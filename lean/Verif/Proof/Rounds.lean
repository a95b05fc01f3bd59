import Verif.Proof.Settle

/-!
# How long the triangulation of one chain takes, whatever the comparisons answer
-/

set_option linter.unusedSectionVars false

namespace Tri

variable {I V C : Type} [Scalar C]

theorem earsOf_length {α : Type} (bt : Bool) (r : α) (W : List α) : (earsOf bt r W).length = W.length - 1 := by
  simp [earsOf]

/-- A round over the pending vertices: it cuts off something, or it comes to the end and starts again with the same
vertices. -/
theorem buildFans_round (w : Winding) (Q : List (I × Coords C)) (M : Mono I C) (S D : List (I × Coords C))
    (hR : Rep M S D Q) (hS : 2 ≤ S.length) (h3 : 3 ≤ Q.length + S.length) :
    (∃ (j : Nat) (cs : List (Call I)) (M2 : Mono I C) (S2 D2 Q2 : List (I × Coords C)), 1 ≤ j ∧ j ≤ Q.length + 1 ∧
      Rep M2 S2 D2 Q2 ∧ 2 ≤ S2.length ∧ Q2.length + S2.length < Q.length + S.length ∧
      ∀ fuel, Mono.buildFans (m := TrM I) w (fuel + j) M =
        ⟨cs ++ (Mono.buildFans (m := TrM I) w fuel M2).calls, (Mono.buildFans (m := TrM I) w fuel M2).res⟩) ∨
    ((∀ fuel, Mono.buildFans (m := TrM I) w (fuel + (Q.length + 1)) M =
        Mono.buildFans w fuel ⟨S.reverse ++ Q, 2, 2, M.isLeftChain⟩) ∧
      ∀ fuel ≤ Q.length + 1, Mono.buildFans (m := TrM I) w fuel M = ⟨[], .error .timeout⟩) := by
  induction Q generalizing M S D with
  | nil =>
    right
    have h3' : 3 ≤ S.length := by simpa using h3
    have key : ∀ fuel, Mono.buildFans (m := TrM I) w (fuel + 1) M =
        Mono.buildFans w fuel ⟨S.reverse, 2, 2, M.isLeftChain⟩ := by
      intro fuel
      rw [Mono.buildFans, hR.remaining, TrM.lift_ok, if_pos h3]
      rcases hR.can with ⟨hc, b, a, S1, c, Q1, -, h, -⟩ | ⟨hc, -⟩
      · cases h
      · unfold Mono.maybeFan
        rw [hc, TrM.lift_ok, if_neg (by simp), TrM.pure_bind]
        unfold Mono.advancePosition
        rw [hR.hasPending, if_neg (by simp), TrM.lift_ok]
        obtain ⟨x, y, L, hL⟩ : ∃ x y L, S.reverse = x :: y :: L := by
          rcases h : S.reverse with _ | ⟨x, _ | ⟨y, L⟩⟩
          · have := congrArg List.length h
            simp at this; simp [this] at h3'
          · have := congrArg List.length h
            simp at this; omega
          · exact ⟨x, y, L, rfl⟩
        have hrep := hR.reset hL
        have e : M.resetPosition = ⟨S.reverse, 2, 2, M.isLeftChain⟩ := by
          have h1 := hrep.arr
          have h2 := hrep.sk
          have h4 := hrep.pt
          have h5 : M.resetPosition.isLeftChain = M.isLeftChain := rfl
          rw [hL]
          generalize M.resetPosition = M' at *
          rcases M' with ⟨a, b, c, d⟩
          simp only at h1 h2 h4 h5
          rw [h1, h2, h4, h5]
          simp
        rw [e]
    refine ⟨fun fuel => by simpa using key fuel, fun fuel hf => ?_⟩
    rcases fuel with _ | _ | fuel
    · rfl
    · rw [key 0]
      rfl
    · simp at hf
  | cons q Q ih =>
    rcases hR.can with ⟨hc, b, a, S1, c, Q1, rfl, hQ, hok⟩ | ⟨hc, -⟩
    · left
      cases hQ
      obtain ⟨M1, bt, r, W, S1', D1, Q1', g1, g2, g3, g4, g5, g6, g7⟩ := fanStep_tr M b a q S1 D Q hR hok
      have hlen : Q1'.length + S1'.length < (q :: Q).length + (b :: a :: S1).length := by
        have := g5.length
        rw [earsOf_length] at this
        simp only [List.length_append, List.length_reverse, List.length_cons] at this ⊢
        omega
      obtain ⟨M2, S2, D2, Q2, k1, k2, k4, k5⟩ : ∃ M2 S2 D2 Q2, M1.advancePosition = .ok M2 ∧ Rep M2 S2 D2 Q2 ∧
          2 ≤ S2.length ∧ Q2.length + S2.length = Q1'.length + S1'.length := by
        unfold Mono.advancePosition
        rw [g2.hasPending]
        cases Q1' with
        | nil =>
          rw [if_neg (by simp)]
          have g7 : 2 ≤ S1'.length := g7.resolve_left (by simp)
          rcases hS1 : S1'.reverse with _ | ⟨x, _ | ⟨y, L⟩⟩
          · have := congrArg List.length hS1
            simp at this; simp [this] at g7
          · have := congrArg List.length hS1
            simp at this; omega
          · refine ⟨_, _, _, _, rfl, g2.reset hS1, by simp, ?_⟩
            have := congrArg List.length hS1
            simp at this
            simp [this]
        | cons q' Q1' =>
          rw [if_pos (by simp)]
          obtain ⟨M2, h1, h2, h3⟩ := g2.transferPending
          refine ⟨M2, _, _, _, h1, h3, ?_, by simp; omega⟩
          have := List.length_pos_iff.2 g6
          simp; omega
      refine ⟨1, fanCalls ((fanOf w M.isLeftChain bt r W).map Prod.fst), M2, S2, D2, Q2, Nat.le_refl _, by simp, k2, k4,
        by omega, fun fuel => ?_⟩
      rw [Mono.buildFans, hR.remaining, TrM.lift_ok, if_pos h3]
      unfold Mono.maybeFan
      rw [hc, TrM.lift_ok, if_pos rfl, g1, TrM.mk_ok_bind, k1, TrM.lift_ok]
    · obtain ⟨M2, h1, h2, h4⟩ := hR.transferPending
      have hrun : ∀ fuel, Mono.buildFans (m := TrM I) w (fuel + 1) M = Mono.buildFans w fuel M2 := by
        intro fuel
        rw [Mono.buildFans, hR.remaining, TrM.lift_ok, if_pos h3]
        unfold Mono.maybeFan Mono.advancePosition
        rw [hc, TrM.lift_ok, if_neg (by simp), TrM.pure_bind, hR.hasPending, if_pos (by simp), h1, TrM.lift_ok]
      have hl : Q.length + (q :: S).length = (q :: Q).length + S.length := by simp; omega
      have he : (q :: S).reverse ++ Q = S.reverse ++ q :: Q := by simp
      rcases ih M2 (q :: S) (rotL D) h4 (by simp; omega) (by rw [hl]; exact h3) with
        ⟨j, cs, M3, S3, D3, Q3, j1, j2, j3, j4, j5, j6⟩ | ⟨j1, j2⟩
      · refine .inl ⟨j + 1, cs, M3, S3, D3, Q3, by omega, by simp only [List.length_cons]; omega, j3, j4, by rw [← hl]; exact j5, fun fuel => ?_⟩
        rw [← Nat.add_assoc, hrun, j6]
      · refine .inr ⟨fun fuel => ?_, fun fuel hf => ?_⟩
        · rw [List.length_cons, ← Nat.add_assoc fuel, hrun, j1, he, h2]
        · rcases fuel with _ | fuel
          · rfl
          · rw [hrun]
            exact j2 fuel (by simp only [List.length_cons] at hf; omega)

theorem buildFans_quick (w : Winding) (m : Nat) (M : Mono I C) (S D Q : List (I × Coords C))
    (hR : Rep M S D Q) (hS : 2 ≤ S.length) (hm : Q.length + S.length = m) (fuel : Nat) (hf : m ^ 2 ≤ fuel) :
    Mono.buildFans (m := TrM I) w fuel M = Mono.buildFans w (m ^ 2) M := by
  induction m using Nat.strongRecOn generalizing M S D Q fuel with
  | _ m ih =>
    by_cases h3 : 3 ≤ m
    · have red : ∀ (M : Mono I C) (S D Q : List (I × Coords C)) (m' : Nat), Rep M S D Q → 2 ≤ S.length →
          Q.length + S.length = m' → m' < m →
          ∀ fuel ≥ (m - 1) ^ 2, Mono.buildFans (m := TrM I) w fuel M = Mono.buildFans w ((m - 1) ^ 2) M := by
        intro M S D Q m' h1 h2 h4 h5 fuel hfu
        have h6 : m' ^ 2 ≤ (m - 1) ^ 2 := Nat.pow_le_pow_left (by omega) 2
        rw [ih m' h5 M S D Q h1 h2 h4 fuel (by omega), ih m' h5 M S D Q h1 h2 h4 _ h6]
      have hsq : m ^ 2 = (m - 1) ^ 2 + (m - 1) + (m - 1) + 1 := by
        obtain ⟨k, rfl⟩ : ∃ k, m = k + 1 := ⟨m - 1, by omega⟩
        simp only [Nat.add_sub_cancel]
        ring
      have jump : ∀ (M M2 : Mono I C) (cs : List (Call I)) (j : Nat) (S2 D2 Q2 : List (I × Coords C)), j ≤ m - 1 →
          Rep M2 S2 D2 Q2 → 2 ≤ S2.length → Q2.length + S2.length < m →
          (∀ fuel, Mono.buildFans (m := TrM I) w (fuel + j) M =
            ⟨cs ++ (Mono.buildFans (m := TrM I) w fuel M2).calls, (Mono.buildFans (m := TrM I) w fuel M2).res⟩) →
          ∀ a b, (m - 1) ^ 2 + (m - 1) ≤ a → (m - 1) ^ 2 + (m - 1) ≤ b →
            Mono.buildFans (m := TrM I) w a M = Mono.buildFans w b M := by
        intro M M2 cs j S2 D2 Q2 hj h1 h2 h4 h5 a b ha hb
        have e1 := h5 (a - j)
        have e2 := h5 (b - j)
        rw [Nat.sub_add_cancel (by omega)] at e1 e2
        rw [e1, e2, red M2 S2 D2 Q2 _ h1 h2 rfl h4 (a - j) (by omega), red M2 S2 D2 Q2 _ h1 h2 rfl h4 (b - j) (by omega)]
      rcases buildFans_round w Q M S D hR hS (by omega) with ⟨j, cs, M2, S2, D2, Q2, j1, j2, j3, j4, j5, j6⟩ | ⟨j1, j2⟩
      · exact jump M M2 cs j S2 D2 Q2 (by omega) j3 j4 (by omega) j6 _ _ (by omega) (by omega)
      · obtain ⟨x, y, L, hL⟩ : ∃ x y L, S.reverse ++ Q = x :: y :: L := by
          rcases h : S.reverse ++ Q with _ | ⟨x, _ | ⟨y, L⟩⟩
          · have := congrArg List.length h
            simp only [List.length_append, List.length_reverse, List.length_nil] at this; omega
          · have := congrArg List.length h
            simp at this; omega
          · exact ⟨x, y, L, rfl⟩
        have hlen : L.length + 2 = m := by
          have := congrArg List.length hL
          simp at this; omega
        have hR' : Rep (⟨S.reverse ++ Q, 2, 2, M.isLeftChain⟩ : Mono I C) [y, x] [] L := ⟨by simp [hL], rfl, rfl⟩
        have hjump : ∀ a b, (m - 1) ^ 2 + (m - 1) ≤ a → (m - 1) ^ 2 + (m - 1) ≤ b →
            Mono.buildFans (m := TrM I) w a (⟨S.reverse ++ Q, 2, 2, M.isLeftChain⟩ : Mono I C) =
              Mono.buildFans w b ⟨S.reverse ++ Q, 2, 2, M.isLeftChain⟩ := by
          rcases buildFans_round w L _ [y, x] [] hR' (by simp) (by simp; omega) with
            ⟨j, cs, M2, S2, D2, Q2, i1, i2, i3, i4, i5, i6⟩ | ⟨i1, i2⟩
          · exact jump _ M2 cs j S2 D2 Q2 (by omega) i3 i4 (by simp at i5; omega) i6
          · have hb : ∀ k, Mono.buildFans (m := TrM I) w k (⟨S.reverse ++ Q, 2, 2, M.isLeftChain⟩ : Mono I C) =
                ⟨[], .error .timeout⟩ := by
              intro k
              induction k using Nat.strongRecOn with
              | _ k ihk =>
                by_cases hk : k ≤ L.length + 1
                · exact i2 k hk
                · have := i1 (k - (L.length + 1))
                  rw [Nat.sub_add_cancel (by omega)] at this
                  rw [this]
                  have e : [y, x].reverse ++ L = S.reverse ++ Q := by simp [hL]
                  rw [e]
                  exact ihk _ (by omega)
            intro a b _ _
            rw [hb a, hb b]
        have e1 := j1 (fuel - (Q.length + 1))
        have e2 := j1 (m ^ 2 - (Q.length + 1))
        rw [Nat.sub_add_cancel (by omega)] at e1 e2
        rw [e1, e2]
        exact hjump _ _ (by omega) (by omega)
    · have h2 : Q.length + S.length = 2 := by omega
      have hrun : ∀ k, Mono.buildFans (m := TrM I) w (k + 1) M = ⟨[], .ok ()⟩ := by
        intro k
        rw [Mono.buildFans, hR.remaining, TrM.lift_ok, if_neg (by omega), if_pos h2]; rfl
      have hm2 : m = 2 := by omega
      subst hm2
      obtain ⟨k, rfl⟩ : ∃ k, fuel = k + 1 := ⟨fuel - 1, by omega⟩
      rw [hrun k]
      exact (hrun 3).symm

/-- The triangulation of a chain of `m + 1` vertices. -/
theorem finishMonotone_quick (w : Winding) (b : MonoB I C) (fuel : Nat) (hf : (b.rest.length + 1) ^ 2 ≤ fuel) :
    finishMonotone (m := TrM I) w fuel b = finishMonotone w ((b.rest.length + 1) ^ 2) b := by
  unfold finishMonotone
  cases hb : b.build with
  | error e => rfl
  | ok M =>
    rw [TrM.lift_ok, TrM.lift_ok]
    cases M with
    | none => rfl
    | some M =>
      unfold MonoB.build at hb
      split at hb
      · next v1 v2 tl hr =>
        split at hb
        · simp only [Except.ok.injEq, Option.some.injEq] at hb
          have hR : Rep M [v1, b.first] [] (v2 :: tl) := by
            subst hb
            exact ⟨by simp, rfl, rfl⟩
          exact buildFans_quick w _ M _ _ _ hR (by simp) (by rw [hr]; simp) fuel hf
        · cases hb
      · cases hb

theorem finishAll_quick (w : Winding) (bs : List (MonoB I C)) (N fuel : Nat) (h : ∀ b ∈ bs, (b.rest.length + 1) ^ 2 ≤ N)
    (hf : N ≤ fuel) : finishAll w fuel bs = finishAll w N bs := by
  induction bs with
  | nil => rfl
  | cons b bs ih =>
    have h1 := h b (by simp)
    show (finishMonotone (m := TrM I) w fuel b >>= fun _ => finishAll w fuel bs) =
      (finishMonotone (m := TrM I) w N b >>= fun _ => finishAll w N bs)
    rw [finishMonotone_quick w b fuel (by omega), finishMonotone_quick w b N h1, ih fun b hb => h b (by simp [hb])]

theorem Ears.two {α : Type} {ok : α → α → α → Prop} {L L' : List α} {T : List (α × α × α)} (h : Ears ok L T L')
    (hL : 2 ≤ L.length) : 2 ≤ L'.length := by
  induction h with
  | nil L => exact hL
  | cons X a b c Y T L' h1 h2 ih => exact ih (by simp; omega)

theorem fanCalls_fanOf {α : Type} (w : Winding) (left bt : Bool) (r : I × α) (W : List (I × α)) (hW : 2 ≤ W.length) :
    (fanCalls ((fanOf w left bt r W).map Prod.fst)).length = W.length - 1 := by
  have hc : ∀ l : List I, (fanCalls l).length = l.length - 2 := by
    intro l
    rcases l with _ | ⟨a, _ | ⟨b, _ | ⟨c, l⟩⟩⟩ <;> simp [fanCalls]
  rw [hc, List.length_map]
  unfold fanOf
  rcases W with _ | ⟨b, _ | ⟨x, P⟩⟩
  · simp at hW
  · simp at hW
  · split
    · simp only
      split <;> simp
    · simp

/-- It makes at most `m - 1` triangles. -/
theorem finishMonotone_calls (w : Winding) (b : MonoB I C) (fuel : Nat) :
    (finishMonotone (m := TrM I) w fuel b).calls.length ≤ b.rest.length := by
  unfold finishMonotone
  cases hb : b.build with
  | error e => exact Nat.zero_le _
  | ok M =>
    rw [TrM.lift_ok]
    cases M with
    | none => exact Nat.zero_le _
    | some M =>
      obtain ⟨fs, L', h1, h2, h3, -⟩ := chain_run b M hb fuel
      show (Mono.buildFans (m := TrM I) w fuel M).calls.length ≤ _
      rw [h2 w]
      have hlen : 2 ≤ (b.first :: b.rest).length := by
        unfold MonoB.build at hb
        split at hb
        · next v1 v2 tl hr => rw [hr]; simp
        · cases hb
      have h4 := h3.length
      have h5 := h3.two hlen
      have h6 : ((fs.map fun f => (fanOf w M.isLeftChain f.bt f.root f.outer).map Prod.fst).flatMap fanCalls).length =
          (fs.flatMap fun f => earsOf f.bt f.root f.outer).length := by
        clear h2 h3 h4
        induction fs with
        | nil => rfl
        | cons f fs ih =>
          simp only [List.map_cons, List.flatMap_cons, List.length_append]
          rw [ih fun f hf => h1 f (by simp [hf]), fanCalls_fanOf _ _ _ _ _ (h1 f (by simp)), earsOf_length]
      rw [h6]
      simp only [List.length_cons] at h4
      omega

theorem finishAll_calls (w : Winding) (bs : List (MonoB I C)) (fuel : Nat) :
    (finishAll w fuel bs).calls.length ≤ (bs.map fun b => b.rest.length).sum := by
  induction bs with
  | nil => exact Nat.le_refl _
  | cons b bs ih =>
    have h1 := finishMonotone_calls w b fuel
    unfold finishAll
    rcases hf : finishMonotone (m := TrM I) w fuel b with ⟨cs, e | u⟩
    · rw [hf] at h1
      show cs.length ≤ _
      simp only [List.map_cons, List.sum_cons] at h1 ⊢
      omega
    · rw [hf] at h1
      rw [TrM.mk_ok_bind]
      simp only [List.map_cons, List.sum_cons, List.length_append] at h1 ih ⊢
      omega

end Tri
