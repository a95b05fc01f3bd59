import Verif.Proof.Once
import Verif.Proof.Rounds
import Verif.Proof.Ending
import Verif.Proof.Logged
import Verif.Proof.CostWalk

/-!
# Bounds for the whole step, whatever the comparisons answer
-/

set_option linter.unusedSectionVars false

namespace Tri

variable {I V C : Type}

theorem rest_le_total {bs : List (MonoB I C)} {b : MonoB I C} (hb : b ∈ bs) : b.rest.length ≤ total bs := by
  induction bs with
  | nil => cases hb
  | cons b' bs ih =>
    have e : total (b' :: bs) = b'.rest.length + total bs := by simp [total]
    rcases List.mem_cons.1 hb with rfl | hb
    · omega
    · have := ih hb
      omega

theorem evs_length (F : FanFormat I) (cs : List (Call I)) (b : F.B) : (evs F cs b).length ≤ cs.length := by
  induction cs generalizing b with
  | nil => exact Nat.le_refl _
  | cons c cs ih =>
    cases c with
    | newFan x y z =>
      simp only [evs]
      rcases F.newFan b x y z with ⟨b', e | u⟩
      · simp
      · have := ih b'
        simp only [List.length_cons]
        omega
    | extend v =>
      simp only [evs]
      rcases F.extendFan b v with ⟨b', e | u⟩
      · simp
      · have := ih b'
        simp only [List.length_cons]
        omega

theorem logOf_length (F : FanFormat I) (cs : List (Call I)) (r : Res IErr Unit) :
    (logOf F cs r).length ≤ cs.length + 1 := by
  rcases cs with _ | ⟨c, cs⟩
  · simp [logOf]
  · cases c with
    | extend v => simp [logOf]
    | newFan x y z =>
      simp only [logOf]
      rcases F.start x y z with e | b
      · simp
      · have := evs_length F cs b
        simp only [List.length_append, List.length_cons, List.length_nil]
        omega

variable [Scalar C] [DecidableEq I]

/-- What is known of a trapezoidation that succeeded. -/
theorem trapezoidize_done (cfg : Cfg) (hcfg : cfg.Valid) {fuel : Nat} (p : PolyList I V) (xy : V → Coords C) {st : St I C}
    (h : trapezoidize cfg fuel p xy = .ok st) :
    WF (Given p xy) st ∧ Tidy (conts p.elems) st ∧ Fork st.ns st.ts ∧ st.ts.length ≤ 2 * p.elems.length + 1 := by
  have h' : trapezoidize cfg (max fuel (enough (conts p.elems))) p xy = .ok st := by
    rcases trapezoidize_fle cfg p xy (Nat.le_max_left fuel (enough (conts p.elems))) with h' | h'
    · rw [h] at h'; cases h'
    · rw [h', h]
  have h1 := trapezoidize_ranked cfg hcfg p xy (Nat.le_max_right fuel (enough (conts p.elems)))
  have h2 := trapezoidize_given cfg (max fuel (enough (conts p.elems))) p xy
  have h3 := trapezoidize_fork cfg hcfg p xy (Nat.le_max_right fuel (enough (conts p.elems)))
  rw [h'] at h1 h2 h3
  refine ⟨h2, h1.2.1, h3, ?_⟩
  have := h2.size
  have := h1.2.2.1
  have := h1.2.2.2
  have := conts_le p.elems
  omega

/-- From so many steps on the trace of the triangulation step does not change. -/
theorem innerTrace_quick (w : Winding) (p : PolyList I V) (xy : V → Coords C) {N : Nat} {st : St I C}
    (hwf : WF (Given p xy) st) (ht : Tidy N st) (hf : Fork st.ns st.ts) (fuel : Nat) (hfu : (3 * st.ts.length + 1) ^ 2 ≤ fuel) :
    innerTrace w fuel p xy st = innerTrace w ((3 * st.ts.length + 1) ^ 2) p xy st := by
  have hle : st.ts.length ≤ (3 * st.ts.length + 1) ^ 2 := by nlinarith
  have hin := inner_tour p xy hwf ht hf (given_coords p xy) st.ts.length
  have e : ∀ k, st.ts.length ≤ k → triangulateInnerB k p xy st = triangulateInnerB st.ts.length p xy st :=
    fun k hk => inner_fixed p xy st _ (hin.2 (Nat.le_refl _)) k hk
  rw [← BM.run_inner, ← BM.run_inner, e fuel (by omega), e _ hle]
  unfold BM.run
  rw [finishAll_quick w _ _ fuel ?_ hfu]
  intro b hb
  have := rest_le_total hb
  exact Nat.pow_le_pow_left (by omega) 2

/-- It makes few calls. -/
theorem innerTrace_calls (w : Winding) (p : PolyList I V) (xy : V → Coords C) {N : Nat} {st : St I C}
    (hwf : WF (Given p xy) st) (ht : Tidy N st) (hf : Fork st.ns st.ts) (fuel : Nat) :
    (innerTrace w fuel p xy st).calls.length ≤ 3 * st.ts.length := by
  have hin := (inner_tour p xy hwf ht hf (given_coords p xy) fuel).1
  rw [← BM.run_inner]
  unfold BM.run
  have h := finishAll_calls w (triangulateInnerB fuel p xy st).done fuel
  rcases hfa : finishAll w fuel (triangulateInnerB fuel p xy st).done with ⟨cs, e | u⟩
  · rw [hfa] at h
    exact h.trans hin
  · rw [hfa] at h
    rw [TrM.mk_ok_bind]
    have e : (FanM.lift (triangulateInnerB fuel p xy st).res : TrM I Unit).calls = [] := by
      rcases (triangulateInnerB fuel p xy st).res with e | u <;> rfl
    rw [e]
    simpa using h.trans hin

omit [DecidableEq I] in
/-- The cost of a chain that is finished. -/
theorem finishMonotoneC_quick (w : Winding) (fuel : Nat) (b : MonoB I C)
    (hb : (finishMonotone (m := TrM I) w fuel b).res = .ok ()) :
    (finishMonotoneC (TrE.tick (I := I)) w fuel b).res = .ok () ∧
      (finishMonotoneC (TrE.tick (I := I)) w fuel b).len ≤ b.rest.length ^ 2 + 6 * b.rest.length := by
  have hk : (finishMonotone (m := TrM I) w (min fuel ((b.rest.length + 1) ^ 2)) b).res = .ok () := by
    by_cases hle : (b.rest.length + 1) ^ 2 ≤ fuel
    · rw [Nat.min_eq_right hle, ← finishMonotone_quick w b fuel hle]
      exact hb
    · rw [Nat.min_eq_left (by omega)]
      exact hb
  have h1 := finishMonotoneC_len w _ fuel (Nat.min_le_left _ _) b hk
  refine ⟨h1.1, h1.2.trans ?_⟩
  have h2 := finishMonotone_calls w b (min fuel ((b.rest.length + 1) ^ 2))
  have h3 := Nat.min_le_right fuel ((b.rest.length + 1) ^ 2)
  have h4 : 1 ≤ b.rest.length := by
    rcases hr : b.rest with _ | ⟨v, l⟩
    · unfold finishMonotone MonoB.build at hb
      rw [hr] at hb
      cases hb
    · simp
  nlinarith

/-- The cost of a run of the step that succeeds. -/
theorem innerEvents_quick (w : Winding) (p : PolyList I V) (xy : V → Coords C) {N : Nat} {st : St I C}
    (hwf : WF (Given p xy) st) (ht : Tidy N st) (hf : Fork st.ns st.ts) (fuel : Nat)
    (h : (innerTrace w fuel p xy st).res = .ok ()) :
    (innerEvents w fuel p xy st).len ≤ 2 * st.ts.length + ((3 * st.ts.length) ^ 2 + 6 * (3 * st.ts.length)) := by
  obtain ⟨htot, hres⟩ := inner_tour p xy hwf ht hf (given_coords p xy) (min fuel st.ts.length)
  rw [← BM.run_inner] at h
  unfold BM.run at h
  have hall : (finishAll w fuel (triangulateInnerB fuel p xy st).done).res = .ok () ∧
      (triangulateInnerB fuel p xy st).res = .ok () := by
    rcases hfa : finishAll w fuel (triangulateInnerB fuel p xy st).done with ⟨cs, e | u⟩
    · rw [hfa] at h; cases h
    · rw [hfa, TrM.mk_ok_bind] at h
      refine ⟨rfl, ?_⟩
      rcases hr : (triangulateInnerB fuel p xy st).res with e | u
      · rw [hr] at h; cases h
      · rfl
  -- the run within as many steps as there are trapezoids
  have hmin : triangulateInnerB fuel p xy st = triangulateInnerB (min fuel st.ts.length) p xy st := by
    by_cases hle : st.ts.length ≤ fuel
    · rw [Nat.min_eq_right hle]
      exact inner_fixed p xy st _ ((inner_tour p xy hwf ht hf (given_coords p xy) st.ts.length).2 (Nat.le_refl _)) _ hle
    · rw [Nat.min_eq_left (by omega)]
  rw [hmin] at hall
  have hfin : ∀ bs : List (MonoB I C), (finishAll w fuel bs).res = .ok () →
      ∀ b ∈ bs, (finishMonotone (m := TrM I) w fuel b).res = .ok () := by
    intro bs
    induction bs with
    | nil => simp
    | cons b bs ih =>
      intro h b' hb'
      unfold finishAll at h
      rcases hfa : finishMonotone (m := TrM I) w fuel b with ⟨cs, e | u⟩
      · rw [hfa] at h; cases h
      · rw [hfa, TrM.mk_ok_bind] at h
        rcases List.mem_cons.1 hb' with rfl | hb'
        · rw [hfa]
        · exact ih h b' hb'
  have hch := hfin _ hall.1
  have hsum : ∀ bs : List (MonoB I C), (∀ b ∈ bs, (finishMonotone (m := TrM I) w fuel b).res = .ok ()) →
      chainsLen w fuel bs ≤ total bs ^ 2 + 6 * total bs := by
    intro bs
    induction bs with
    | nil => simp [chainsLen]
    | cons b bs ih =>
      intro hb
      have h1 := (finishMonotoneC_quick w fuel b (hb b (by simp))).2
      have h2 := ih fun b' h' => hb b' (by simp [h'])
      have e1 : chainsLen w fuel (b :: bs) = (finishMonotoneC (TrE.tick (I := I)) w fuel b).len + chainsLen w fuel bs := by
        simp [chainsLen]
      have e2 : total (b :: bs) = b.rest.length + total bs := by simp [total]
      rw [e1, e2]
      nlinarith
  have htop : ∃ t, topTrapezoid st.qs (min fuel st.ts.length) 0 = .ok t ∧
      triLoopB p xy st (min fuel st.ts.length) ⟨t, none, [], []⟩ =
        ⟨(triangulateInnerB (min fuel st.ts.length) p xy st).done, .ok ()⟩ := by
    have h2 := hall.2
    unfold triangulateInnerB at h2 ⊢
    rcases hq : topTrapezoid st.qs (min fuel st.ts.length) 0 with e | t
    · rw [hq] at h2; cases h2
    · refine ⟨t, rfl, ?_⟩
      rw [hq, BM.lift_ok_bind] at h2
      rw [BM.lift_ok_bind]
      rcases hx : triLoopB p xy st (min fuel st.ts.length) ⟨t, none, [], []⟩ with ⟨bs, r⟩
      rw [hx] at h2
      simp only at h2 ⊢
      rw [h2]
  obtain ⟨t, ht1, ht2⟩ := htop
  have h1 := innerEvents_len w fuel p xy st _ _ (Nat.min_le_left _ _) (Nat.min_le_left _ _) t ht1 _ ht2
    fun b hb => (finishMonotoneC_quick w fuel b (hch b hb)).1
  have h2 := hsum _ hch
  have h3 := Nat.min_le_right fuel st.ts.length
  have h4 := Nat.pow_le_pow_left htot 2
  omega

end Tri
