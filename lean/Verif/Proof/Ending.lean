import Verif.Spec.Ending
import Verif.Proof.Settle
import Verif.Proof.Fuel

/-!
# How runs can end
-/

set_option linter.unusedSectionVars false

namespace Tri

variable {I V C : Type}

theorem Grave.ne_err {ε : Type} (g : Grave) (e : ε) : Fault.err e ≠ g.fault := by cases g <;> simp [Grave.fault]

theorem liftBuilderErr_grave {E : Type} (g : Grave) {e : Fault E} (h : e ≠ g.fault) :
    liftBuilderErr e ≠ g.fault := by
  cases g <;> cases e <;> simp_all [Grave.fault, liftBuilderErr]

theorem liftInternal_grave {E : Type} (g : Grave) {e : Fault IErr} (h : e ≠ g.fault) :
    (liftInternal e : Fault (TriErr E)) ≠ g.fault := by
  cases g <;> cases e <;> simp_all [Grave.fault, liftInternal]

/-- A run ends badly only if its own part or an operation of the format does. -/
theorem play_never (F : FanFormat I) (g : Grave) (hF : F.Never g) (cs : List (Call I)) (r : Res IErr Unit)
    (hr : r ≠ .error g.fault) : (play F cs r).2 ≠ .error g.fault := by
  have hfin : ∀ (b : F.B) (r : Res (TriErr F.E) Unit), r ≠ .error g.fault →
      (finishB F b r).2 ≠ .error g.fault := by
    intro b r hr
    rcases r with (e | _ | _ | _) | u
    · simp only [finishB]
      intro h
      injection h with h
      exact g.ne_err e h
    · cases g <;> simp_all [finishB, Grave.fault]
    · cases g <;> simp_all [finishB, Grave.fault]
    · cases g <;> simp_all [finishB, Grave.fault]
    · simp only [finishB]
      have := hF.build b
      rcases hq : F.build b with ⟨w, e | o⟩
      · rw [hq] at this
        intro h
        injection h with h
        exact liftBuilderErr_grave g (fun h => this (by rw [h])) h
      · simp
  have hfeed : ∀ (cs : List (Call I)) (b : F.B), (feedB F cs b).2 ≠ .error g.fault := by
    intro cs
    induction cs with
    | nil => intro b; simp [feedB]
    | cons c cs ih =>
      intro b
      cases c with
      | newFan x y z =>
        simp only [feedB]
        have := hF.newFan b x y z
        rcases hq : F.newFan b x y z with ⟨b', e | u⟩
        · rw [hq] at this; exact this
        · exact ih b'
      | extend v =>
        simp only [feedB]
        have := hF.extendFan b v
        rcases hq : F.extendFan b v with ⟨b', e | u⟩
        · rw [hq] at this; exact this
        · exact ih b'
  have hr' : (liftInner r : Res (TriErr F.E) Unit) ≠ .error g.fault := by
    rcases r with e | u
    · intro h
      injection h with h
      exact liftInternal_grave g (fun h => hr (by rw [h])) h
    · simp [liftInner]
  have hr2 : ∀ e, r = .error e → (liftInternal e : Fault (TriErr F.E)) ≠ g.fault :=
    fun e he => liftInternal_grave g fun h => hr (by rw [he, h])
  have hnone : (Except.error (.err .noVertices) : Res (TriErr F.E) F.O) ≠ .error g.fault := by
    intro h
    injection h with h
    exact g.ne_err _ h
  rcases cs with _ | ⟨c, cs⟩
  · rcases r with e | u
    · simpa [play] using hr2 e rfl
    · exact hnone
  · cases c with
    | extend v =>
      rcases r with e | u
      · simpa [play] using hr2 e rfl
      · exact hnone
    | newFan x y z =>
      simp only [play]
      have hst := hF.start x y z
      rcases hq : F.start x y z with ⟨e, w⟩ | b
      · have := hst w
        rw [hq] at this
        intro h
        injection h with h
        exact liftBuilderErr_grave g (fun h => this (by rw [h])) h
      · have h1 := hfeed cs b
        rcases hq : feedB F cs b with ⟨b', e | u⟩
        · rw [hq] at h1
          simp only [hq]
          refine hfin b' _ ?_
          intro h
          injection h with h
          exact liftBuilderErr_grave g (fun h => h1 (by rw [h])) h
        · simp only [hq]
          exact hfin b' _ hr'

theorem mapErr_grave {ε δ α : Type} (f : ε → δ) (g : Grave) {r : Res ε α} (h : r ≠ .error g.fault) :
    Res.mapErr f r ≠ .error g.fault := by
  rcases r with (e | _ | _ | _) | a <;> cases g <;> simp_all [Res.mapErr, Grave.fault]

variable [Scalar C] [DecidableEq I]

/-- What a chain vertex is. -/
def Given (p : PolyList I V) (xy : V → Coords C) (v : I × Coords C) : Prop :=
  some (.cont v.1) ∈ p.elems ∧ (p.getVertex v.1).map xy = some v.2

theorem given_coords (p : PolyList I V) (xy : V → Coords C) (v : I × Coords C) (h : Given p xy v) :
    p.coords (ε := IErr) xy v.1 = .ok v.2 := by
  unfold PolyList.coords
  have := h.2
  cases hv : p.getVertex v.1 with
  | none => rw [hv] at this; cases this
  | some w => rw [hv] at this; simpa using this

theorem trapezoidize_given (cfg : Cfg) (fuel : Nat) (p : PolyList I V) (xy : V → Coords C) :
    Safe (WF (Given p xy)) (trapezoidize cfg fuel p xy) := by
  refine trapezoidize_safe cfg fuel p xy fun i c hi hc => ⟨hi, ?_⟩
  unfold PolyList.coords at hc
  cases hv : p.getVertex i with
  | none => rw [hv] at hc; cases hc
  | some w => rw [hv] at hc; simpa using hc

theorem square_enough {n fuel : Nat} (h : (n + 3) ^ 2 ≤ fuel) : 2 * n + 3 ≤ fuel := by
  have : (n + 3) ^ 2 = n * n + 6 * n + 9 := by
    rw [Nat.pow_two, Nat.add_mul, Nat.mul_add]; omega
  omega

theorem conts_enough (p : PolyList I V) {fuel : Nat} (h : 2 * p.elems.length + 3 ≤ fuel) :
    enough (conts p.elems) ≤ fuel := by
  have h1 := conts_le p.elems
  unfold enough
  omega

/-- A trapezoidation that ran out of steps aside, the outcome is the final one. -/
theorem trapezoidize_final (cfg : Cfg) (hcfg : cfg.Valid) (fuel : Nat) (p : PolyList I V) (xy : V → Coords C) :
    trapezoidize cfg fuel p xy = .error .timeout ∨
      Ens (Stops cfg p) (fun st => WF (Given p xy) st ∧ Tidy (conts p.elems) st) (trapezoidize cfg fuel p xy) := by
  rcases trapezoidize_fle cfg p xy (Nat.le_max_left fuel (enough (conts p.elems))) with h | h
  · exact .inl h
  · refine .inr ?_
    rw [← h]
    exact ((trapezoidize_ranked cfg hcfg p xy (Nat.le_max_right _ _)).with
      (trapezoidize_given cfg _ p xy)).imp fun st hst => ⟨hst.2, hst.1.2.1⟩

theorem inner_run_ens {w : Winding} (fuel : Nat) (p : PolyList I V) (xy : V → Coords C) {st : St I C} {N : Nat}
    (hwf : WF (Given p xy) st) (ht : Tidy N st) : Ens ErrOrOut (fun _ => True) (innerTrace w fuel p xy st).res := by
  rw [← BM.run_inner]
  have hi := inner_ens fuel p xy hwf ht (given_coords p xy)
  have hf := finishAll_ens w fuel (triangulateInnerB fuel p xy st).done
  unfold BM.run
  rcases hfa : finishAll w fuel (triangulateInnerB fuel p xy st).done with ⟨cs, e | u⟩
  · rw [hfa] at hf
    exact hf
  · rw [TrM.mk_ok_bind]
    rcases hr : (triangulateInnerB fuel p xy st).res with e | u
    · have := hi.2
      rw [hr] at this
      exact this
    · exact trivial

/-- The run over a list of chains. -/
theorem interp_chains (F : FanFormat I) (fuel : Nat) (x : BM I C Unit) :
    (let r := interp F (x.run F.winding fuel) .uninit; r.1.complete r.2) =
      chainByChain F fuel x.done x.res := by
  have h : interp F (x.run F.winding fuel) =
      (do x.done.forM (finishMonotone F.winding fuel); FanM.lift x.res : FBM F Unit) := by
    have hall : ∀ bs : List (MonoB I C), finishAll F.winding fuel bs =
        bs.forM (finishMonotone (m := TrM I) F.winding fuel) := by
      intro bs
      induction bs with
      | nil => rfl
      | cons b bs ih =>
        show (finishMonotone (m := TrM I) F.winding fuel b >>= fun _ => finishAll F.winding fuel bs) =
          (finishMonotone (m := TrM I) F.winding fuel b >>= fun _ => bs.forM (finishMonotone (m := TrM I) F.winding fuel))
        rw [ih]
    unfold BM.run
    show (interpHom F).app _ = _
    rw [(interpHom F).bind', hall, (interpHom F).forM]
    simp only [(interpHom F).finishMonotone, (interpHom F).lift']
  unfold chainByChain
  rw [h]

/-- In terms of recorded runs. -/
theorem ends_iff (w : Winding) (b : MonoB I C) :
    b.Ends w ↔ ∃ n, (finishMonotone (m := TrM I) w n b).res ≠ .error .timeout := by
  unfold MonoB.Ends
  have key : ∀ n, (finishMonotone (m := FBM (recorder I w)) w n b (.init [])).2 = .error .timeout ↔
      (finishMonotone (m := TrM I) w n b).res = .error .timeout := by
    intro n
    have := congrFun ((interpHom (recorder I w)).finishMonotone w n b) (.init [])
    rw [← this]
    show (interp (recorder I w) (finishMonotone (m := TrM I) w n b) (.init [])).2 = _ ↔ _
    rcases hT : finishMonotone (m := TrM I) w n b with ⟨cs, r⟩
    unfold interp
    rw [feed_recorder]
    rcases r with (e | _ | _ | _) | u <;> simp [liftInternal]
  constructor
  · rintro ⟨n, hn⟩
    exact ⟨n, fun h => hn ((key n).2 h)⟩
  · rintro ⟨n, hn⟩
    exact ⟨n, fun h => hn ((key n).1 h)⟩

theorem inner_fixed (p : PolyList I V) (xy : V → Coords C) (st : St I C) (k : Nat)
    (h : (triangulateInnerB k p xy st).res ≠ .error .timeout) (n : Nat) (hn : k ≤ n) :
    triangulateInnerB n p xy st = triangulateInnerB k p xy st := by
  unfold triangulateInnerB at h ⊢
  have ht : topTrapezoid st.qs k 0 ≠ .error .timeout := by
    intro h'
    rw [h'] at h
    exact h rfl
  rw [topTrapezoid_fixed _ _ _ ht n hn]
  cases hq : topTrapezoid st.qs k 0 with
  | error e => rfl
  | ok ti =>
    rw [hq, BM.lift_ok_bind] at h
    rw [BM.lift_ok_bind, BM.lift_ok_bind]
    exact triLoop_fixed p xy st k _ h n hn

/-- A trapezoidation that succeeds with enough steps succeeds with `(n + 3) ^ 2` of them, and so many are also
enough for the loops over it. -/
theorem trapezoidize_early (cfg : Cfg) (hcfg : cfg.Valid) (p : PolyList I V) (xy : V → Coords C) {N : Nat} {st : St I C}
    (h : ∀ fuel ≥ N, trapezoidize cfg fuel p xy = .ok st) (fuel : Nat) (hf : (p.elems.length + 3) ^ 2 ≤ fuel) :
    trapezoidize cfg fuel p xy = .ok st ∧ topTrapezoid st.qs fuel 0 ≠ .error .timeout ∧ st.ts.length ≤ fuel ∧
      st.ns.length ^ 2 + st.ns.length ≤ fuel := by
  have he : enough (conts p.elems) ≤ fuel := conts_enough p (square_enough hf)
  have hr := trapezoidize_ranked cfg hcfg p xy he
  have h1 : trapezoidize cfg fuel p xy = .ok st := by
    rcases trapezoidize_fle cfg p xy (Nat.le_max_left fuel N) with h' | h'
    · exact (hr.of_error h').elim
    · rw [← h', h _ (Nat.le_max_right _ _)]
  rw [h1] at hr
  obtain ⟨hw, ht, hn, hs⟩ := hr
  unfold enough at he
  refine ⟨h1, fun h' => ?_, ?_, ?_⟩
  · have := topTrapezoid_ranked (E := IsErr) (fun e => ⟨e, rfl⟩) ht.deep hw.qs fuel 0 hw.root (.inl (by omega))
    rw [h'] at this
    obtain ⟨e, he⟩ := this
    cases he
  · have := hw.size
    omega
  · have h3 := Nat.pow_le_pow_left (Nat.le_trans hn (conts_le p.elems)) 2
    have h4 : (p.elems.length + 3) ^ 2 = p.elems.length ^ 2 + 6 * p.elems.length + 9 := by
      rw [Nat.pow_two, Nat.pow_two, Nat.add_mul, Nat.mul_add]; omega
    have := conts_le p.elems
    omega

end Tri
