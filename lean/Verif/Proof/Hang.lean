import Verif.Proof.Ending

/-!
# Runs that do not end because of their only chain
-/

namespace Tri

variable {I V C : Type} [Scalar C] [DecidableEq I] [DecidableEq C]

/-- The trapezoidation ends within `N` steps and the descent within `M` steps, with the only chain `b`; with less
steps than `M`, nothing is handed over either. -/
def hangCheck (cfg : Cfg) (p : PolyList I V) (xy : V → Coords C) (N M : Nat) (b : MonoB I C) : Bool :=
  match trapezoidize cfg N p xy with
  | .ok st =>
    decide ((triangulateInnerB M p xy st).done = [b]) && (triangulateInnerB M p xy st).res.isOk &&
      (List.range M).all fun fuel => [Winding.clockwise, .counterclockwise].all fun w =>
        (innerTrace w fuel p xy st).calls.isEmpty &&
          (match (innerTrace w fuel p xy st).res with | .error .timeout => true | _ => false)
  | .error _ => false

theorem run_hangs {cfg : Cfg} {p : PolyList I V} {xy : V → Coords C} {N M : Nat} {b : MonoB I C}
    (h : hangCheck cfg p xy N M b = true)
    (hb : ∀ w k, finishMonotone (m := TrM I) w k b = ⟨[], .error .timeout⟩) (F : FanFormat I) (fuel : Nat) :
    triangulate cfg fuel p xy F = (F.unused, .error .timeout) := by
  unfold hangCheck at h
  rcases hT : trapezoidize cfg N p xy with e | st
  · rw [hT] at h
    cases h
  · rw [hT] at h
    simp only [Bool.and_eq_true, decide_eq_true_eq] at h
    obtain ⟨⟨h1, h2⟩, h3⟩ := h
    have hB : triangulateInnerB M p xy st = ⟨[b], .ok ()⟩ := by
      rcases hq : triangulateInnerB M p xy st with ⟨bs, e | u⟩
      · rw [hq] at h2
        cases h2
      · rw [hq] at h1
        simp only at h1
        rw [h1]
    have hw : ∀ w, innerTrace w fuel p xy st = ⟨[], .error .timeout⟩ := by
      intro w
      by_cases hf : M ≤ fuel
      · rw [← BM.run_inner, inner_fixed _ _ _ M (by rw [hB]; simp) fuel hf, hB]
        show ((finishMonotone (m := TrM I) w fuel b >>= fun _ => (⟨[], .ok ()⟩ : TrM I Unit)) >>=
          fun _ => FanM.lift (.ok ())) = _
        rw [hb]
        rfl
      · rw [List.all_eq_true] at h3
        have h := h3 fuel (by simpa using hf)
        rw [List.all_eq_true] at h
        have h := h w (by cases w <;> simp)
        rw [Bool.and_eq_true] at h
        rcases hq : innerTrace w fuel p xy st with ⟨cs, r⟩
        rw [hq] at h
        obtain ⟨h3, h4⟩ := h
        simp only [List.isEmpty_iff] at h3 h4
        subst h3
        split at h4
        · rfl
        · cases h4
    have hst : trapezoidize cfg fuel p xy = .error .timeout ∨ trapezoidize cfg fuel p xy = .ok st := by
      rcases trapezoidize_fle cfg p xy (Nat.le_max_left fuel N) with h | h
      · exact .inl h
      · refine .inr ?_
        rw [← h]
        rcases trapezoidize_fle cfg p xy (Nat.le_max_right fuel N) with h | h
        · rw [hT] at h
          cases h
        · rw [h, hT]
    unfold triangulate
    rcases hst with h | h
    · rw [h]
      rfl
    · rw [h]
      show st.triangulate fuel _ xy F = _
      rw [triangulate_eq_play, hw]
      rfl

end Tri
