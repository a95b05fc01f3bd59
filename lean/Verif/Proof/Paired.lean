import Verif.Proof.ChainSum
import Verif.Proof.Logged
import Verif.Proof.Traverse

/-!
# Runs with the two windings side by side
-/

set_option linter.unusedSectionVars false

namespace Tri

variable {I V C : Type} [Scalar C]

theorem finish_pair (fuel : Nat) (b : MonoB I C) :
    ∃ (fs : List (Bool × FanRec (I × Coords C))) (r : Res IErr Unit), (∀ f ∈ fs, 2 ≤ f.2.outer.length) ∧
      ∀ w, finishMonotone (m := TrM I) w fuel b =
        ⟨fs.flatMap fun f => fanCalls ((fanOf w f.1 f.2.bt f.2.root f.2.outer).map Prod.fst), r⟩ := by
  unfold finishMonotone
  rcases hb : b.build with e | M | M
  · exact ⟨[], .error e, by simp, fun _ => rfl⟩
  · exact ⟨[], .ok (), by simp, fun _ => rfl⟩
  · obtain ⟨fs, L', h1, h2, -, h4⟩ := chain_run b M hb fuel
    have h5 : ∃ r, ∀ w, (Mono.buildFans (m := TrM I) w fuel M).res = r := by
      rcases h4 with h | ⟨h, -⟩
      · exact ⟨_, h⟩
      · exact ⟨_, h⟩
    obtain ⟨r, h5⟩ := h5
    refine ⟨fs.map fun f => (M.isLeftChain, f), r, ?_, fun w => ?_⟩
    · simpa using h1
    · show (⟨[], .ok (some M)⟩ : TrM I _) >>= _ = _
      rw [TrM.pure_bind']
      have h6 := h2 w
      have h7 := h5 w
      simp only []
      rcases hT : Mono.buildFans (m := TrM I) w fuel M with ⟨cs, r'⟩
      rw [hT] at h6 h7
      simp only at h6 h7
      rw [h6, h7, List.flatMap_map, List.flatMap_map]

theorem finishAll_pair (fuel : Nat) (bs : List (MonoB I C)) :
    ∃ (fs : List (Bool × FanRec (I × Coords C))) (r : Res IErr Unit), (∀ f ∈ fs, 2 ≤ f.2.outer.length) ∧
      ∀ w, finishAll w fuel bs =
        ⟨fs.flatMap fun f => fanCalls ((fanOf w f.1 f.2.bt f.2.root f.2.outer).map Prod.fst), r⟩ := by
  induction bs with
  | nil => exact ⟨[], .ok (), by simp, fun _ => rfl⟩
  | cons b bs ih =>
    obtain ⟨f1, r1, h1, h2⟩ := finish_pair fuel b
    obtain ⟨f2, r2, h3, h4⟩ := ih
    rcases r1 with e | u
    · refine ⟨f1, .error e, h1, fun w => ?_⟩
      show finishMonotone w fuel b >>= _ = _
      rw [h2 w]; rfl
    · refine ⟨f1 ++ f2, r2, ?_, fun w => ?_⟩
      · intro f hf
        rcases List.mem_append.1 hf with h | h
        · exact h1 f h
        · exact h3 f h
      · show finishMonotone w fuel b >>= (fun _ => finishAll w fuel bs) = _
        rw [h2 w, h4 w, List.flatMap_append]; rfl

theorem inner_pair (fuel : Nat) (p : PolyList I V) (xy : V → Coords C) (st : St I C) :
    ∃ (fs : List (Bool × FanRec (I × Coords C))) (r : Res IErr Unit), (∀ f ∈ fs, 2 ≤ f.2.outer.length) ∧
      ∀ w, innerTrace w fuel p xy st =
        ⟨fs.flatMap fun f => fanCalls ((fanOf w f.1 f.2.bt f.2.root f.2.outer).map Prod.fst), r⟩ := by
  rcases hB : triangulateInnerB fuel p xy st with ⟨bs, r0⟩
  obtain ⟨fs, r, h1, h2⟩ := finishAll_pair fuel bs
  rcases r with e | u
  · refine ⟨fs, .error e, h1, fun w => ?_⟩
    rw [← BM.run_inner, hB]
    show finishAll w fuel bs >>= _ = _
    rw [h2 w]; rfl
  · refine ⟨fs, r0, h1, fun w => ?_⟩
    rw [← BM.run_inner, hB]
    show finishAll w fuel bs >>= _ = _
    rw [h2 w]
    cases r0 <;> exact congrArg (fun l => (⟨l, _⟩ : TrM I Unit)) (List.append_nil _)

end Tri
