import Verif.Proof.Rearrange
import Verif.Proof.TouchTwin

/-!
# Rearranging polygons with touching edges
-/

set_option linter.unusedSectionVars false

namespace Tri

variable {K : Type} [Field K] [LinearOrder K] [IsStrictOrderedRing K]

theorem RightOf.rev {e : Coords K × Coords K} {v : Coords K} (h : RightOf e v) : RightOf e.swap v := by
  rcases h with h | h | ⟨h1, h2⟩
  · exact .inr (.inl h)
  · exact .inl h
  · exact .inr (.inr ⟨h1.symm, by rw [Prod.fst_swap, ← h1]; exact h2⟩)

theorem LeansOn.rev_left {f e : Coords K × Coords K} (h : LeansOn f e) : LeansOn f.swap e := fun v hv => h v hv.symm

theorem LeansOn.rev_right {f e : Coords K × Coords K} (h : LeansOn f e) : LeansOn f e.swap := fun v hv => by
  obtain ⟨h1, h2, h3⟩ := h v hv
  exact ⟨h2, h1, h3.imp RightOf.rev fun k => onSeg_swap_iff.2 k⟩

theorem TouchingPolys.perm {gs hs : List (List (Coords K))} (hv : TouchingPolys gs) (h : gs.Perm hs) : TouchingPolys hs := by
  have hm : ∀ e ∈ hs.flatMap cycleEdges, e ∈ gs.flatMap cycleEdges := fun e he =>
    (h.flatMap_right cycleEdges).mem_iff.2 he
  exact ⟨fun g hg => hv.three g (h.mem_iff.2 hg), (h.flatten).nodup_iff.1 hv.distinct,
    fun e he f hf => hv.meet e (hm e he) f (hm f hf)⟩

theorem TouchingPolys.same {hs gs : List (List (Coords K))} (hv : TouchingPolys hs) (h : List.Forall₂ SameCycle hs gs) :
    TouchingPolys gs := by
  have h3 : ∀ g ∈ gs, 3 ≤ g.length := by
    intro g hg
    obtain ⟨g', hg', hS⟩ := same_of h g hg
    rw [hS.perm.length_eq]
    exact hv.three g' hg'
  have hn : gs.flatten.Nodup := (same_perm h).nodup_iff.2 hv.distinct
  refine ⟨h3, hn, fun e he f hf hne => ?_⟩
  have key : ∀ e' f' : Coords K × Coords K, (e' = e ∨ e' = e.swap) → (f' = f ∨ f' = f.swap) → e' ∈ hs.flatMap cycleEdges →
      f' ∈ hs.flatMap cycleEdges →
      (∀ q, OnSeg e q → OnSeg f q → (q = e.1 ∨ q = e.2) ∧ (q = f.1 ∨ q = f.2)) ∨ LeansOn f e ∨ LeansOn e f := by
    intro e' f' he' hf' k1 k2
    have hne' : e' ≠ f' := by
      rcases he' with rfl | rfl <;> rcases hf' with rfl | rfl
      · exact hne
      · intro h; rw [h] at he
        exact edges_swap hn h3 hf he
      · intro h; rw [← h] at hf
        exact edges_swap hn h3 he hf
      · intro h; exact hne (Prod.swap_injective h)
    rcases hv.meet e' k1 f' k2 hne' with k | k | k
    · refine .inl fun q h1 h2 => ?_
      obtain ⟨m1, m2⟩ := k q (by rcases he' with rfl | rfl <;> simp [onSeg_swap_iff, h1])
        (by rcases hf' with rfl | rfl <;> simp [onSeg_swap_iff, h2])
      refine ⟨?_, ?_⟩
      · rcases he' with rfl | rfl
        · exact m1
        · exact m1.symm
      · rcases hf' with rfl | rfl
        · exact m2
        · exact m2.symm
    · refine .inr (.inl ?_)
      rcases he' with rfl | rfl <;> rcases hf' with rfl | rfl
      · exact k
      · simpa using k.rev_left
      · simpa using k.rev_right
      · simpa using k.rev_left.rev_right
    · refine .inr (.inr ?_)
      rcases he' with rfl | rfl <;> rcases hf' with rfl | rfl
      · exact k
      · simpa using k.rev_right
      · simpa using k.rev_left
      · simpa using k.rev_left.rev_right
  rcases same_edge h he with k1 | k1 <;> rcases same_edge h hf with k2 | k2
  · exact key _ _ (.inl rfl) (.inl rfl) k1 k2
  · exact key _ _ (.inl rfl) (.inr rfl) k1 k2
  · exact key _ _ (.inr rfl) (.inl rfl) k1 k2
  · exact key _ _ (.inr rfl) (.inr rfl) k1 k2

theorem TouchingPolys.rearranged {gs gs' : List (List (Coords K))} (hv : TouchingPolys gs) (h : Rearranged gs gs') :
    TouchingPolys gs' := by
  obtain ⟨hs, h1, h2⟩ := h
  exact (hv.perm h1).same h2

end Tri
