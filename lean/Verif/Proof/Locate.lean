import Verif.Proof.ValidPlane
import Verif.Proof.Schedule
import Verif.Spec.Trapezoids

/-!
# Regions of the invariant and trapezoids of the specification
-/

set_option linter.unusedSectionVars false

namespace Tri

variable {I V K : Type} [Field K] [LinearOrder K] [IsStrictOrderedRing K] [DecidableEq I]

attribute [local instance] exact

theorem orient_Xh_neg {ε : K} {e : Coords K × Coords K} (hlt : ht ε e.1 < ht ε e.2) (c : Coords K) :
    orient e.1 e.2 c < 0 ↔ Xh ε e (ht ε c) < c.x := by
  rw [orient_ht ε]
  have hd : 0 < ht ε e.2 - ht ε e.1 := by linarith
  have e1 : (ht ε c - ht ε e.1) / (ht ε e.2 - ht ε e.1) * (ht ε e.2 - ht ε e.1) = ht ε c - ht ε e.1 :=
    div_mul_cancel₀ _ hd.ne'
  unfold Xh
  generalize (ht ε c - ht ε e.1) / (ht ε e.2 - ht ε e.1) = t at e1 ⊢
  rw [← e1]
  have e2 : (e.2.x - e.1.x) * (t * (ht ε e.2 - ht ε e.1)) - (ht ε e.2 - ht ε e.1) * (c.x - e.1.x) =
      -((ht ε e.2 - ht ε e.1) * (c.x - (e.1.x + t * (e.2.x - e.1.x)))) := by ring
  rw [e2, neg_lt_zero, mul_pos_iff_of_pos_left hd, sub_pos]

/-- A region is what the trapezoid contains. -/
theorem region_iff {P : Plane K} {A : Abs K} {st : St I K} {iu : Nat → List Nat} {op ex : Nat → Prop} (hI : Inv P A)
    (hL : Link st A iu op ex) {ε : K} (hh : P.h = ht ε) (hX : P.X = fun e v => Xh ε e (ht ε v)) {i : Nat} {t : Trapezoid}
    (ht' : st.ts[i]? = some t) {q : Coords K} (hq : P.U q) : Region P A i q ↔ Contains st t q := by
  have hi := hL.lt_M ht'
  have hT := hL.tr i t ht'
  have e1 : (A.T i).down = t.down := by rw [hT]
  have e2 : (A.T i).up = t.up := by rw [hT]
  have e3 : (A.T i).left = t.left := by rw [hT]
  have e4 : (A.T i).right = t.right := by rw [hT]
  have hE : ∀ s, s < A.S → ht ε (A.sg s).1 < ht ε (A.sg s).2 := by
    intro s hs; have := P.E_lt (hI.sE s hs); rw [hh] at this; exact this
  have hseg : ∀ (s : Nat), s < A.S → ∃ sg, st.ss[s]? = some sg ∧ sg.cMin = (A.sg s).1 ∧ sg.cMax = (A.sg s).2 := by
    intro s hs
    obtain ⟨sg, h⟩ := hL.ss_get hs
    have := (hL.seg s sg h).1
    exact ⟨sg, h, by rw [← this], by rw [← this]⟩
  have hnx : ∀ (n : Nat), n < A.N → ∃ nx, st.ns[n]? = some nx ∧ nx.c = A.c n := by
    intro n hn
    obtain ⟨nx, h⟩ := hL.ns_get hn
    exact ⟨nx, h, (hL.nex n nx h).c⟩
  constructor
  · intro h
    refine ⟨fun d hd => ?_, fun u hu => ?_, fun l hl => ?_, fun r hr => ?_⟩
    · rw [← e1] at hd
      obtain ⟨hN, -⟩ := hI.downM i hi d hd
      obtain ⟨nx, h1, h2⟩ := hnx d hN
      refine ⟨nx, h1, ?_⟩
      rw [h2, P.h_lt (hI.cU d hN) hq]; exact h.down d hd
    · rw [← e2] at hu
      obtain ⟨hN, -⟩ := hI.upM i hi u hu
      obtain ⟨nx, h1, h2⟩ := hnx u hN
      refine ⟨nx, h1, ?_⟩
      rw [h2, P.h_lt hq (hI.cU u hN)]; exact h.up u hu
    · rw [← e3] at hl
      have hS := hI.leftS i hi l hl
      obtain ⟨sg, h1, h2, h3⟩ := hseg l hS
      refine ⟨sg, h1, ?_⟩
      rw [h2, h3, orient_Xh_neg (hE l hS)]
      have := h.left l hl
      rw [hX] at this; exact this
    · rw [← e4] at hr
      have hS := hI.rightS i hi r hr
      obtain ⟨sg, h1, h2, h3⟩ := hseg r hS
      refine ⟨sg, h1, ?_⟩
      rw [h2, h3, orient_Xh (hE r hS)]
      have := h.right r hr
      rw [hX] at this; exact this
  · intro h
    refine ⟨fun d hd => ?_, fun u hu => ?_, fun l hl => ?_, fun r hr => ?_⟩
    · obtain ⟨hN, -⟩ := hI.downM i hi d hd
      obtain ⟨nx, h1, h2⟩ := hnx d hN
      rw [e1] at hd
      obtain ⟨nx', h3, h4⟩ := h.above d hd
      rw [h1] at h3; cases h3
      rw [← P.h_lt (hI.cU d hN) hq, ← h2]; exact h4
    · obtain ⟨hN, -⟩ := hI.upM i hi u hu
      obtain ⟨nx, h1, h2⟩ := hnx u hN
      rw [e2] at hu
      obtain ⟨nx', h3, h4⟩ := h.beneath u hu
      rw [h1] at h3; cases h3
      rw [← P.h_lt hq (hI.cU u hN), ← h2]; exact h4
    · have hS := hI.leftS i hi l hl
      obtain ⟨sg, h1, h2, h3⟩ := hseg l hS
      rw [e3] at hl
      obtain ⟨sg', h4, h5⟩ := h.right_of l hl
      rw [h1] at h4; cases h4
      rw [h2, h3, orient_Xh_neg (hE l hS)] at h5
      rw [hX]; exact h5
    · have hS := hI.rightS i hi r hr
      obtain ⟨sg, h1, h2, h3⟩ := hseg r hS
      rw [e4] at hr
      obtain ⟨sg', h4, h5⟩ := h.left_of r hr
      rw [h1] at h4; cases h4
      rw [h2, h3, orient_Xh (hE r hS)] at h5
      rw [hX]; exact h5

end Tri
