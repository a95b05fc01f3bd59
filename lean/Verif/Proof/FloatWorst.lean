import Verif.Proof.CostSim2
import Verif.Model.DebugCost

/-!
# The search structure depends on the coordinates only through the answers
-/

namespace Tri

variable {I J V W C D : Type} [Scalar C] [Scalar D] {RI : I → J → Prop} {RC : Coords C → Coords D → Prop}

omit [Scalar C] [Scalar D] in
/-- Related states are checked with the same number of visits. -/
theorem checkQueryC_rel {st : St I C} {st' : St J D} (h : StRel RI RC st st') (fuel qi : Nat) :
    st'.checkQueryC fuel qi = st.checkQueryC fuel qi := by
  induction fuel generalizing qi with
  | zero => rfl
  | succ n ih =>
    unfold St.checkQueryC
    have hq := RelR.getU (ε := Empty) h.qs qi
    unfold getU at hq ⊢
    rw [h.ts]
    cases h1 : st.qs[qi]? <;> cases h2 : st'.qs[qi]? <;> rw [h1, h2] at hq
    · rfl
    · exact hq.elim
    · exact hq.elim
    · rename_i a b
      rcases a with ⟨l, r, x⟩ | t <;> rcases b with ⟨l', r', y⟩ | t'
      · obtain ⟨rfl, rfl, -⟩ := hq
        simp only [bind, Except.bind, ih]
      · exact hq.elim
      · exact hq.elim
      · cases (show t = t' from hq)
        rfl

/-- Two inputs with the same answers give search structures of the same size, with the same number of visits in their check. -/
theorem structure_answers [DecidableEq I] (cfg : Cfg) (fuel : Nat) (p : PolyList I V)
    (xy : V → Coords C) (p' : PolyList I W) (xy' : W → Coords D) (he : p'.elems = p.elems)
    (ha : SameAnswers (fun i => (p.getVertex i).map xy) (fun i => (p'.getVertex i).map xy')) :
    RelR (fun st st' => st'.qs.length = st.qs.length ∧ st'.ts = st.ts ∧ ∀ fuel qi, st'.checkQueryC fuel qi = st.checkQueryC fuel qi)
      (trapezoidize cfg fuel p xy) (trapezoidize cfg fuel p' xy') := by
  have hC : RespC (fun (a : Coords C) (b : Coords D) => ∃ i, (p.getVertex i).map xy = some a ∧
      (p'.getVertex i).map xy' = some b) := by
    constructor
    · rintro a a' b b' ⟨i, h1, h2⟩ ⟨j, h3, h4⟩
      exact ha.cmp _ _ _ _ _ _ h1 h3 h2 h4
    · rintro a a' b b' c c' ⟨i, h1, h2⟩ ⟨j, h3, h4⟩ ⟨k, h5, h6⟩
      exact ha.side _ _ _ _ _ _ _ _ _ h1 h3 h5 h2 h4 h6
    · rintro a a' b b' ⟨i, h1, h2⟩ ⟨j, h3, h4⟩
      exact ha.eqX _ _ _ _ _ _ h1 h3 h2 h4
    · rintro a a' b b' ⟨i, h1, h2⟩ ⟨j, h3, h4⟩
      exact ha.eqY _ _ _ _ _ _ h1 h3 h2 h4
  have hp : PolyRel (fun i j : I => i = j) (fun (a : Coords C) (b : Coords D) => ∃ i, (p.getVertex i).map xy = some a ∧
      (p'.getVertex i).map xy' = some b) p xy p' xy' := by
    refine ⟨?_⟩
    rintro i _ rfl ε
    have hd := ha.defined i
    unfold PolyList.coords
    cases h1 : p.getVertex i <;> cases h2 : p'.getVertex i <;> rw [h1, h2] at hd
    · exact rfl
    · cases hd
    · cases hd
    · exact ⟨i, by rw [h1]; rfl, by rw [h2]; rfl⟩
  have hI : RespI (fun i j : I => i = j) := by
    rintro i _ j _ rfl rfl
    exact Iff.rfl
  refine RelR.imp (trapezoidize_rel hC hI cfg fuel hp ?_) fun r r' hr =>
    ⟨hr.qs.length_eq.symm, hr.ts.symm, checkQueryC_rel hr⟩
  rw [he]
  refine List.forall₂_same.2 fun e _ => ?_
  rcases e with _ | i | _
  · exact trivial
  · exact rfl
  · exact trivial

end Tri
