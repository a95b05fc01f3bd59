import Verif.Proof.Match
import Verif.Proof.Visit
import Verif.Proof.Rename

/-!
# Runs over two trapezoidations of the same vertices and edges

The traversal does the same in both, apart from the numbers of the trapezoids, segments and vertices.
-/

set_option linter.unusedSectionVars false

namespace Tri

variable {I J V V' K : Type} [Field K] [LinearOrder K] [IsStrictOrderedRing K]

attribute [local instance] exact

variable {P : Plane K} {p : PolyList I V} {xy : V → Coords K} {A : Abs K} {st : St I K} {key : Nat → I × Coords K}
  {lab sgn : Nat → Bool} {p' : PolyList J V'} {xy' : V' → Coords K} {A' : Abs K} {st' : St J K} {key' : Nat → J × Coords K}
  {lab' sgn' : Nat → Bool} {RI : I → J → Prop}

theorem Twin.tr_iff (T : Twin P A A') {i i' j j' : Nat} (h : TR A A' i i') (h' : TR A A' j j') : i = j ↔ i' = j' := by
  constructor
  · rintro rfl; exact T.uniq h h'
  · rintro rfl; exact T.symm.uniq h.symm h'.symm

section
variable (T : Twin P A A') (D : Dfs P p xy A st key lab sgn) (D' : Dfs P p' xy' A' st' key' lab' sgn')
  (hRI : ∀ n n', VN A A' n n' → RI (key n).1 (key' n').1)
include T D D'

theorem twin_ts {i i' : Nat} (h : TR A A' i i') : RelR (ε := IErr) (TzM (VN A A') (SG A A')) (getP st.ts i) (getP st'.ts i') := by
  obtain ⟨t, h1, h2⟩ := D.ts i h.lt
  obtain ⟨t', h1', h2'⟩ := D'.ts i' h.lt'
  simp only [getP, h1, h1']
  have hd := T.down h
  obtain ⟨-, -, hu, hl, hr⟩ := h
  rw [h2, h2'] at hd hu hl hr
  exact ⟨hl, hr, hu, hd⟩

theorem twin_ss {i i' : Nat} (h : SG A A' i i') : RelR (ε := IErr) (SeM (VN A A')) (getP st.ss i) (getP st'.ss i') := by
  obtain ⟨t, h1, h2, h3⟩ := D.ss i h.lt
  obtain ⟨t', h1', h2', h3'⟩ := D'.ss i' h.lt'
  simp only [getP, h1, h1']
  exact ⟨by rw [h2, h2']; exact h.mn T.W T.W', by rw [h3, h3']; exact h.mx T.W T.W'⟩

include hRI in
theorem twin_ns {i i' : Nat} (h : VN A A' i i') : RelR (ε := IErr) (NxM (TR A A') RI Eq p xy p' xy') (getP st.ns i) (getP st'.ns i') := by
  obtain ⟨t, h1, h2, h3, h4, h5, h6⟩ := D.ns i h.lt
  obtain ⟨t', h1', h2', h3', h4', h5', h6'⟩ := D'.ns i' h.lt'
  simp only [getP, h1, h1']
  refine ⟨by rw [h2, h2']; exact hRI _ _ h, by rw [h3, h3', D.keyc i h.lt, D'.keyc i' h.lt', h.c], ?_, ?_⟩
  swap
  · rw [h2, h2', D.src i h.lt, D'.src i' h.lt']
    show (key i).2 = (key' i').2
    rw [D.keyc i h.lt, D'.keyc i' h.lt', h.c]
  obtain ⟨r1, r2⟩ := T.rows h
  rcases T.W.kind i h.lt with ⟨u, dl, dc, dr, s0, s1, k⟩ | ⟨ul, ur, dl, dr, s0, s1, k⟩ | ⟨ul, uc, ur, d, s0, s1, k⟩ <;>
  rcases T.W'.kind i' h.lt' with ⟨u', dl', dc', dr', s0', s1', k'⟩ | ⟨ul', ur', dl', dr', s0', s1', k'⟩ |
    ⟨ul', uc', ur', d', s0', s1', k'⟩ <;>
  rw [k.ups, k'.ups] at r1 <;> rw [k.downs, k'.downs] at r2 <;>
  simp only [List.forall₂_cons, List.forall₂_nil_left_iff, List.forall₂_nil_right_iff, and_true, and_false, reduceCtorEq] at r1 r2
  · exact ⟨_, _, h4 _ _ _ _ _ _ k, h4' _ _ _ _ _ _ k', .A r1 r2.1 r2.2.1 r2.2.2⟩
  · exact ⟨_, _, h5 _ _ _ _ _ _ k, h5' _ _ _ _ _ _ k', .I r1.1 r1.2 r2.1 r2.2⟩
  · exact ⟨_, _, h6 _ _ _ _ _ _ k, h6' _ _ _ _ _ _ k', .V r1.1 r1.2.1 r1.2.2 r2⟩

include hRI

/-- The two trapezoidations have the same shape. -/
theorem twin_match (hq : Qry st.qs st.ts A) (hL : st.ts.length = A.M) (hq' : Qry st'.qs st'.ts A') (hL' : st'.ts.length = A'.M) :
    Match (TR A A') (VN A A') (SG A A') RI Eq p xy st p' xy' st' := by
  obtain ⟨top, htop, hup⟩ := hq.top
  obtain ⟨top', htop', hup'⟩ := hq'.top
  have hM : top < A.M := by
    obtain ⟨q, hq1⟩ := htop.sink_at
    obtain ⟨t, ht, -⟩ := hq.snk' q top hq1
    rw [← hL]; exact lt_of_get ht
  have hM' : top' < A'.M := by
    obtain ⟨q, hq1⟩ := htop'.sink_at
    obtain ⟨t, ht, -⟩ := hq'.snk' q top' hq1
    rw [← hL']; exact lt_of_get ht
  obtain ⟨e1, e2⟩ := D.whole.up_none hM hup
  obtain ⟨e1', e2'⟩ := D'.whole.up_none hM' hup'
  have htr : TR A A' top top' := ⟨hM, hM', by rw [hup, hup']; trivial, by rw [e1, e1']; trivial, by rw [e2, e2']; trivial⟩
  obtain ⟨N, hN⟩ := htop.trapezoid
  obtain ⟨N', hN'⟩ := htop'.trapezoid
  exact
    { t_iff := T.tr_iff
      n_iff := fun h h' => h.eq_iff T.W.inv T.W'.inv h'
      ts := twin_ts T D D'
      ss := twin_ss T D D'
      ns := twin_ns T D D' hRI
      top := ⟨top, top', max N N', htr, fun fuel hf =>
        ⟨hN fuel (le_trans (le_max_left _ _) hf), hN' fuel (le_trans (le_max_right _ _) hf)⟩⟩ }

end

end Tri
