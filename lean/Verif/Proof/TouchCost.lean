import Verif.Proof.CostValid
import Verif.Proof.TouchRun

/-!
# The cost of the triangulation step where edges are touched

As in `Verif.Proof.CostValid`; a chain without triangles is also paid for.
-/

set_option linter.unusedSectionVars false

namespace Tri

variable {I V K : Type} [Field K] [LinearOrder K] [IsStrictOrderedRing K]

attribute [local instance] exact

variable {P : Plane K} {p : PolyList I V} {xy : V → Coords K} {A : Abs K} {st : St I K} {key : Nat → I × Coords K}
  {lab sgn : Nat → Bool}

/-- The traversal visits each trapezoid at most once, and its chains have no more than `3 n + 2` inner vertices. -/
theorem Dfs.walk_wide (D : Dfs P p xy A st key lab sgn) (hqry : Qry st.qs st.ts A) (htsL : st.ts.length = A.M) :
    ∃ (top : Nat) (fin : List (Nat × List Nat)), Top st.qs 0 top ∧
      (∀ fuel ≥ A.M, triLoopB p xy st fuel ⟨top, none, [], []⟩ = ⟨fin.map (toB key A), .ok ()⟩) ∧
      (∀ f ∈ fin, FinOK P A sgn f) ∧ (fin.map fun c => c.2.length - 1).sum + A.S ≤ 2 * A.M := by
  obtain ⟨top, htop, hup⟩ := hqry.top
  have hM : top < A.M := by
    obtain ⟨q, hq⟩ := htop.sink_at
    obtain ⟨t, ht, -⟩ := hqry.snk' q top hq
    rw [← htsL]; exact lt_of_get ht
  obtain ⟨e1, e2⟩ := D.whole.up_none hM hup
  have R : Run P A key lab sgn top ⟨top, none, [], []⟩ ⟨top, [], []⟩ [] [] [] [] :=
    { cur := .mkOut hM (D.labs.top top hM hup)
      rest := .nil
      stk := rfl
      rowL := e1
      rowR := e2
      ent := by simp
      fins := by simp
      pot := fun G _ g β _ => by simp [finW, PG.wt] }
  obtain ⟨fin, h1, h2, h3⟩ := D.loop ⟨hM, hup⟩ A.M (by simp) R (by simp)
  have hfin : ∀ f ∈ fin, FinOK P A sgn f := by simpa using h2
  refine ⟨top, fin, htop, fun fuel hf => h1 fuel (by simpa using hf), hfin, ?_⟩
  have h4 := h3 Int (fun _ _ _ => 1) (fun _ => -1) (by intro s _; rfl)
  rw [D.vis_sum] at h4
  have e1 : ∀ l : List (Nat × List Nat), (∀ c ∈ l, FinOK P A sgn c) →
      finW (fun _ _ _ => (1 : Int)) (fun _ => -1) A sgn l = (((l.map fun c => c.2.length - 1).sum : Nat) : Int) := by
    intro l hl
    induction l with
    | nil => rfl
    | cons c l ih =>
      have e2 : finW (fun _ _ _ => (1 : Int)) (fun _ => -1) A sgn (c :: l) =
          (-1 + wt (fun _ _ _ => (1 : Int)) A sgn c.1 c.2) + finW (fun _ _ _ => (1 : Int)) (fun _ => -1) A sgn l := by
        simp [finW]
      rw [e2, ih fun c hc => hl c (by simp [hc]), List.map_cons, List.sum_cons]
      have e3 : wt (fun _ _ _ => (1 : Int)) A sgn c.1 c.2 = c.2.length := by
        unfold wt esum
        simp [pairs_length]
      have := (hl c (by simp)).len
      rw [e3]; push_cast; omega
  rw [List.nil_append, e1 fin hfin] at h4
  simp only [List.map_const', List.sum_replicate, List.length_range, nsmul_eq_mul] at h4
  have h5 : ((List.range A.M).filter lab).length ≤ A.M := (List.length_filter_le _ _).trans (by simp)
  push_cast at h4
  omega

/-- A finished chain with `t` inner vertices takes at most `t ^ 2 + 14 t` steps. -/
theorem Dfs.chain_cost_wide (D : Dfs P p xy A st key lab sgn) {c : Nat × List Nat} (hf : FinOK P A sgn c) (w : Winding) (fuel : Nat)
    (hfu : A.N ^ 2 + A.N ≤ fuel) :
    (finishMonotoneC (TrE.tick (I := I)) w fuel (toB key A c)).res = .ok () ∧
      (finishMonotoneC (TrE.tick (I := I)) w fuel (toB key A c)).len ≤ (c.2.length - 1) ^ 2 + 14 * (c.2.length - 1) := by
  obtain ⟨inner, e, hne, hm⟩ := D.wide hf
  have hI := D.whole.inv
  obtain ⟨s, ns⟩ := c
  simp only at e hm
  subst e
  have hS : s < A.S := hf.S
  have hN : ∀ v ∈ A.mx s :: (inner ++ [A.mn s]), v < A.N := by
    intro v hv
    rcases List.mem_cons.1 hv with rfl | hv
    · exact (hI.mxN s hS).1
    · exact (hf.ch.side v hv).1
  have hpos : 1 ≤ inner.length := List.length_pos_iff.2 hne
  have elen : (inner ++ [A.mn s]).length - 1 = inner.length := by simp
  simp only [elen]
  have hb := toB_wide (key := key) (A := A) (s := s) (inner := inner)
  cases hdxy : (chn key (A.mx s) (inner ++ [A.mn s])).diffX && (chn key (A.mx s) (inner ++ [A.mn s])).diffY with
  | false =>
    have hfin : finishMonotone (m := TrM I) w 0 (toB key A (s, inner ++ [A.mn s])) = ⟨[], .ok ()⟩ := by
      rw [hb]
      obtain ⟨v, l, rfl⟩ := List.exists_cons_of_ne_nil hne
      generalize (chn key (A.mx s) (v :: l ++ [A.mn s])).diffX = dx at hdxy ⊢
      generalize (chn key (A.mx s) (v :: l ++ [A.mn s])).diffY = dy at hdxy ⊢
      have hbuild : (MonoB.mk (key (A.mx s)) ((v :: l).map key ++ [key (A.mn s)]) dx dy).build = .ok none := by
        cases l <;> simp [MonoB.build] <;> simpa using hdxy
      unfold finishMonotone
      rw [hbuild]
      rfl
    have h5 := finishMonotoneC_len w 0 fuel (Nat.zero_le _) _ (by rw [hfin])
    rw [hfin] at h5
    refine ⟨h5.1, h5.2.trans ?_⟩
    simp
  | true =>
  obtain ⟨hdx, hdy⟩ := Bool.and_eq_true_iff.1 hdxy
  rw [hdx, hdy] at hb
  obtain ⟨fs, h1, h2, -⟩ := wide_emit _ _ _ _ hm (by simpa using hne)
  have hlen : inner.length + 2 ≤ A.N := by
    have hdown : (A.mx s :: (inner ++ [A.mn s])).Pairwise fun a b => below (key b).2 (key a).2 := by
      have := hm.down
      have e : (key (A.mx s)).2 :: (inner.map key).map Prod.snd ++ [(key (A.mn s)).2] =
          (A.mx s :: (inner ++ [A.mn s])).map fun v => (key v).2 := by simp
      rw [e, List.pairwise_map] at this
      exact this
    have hnd : (A.mx s :: (inner ++ [A.mn s])).Nodup := hdown.imp fun h e => by
      subst e
      rcases h with h | h
      · exact lt_irrefl _ h
      · exact lt_irrefl _ h.2
    have := (hnd.subperm (l₂ := List.range A.N) fun v hv => List.mem_range.2 (hN v hv)).length_le
    simpa using this
  have hfu' : (inner.length + 2) ^ 2 + (inner.length + 2) ≤ fuel := by
    have := Nat.pow_le_pow_left hlen 2
    omega
  have hcalls : ∀ w, (callsR w fs).length = inner.length := fun w => by
    rw [callsR_length fs h2.two, h2.len]; simp
  simp only [List.length_map] at h1
  have h4 := h1 w _ (le_refl _)
  have h5 := finishMonotoneC_len w _ fuel hfu' _ (by rw [h4])
  rw [h4] at h5
  rw [hb]
  refine ⟨h5.1, h5.2.trans ?_⟩
  simp only [hcalls]
  nlinarith

/-- The cost of all chains. -/
theorem Dfs.chains_cost_wide (D : Dfs P p xy A st key lab sgn)
    (fin : List (Nat × List Nat)) (hf : ∀ c ∈ fin, FinOK P A sgn c) (w : Winding) (fuel : Nat)
    (hfu : A.N ^ 2 + A.N ≤ fuel) :
    (∀ b ∈ fin.map (toB key A), (finishMonotoneC (TrE.tick (I := I)) w fuel b).res = .ok ()) ∧
      chainsLen w fuel (fin.map (toB key A)) ≤
        (fin.map fun c => c.2.length - 1).sum ^ 2 + 14 * (fin.map fun c => c.2.length - 1).sum := by
  induction fin with
  | nil => exact ⟨by simp, by simp [chainsLen]⟩
  | cons c fin ih =>
    obtain ⟨h4, h5⟩ := D.chain_cost_wide (hf c (by simp)) w fuel hfu
    obtain ⟨k4, k5⟩ := ih fun c hc => hf c (by simp [hc])
    refine ⟨?_, ?_⟩
    · intro b hb
      rcases List.mem_cons.1 hb with rfl | hb
      · exact h4
      · exact k4 b hb
    · have : chainsLen w fuel ((c :: fin).map (toB key A)) =
          (finishMonotoneC (TrE.tick (I := I)) w fuel (toB key A c)).len + chainsLen w fuel (fin.map (toB key A)) := by
        simp [chainsLen]
      rw [this, List.map_cons, List.sum_cons]
      nlinarith

variable [DecidableEq I] {gs : List (List (I × Coords K))}

/-- The cost of a run of the triangulation step where edges are touched. -/
theorem run_cost_wide (hd : Describes p xy gs) (hv : TouchingPolys (gs.map (List.map Prod.snd))) (hne : gs ≠ []) (cfg : Cfg)
    (hcfg : cfg.Valid) (w : Winding) :
    ∃ st, ∀ fuel ≥ (p.elems.length + 3) ^ 2, trapezoidize cfg fuel p xy = .ok st ∧
      ∀ a ≤ fuel, topTrapezoid st.qs a 0 ≠ .error .timeout →
        ∃ t, t + st.ss.length ≤ 2 * st.ts.length ∧ (innerEvents w fuel p xy st).len ≤ a + st.ts.length + (t ^ 2 + 14 * t) := by
  classical
  obtain ⟨w', hw1, hw2⟩ := exists_sky (gs.map (List.map Prod.snd))
  obtain ⟨P, hctx, hU, hE, ε, hε, hh⟩ := exists_touchCtx hd hv (ghosts := [w']) (by
    intro x hx
    rw [List.mem_singleton] at hx; subst hx; exact hw1)
  obtain ⟨N, A, st, hr, hall⟩ := trapezoidize_run hctx cfg.order cfg.mathN hcfg
  have hG := hall.glob
  have hI := hG.inv
  have hwU : P.U w' := (hU w').2 (.inr (by simp))
  have hsky : Sky P A := by
    refine ⟨w', hwU, fun n hn => ?_⟩
    refine (P.h_lt (hI.cU n hn) hwU).1 (.inl ?_)
    obtain ⟨g, hg, v, hv', h⟩ := hall.cs n hn
    rw [h]
    exact hw2 _ (List.mem_flatten.2 ⟨_, List.mem_map.2 ⟨g, hg, rfl⟩, List.mem_map.2 ⟨v, hv', rfl⟩⟩)
  obtain ⟨key, lab, sgn, D, hkey⟩ := hall.dfs hctx.poly hsky hne
  have htsL : st.ts.length = A.M := hG.link.tsL
  obtain ⟨top, fin, htop, hloop, hfin, hsize⟩ := D.walk_wide hG.qry htsL
  refine ⟨st, fun fuel hf => ?_⟩
  obtain ⟨h1, h1', h1'', h1'''⟩ := trapezoidize_early cfg hcfg p xy (fun fuel hf => hr cfg rfl rfl fuel hf) fuel hf
  rw [htsL] at h1''
  rw [hG.link.nsL] at h1'''
  obtain ⟨k3, k4⟩ := D.chains_cost_wide fin hfin w fuel h1'''
  refine ⟨h1, fun a ha hta => ⟨_, by rw [htsL, hG.link.ssL]; exact hsize, ?_⟩⟩
  rw [htsL]
  refine (innerEvents_len w fuel p xy st a A.M ha h1'' top (htop.ended a hta) _ (hloop A.M le_rfl) k3).trans ?_
  omega

end Tri
