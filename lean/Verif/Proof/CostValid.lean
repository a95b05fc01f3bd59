import Verif.Proof.CostWalk
import Verif.Proof.Output
import Verif.Proof.Ending

/-!
# The cost of the triangulation step for valid polygons
-/

set_option linter.unusedSectionVars false

namespace Tri

variable {I V K : Type} [Field K] [LinearOrder K] [IsStrictOrderedRing K]

attribute [local instance] exact

variable {P : Plane K} {p : PolyList I V} {xy : V → Coords K} {A : Abs K} {st : St I K} {key : Nat → I × Coords K}
  {lab sgn : Nat → Bool}

/-- The traversal visits each trapezoid at most once. -/
theorem Dfs.walk (D : Dfs P p xy A st key lab sgn) (hqry : Qry st.qs st.ts A) (htsL : st.ts.length = A.M) :
    ∃ (top : Nat) (fin : List (Nat × List Nat)), Top st.qs 0 top ∧ (∀ fuel ≥ A.M, triLoopB p xy st fuel ⟨top, none, [], []⟩ = ⟨fin.map (toB key A), .ok ()⟩) ∧
      ∀ f ∈ fin, FinOK P A sgn f := by
  obtain ⟨top, htop, hup⟩ := hqry.top
  have hM : top < A.M := by
    obtain ⟨q, hq⟩ := htop.sink_at
    obtain ⟨t, ht, -⟩ := hqry.snk' q top hq
    rw [← htsL]; exact lt_of_get ht
  obtain ⟨e1, e2⟩ := D.whole.up_none hM hup
  have R : Run P A key lab sgn top ⟨top, none, [], []⟩ ⟨top, [], []⟩ [] [] [] [] :=
    { cur := .mkOut hM (D.labs.top top hM hup)
      rest := .nil
      stk := rfl
      rowL := e1
      rowR := e2
      ent := by simp
      fins := by simp
      pot := fun G _ g β _ => by simp [finW, PG.wt] }
  obtain ⟨fin, h1, h2, -⟩ := D.loop ⟨hM, hup⟩ A.M (by simp) R (by simp)
  exact ⟨top, fin, htop, fun fuel hf => h1 fuel (by simpa using hf), by simpa using h2⟩

theorem callsR_length {w : Winding} (fs : List (Bool × FanRec (I × Coords K))) (hfs : ∀ f ∈ fs, 2 ≤ f.2.outer.length) :
    (callsR w fs).length = (trisR fs).length := by
  induction fs with
  | nil => rfl
  | cons f fs ih =>
    have h1 := ih fun g hg => hfs g (by simp [hg])
    have h2 := hfs f (by simp)
    rw [show f :: fs = [f] ++ fs from rfl, callsR_append, trisR_append, List.length_append, List.length_append, h1]
    congr 1
    have e : ∀ l : List (I × Coords K), (fanTriangles l).length = (fanCalls l).length := by
      intro l
      rcases l with _ | ⟨a, _ | ⟨b, _ | ⟨c, l⟩⟩⟩ <;> simp [fanTriangles, fanCalls]
    have e' : ∀ l : List (I × Coords K), (fanCalls (l.map Prod.fst)).length = (fanCalls l).length := by
      intro l
      rcases l with _ | ⟨a, _ | ⟨b, _ | ⟨c, l⟩⟩⟩ <;> simp [fanCalls]
    have e'' : ∀ l l' : List (I × Coords K), l.length = l'.length → (fanCalls l).length = (fanCalls l').length := by
      intro l l' h
      rcases l with _ | ⟨a, _ | ⟨b, _ | ⟨c, l⟩⟩⟩ <;> rcases l' with _ | ⟨a', _ | ⟨b', _ | ⟨c', l'⟩⟩⟩ <;>
        simp [fanCalls] at h ⊢
      omega
    simp only [callsR, trisR, List.map_cons, List.map_nil, List.flatMap_cons, List.flatMap_nil, List.append_nil, e, e']
    refine e'' _ _ ?_
    have e3 : ∀ w, (fanR w f).length = f.2.outer.length + 1 := by
      intro w
      unfold fanR fanOf
      generalize f.2.outer = o at h2 ⊢
      rcases o with _ | ⟨b, _ | ⟨x, l⟩⟩
      · simp at h2
      · simp at h2
      · split
        · simp only []; split <;> simp
        · simp
    rw [e3, e3]

/-- A finished chain of `k` vertices takes at most `k ^ 2 + k` passes and makes `k - 2` calls. -/
theorem Dfs.chain_cost (D : Dfs P p xy A st key lab sgn) {ε : K} (hh : P.h = ht ε) (hX : P.X = fun e v => Xh ε e (ht ε v))
    {c : Nat × List Nat} (hf : FinOK P A sgn c) (w : Winding) (fuel : Nat)
    (hfu : A.N ^ 2 + A.N ≤ fuel) :
    ∃ t, 1 ≤ t ∧ (finishMonotone (m := TrM I) w fuel (toB key A c)).res = .ok () ∧
      (finishMonotone (m := TrM I) w fuel (toB key A c)).calls.length = t ∧
      (finishMonotoneC (TrE.tick (I := I)) w fuel (toB key A c)).res = .ok () ∧
      (finishMonotoneC (TrE.tick (I := I)) w fuel (toB key A c)).len ≤ t ^ 2 + 14 * t := by
  obtain ⟨inner, e, hne, hm⟩ := D.mountain hh hX hf
  have hI := D.whole.inv
  obtain ⟨s, ns⟩ := c
  simp only at e hm
  subst e
  have hS : s < A.S := hf.S
  have hN : ∀ v ∈ A.mx s :: (inner ++ [A.mn s]), v < A.N := by
    intro v hv
    rcases List.mem_cons.1 hv with rfl | hv
    · exact (hI.mxN s hS).1
    · exact (hf.ch.side v hv).1
  have hb := toB_mountain (A := A) hne hm
  obtain ⟨fs, h1, h2, -⟩ := mountain_emit _ _ _ _ hm (by simpa using hne)
  have hlen : inner.length + 2 ≤ A.N := by
    have hdown : (A.mx s :: (inner ++ [A.mn s])).Pairwise fun a b => below (key b).2 (key a).2 := by
      have := hm.down
      have e : (key (A.mx s)).2 :: (inner.map key).map Prod.snd ++ [(key (A.mn s)).2] =
          (A.mx s :: (inner ++ [A.mn s])).map fun v => (key v).2 := by simp
      rw [e, List.pairwise_map] at this
      exact this
    have hnd : (A.mx s :: (inner ++ [A.mn s])).Nodup := hdown.imp fun h e => by
      subst e
      rcases h with h | h
      · exact lt_irrefl _ h
      · exact lt_irrefl _ h.2
    have := (hnd.subperm (l₂ := List.range A.N) fun v hv => List.mem_range.2 (hN v hv)).length_le
    simpa using this
  have hfu' : (inner.length + 2) ^ 2 + (inner.length + 2) ≤ fuel := by
    have := Nat.pow_le_pow_left hlen 2
    omega
  have hcalls : ∀ w, (callsR w fs).length = inner.length := fun w => by
    rw [callsR_length fs h2.two, h2.len]; simp
  simp only [List.length_map] at h1
  have h4 := h1 w _ (le_refl _)
  have h5 := finishMonotoneC_len w _ fuel hfu' _ (by rw [h4])
  rw [h4] at h5
  rw [hb, h1 w fuel hfu']
  have hpos : 1 ≤ inner.length := List.length_pos_iff.2 hne
  refine ⟨inner.length, hpos, rfl, hcalls w, h5.1, h5.2.trans ?_⟩
  simp only [hcalls]
  nlinarith

/-- The cost of all chains. -/
theorem Dfs.chains_cost (D : Dfs P p xy A st key lab sgn) {ε : K} (hh : P.h = ht ε) (hX : P.X = fun e v => Xh ε e (ht ε v))
    (fin : List (Nat × List Nat)) (hf : ∀ c ∈ fin, FinOK P A sgn c) (w : Winding) (fuel : Nat)
    (hfu : A.N ^ 2 + A.N ≤ fuel) :
    ∃ t, (finishAll w fuel (fin.map (toB key A))).res = .ok () ∧
      (finishAll w fuel (fin.map (toB key A))).calls.length = t ∧
      (∀ b ∈ fin.map (toB key A), (finishMonotoneC (TrE.tick (I := I)) w fuel b).res = .ok ()) ∧
      chainsLen w fuel (fin.map (toB key A)) ≤ t ^ 2 + 14 * t := by
  induction fin with
  | nil => exact ⟨0, rfl, rfl, by simp, by simp [chainsLen]⟩
  | cons c fin ih =>
    obtain ⟨t1, -, h2, h3, h4, h5⟩ := D.chain_cost hh hX (hf c (by simp)) w fuel hfu
    obtain ⟨t2, k2, k3, k4, k5⟩ := ih fun c hc => hf c (by simp [hc])
    rcases hm : finishMonotone (m := TrM I) w fuel (toB key A c) with ⟨cs, r⟩
    rw [hm] at h2 h3
    simp only at h2 h3; subst h2
    have e : finishAll w fuel ((c :: fin).map (toB key A)) =
        ⟨cs ++ (finishAll w fuel (fin.map (toB key A))).calls, (finishAll w fuel (fin.map (toB key A))).res⟩ := by
      show finishMonotone w fuel (toB key A c) >>= (fun _ => finishAll w fuel (fin.map (toB key A))) = _
      rw [hm]; rfl
    rw [e]
    refine ⟨t1 + t2, k2, by simp [h3, k3], ?_, ?_⟩
    · intro b hb
      rcases List.mem_cons.1 hb with rfl | hb
      · exact h4
      · exact k4 b hb
    · have : chainsLen w fuel ((c :: fin).map (toB key A)) =
          (finishMonotoneC (TrE.tick (I := I)) w fuel (toB key A c)).len + chainsLen w fuel (fin.map (toB key A)) := by
        simp [chainsLen]
      rw [this]
      nlinarith

variable [DecidableEq I] {gs : List (List (I × Coords K))}

/-- The cost of a run of the triangulation step on a valid input that makes `t` calls. -/
theorem run_cost (hd : Describes p xy gs) (hv : ValidPolys (gs.map (List.map Prod.snd))) (hne : gs ≠ []) (cfg : Cfg)
    (hcfg : cfg.Valid) (w : Winding) :
    ∃ st, ∀ fuel ≥ (p.elems.length + 3) ^ 2, trapezoidize cfg fuel p xy = .ok st ∧
      (innerTrace w fuel p xy st).res = .ok () ∧
      ∀ a ≤ fuel, topTrapezoid st.qs a 0 ≠ .error .timeout →
        (innerEvents w fuel p xy st).len ≤ a + st.ts.length +
          ((innerTrace w fuel p xy st).calls.length ^ 2 + 14 * (innerTrace w fuel p xy st).calls.length) := by
  classical
  obtain ⟨w', hw1, hw2⟩ := exists_sky (gs.map (List.map Prod.snd))
  obtain ⟨P, hctx, hU, hE, ε, hε, hh, hX⟩ := exists_polysCtx hd hv (ghosts := [w']) (by
    intro x hx
    rw [List.mem_singleton] at hx; subst hx; exact hw1)
  obtain ⟨N, A, st, hr, hall⟩ := trapezoidize_run hctx cfg.order cfg.mathN hcfg
  have hG := hall.glob
  have hI := hG.inv
  have hwU : P.U w' := (hU w').2 (.inr (by simp))
  have hsky : Sky P A := by
    refine ⟨w', hwU, fun n hn => ?_⟩
    refine (P.h_lt (hI.cU n hn) hwU).1 (.inl ?_)
    obtain ⟨g, hg, v, hv', h⟩ := hall.cs n hn
    rw [h]
    exact hw2 _ (List.mem_flatten.2 ⟨_, List.mem_map.2 ⟨g, hg, rfl⟩, List.mem_map.2 ⟨v, hv', rfl⟩⟩)
  obtain ⟨key, lab, sgn, D, hkey⟩ := hall.dfs hctx.poly hsky hne
  have htsL : st.ts.length = A.M := hG.link.tsL
  obtain ⟨top, fin, htop, hloop, hfin⟩ := D.walk hG.qry htsL
  refine ⟨st, fun fuel hf => ?_⟩
  obtain ⟨h1, h1', h1'', h1'''⟩ := trapezoidize_early cfg hcfg p xy (fun fuel hf => hr cfg rfl rfl fuel hf) fuel hf
  rw [htsL] at h1''
  rw [hG.link.nsL] at h1'''
  obtain ⟨t, k1, k2, k3, k4⟩ := D.chains_cost hh hX fin hfin w fuel h1'''
  have htr : innerTrace w fuel p xy st = finishAll w fuel (fin.map (toB key A)) >>= fun _ => FanM.lift (.ok ()) := by
    rw [← BM.run_inner, triangulateInnerB, htop.ended fuel h1', BM.lift_ok_bind, hloop fuel h1'']
    rfl
  rcases hfa : finishAll w fuel (fin.map (toB key A)) with ⟨cs, r⟩
  rw [hfa] at k1 k2 htr
  simp only at k1 k2; subst k1
  have htr' : innerTrace w fuel p xy st = ⟨cs, .ok ()⟩ := by
    rw [htr]
    show (⟨cs ++ [], .ok ()⟩ : TrM I Unit) = _
    rw [List.append_nil]
  refine ⟨h1, by rw [htr'], fun a ha hta => ?_⟩
  rw [htr', htsL]
  simp only
  rw [k2]
  refine (innerEvents_len w fuel p xy st a A.M ha h1'' top (htop.ended a hta) _ (hloop A.M le_rfl) k3).trans ?_
  omega

end Tri
