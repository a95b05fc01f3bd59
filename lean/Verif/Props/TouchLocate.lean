import Verif.Props.TouchRight
import Verif.Props.Trapezoids
import Verif.Props.Nodes
import Verif.Proof.TouchLocate

/-!
# C67: the trapezoidation where edges are touched from the right or from above
-/

namespace Tri

open Finset

variable {I V K : Type} [Field K] [LinearOrder K] [IsStrictOrderedRing K] [DecidableEq I]

attribute [local instance] exact

/-- **C67**, as C25 and C33 for valid input: where edges are touched from the right, the trapezoidation ends, without panic or error,
and neither the relocation schedule nor the debug checks change anything. -/
theorem C67_schedule_and_debug_checks (p : PolyList I V) (xy : V → Coords K) (gs : List (List (I × Coords K)))
    (hd : Describes p xy gs) (hv : TouchingPolys (gs.map (List.map Prod.snd))) (order : Nat → Nat → List Nat)
    (hord : ∀ k n, (order k n).Perm (List.range n)) (mathN mathN' : Nat → Nat → Nat) (debug debug' : Bool) :
    ∃ N st, ∀ fuel ≥ N, trapezoidize ⟨order, mathN, debug⟩ fuel p xy = .ok st ∧
      trapezoidize ⟨order, mathN', debug'⟩ fuel p xy = .ok st := by
  obtain ⟨P, hctx, -⟩ := exists_touchCtx hd hv (ghosts := []) (by simp)
  obtain ⟨N, st, hr⟩ := trapezoidize_lock hctx order mathN mathN' hord
  exact ⟨N, st, fun fuel hf => ⟨hr ⟨order, mathN, debug⟩ rfl (.inl rfl) fuel hf, hr ⟨order, mathN', debug'⟩ rfl (.inr rfl) fuel hf⟩⟩

/-- **C67**, as C24 for valid input: in the trapezoidation the search for any point that is on no edge ends at a trapezoid that
contains the point, at the query node of that trapezoid, and no other trapezoid contains it. -/
theorem C67_point_location (p : PolyList I V) (xy : V → Coords K) (gs : List (List (I × Coords K)))
    (hd : Describes p xy gs) (hv : TouchingPolys (gs.map (List.map Prod.snd))) (cfg : Cfg) (hcfg : cfg.Valid) :
    ∃ N st, (∀ fuel ≥ N, trapezoidize cfg fuel p xy = .ok st) ∧
      ∀ q, (∀ e ∈ (gs.map (List.map Prod.snd)).flatMap cycleEdges, ¬ OnSeg e q) →
        ∃ i t M, st.ts[i]? = some t ∧ Contains st t q ∧ (∀ fuel ≥ M, St.find st.qs q fuel 0 = .ok (t.sink, i)) ∧
          ∀ j t', st.ts[j]? = some t' → Contains st t' q → j = i := by
  obtain ⟨P, hctx, -⟩ := exists_touchCtx hd hv (ghosts := []) (by simp)
  obtain ⟨N, -, st, hr, -⟩ := trapezoidize_run hctx cfg.order cfg.mathN hcfg
  refine ⟨N, st, fun fuel hf => hr cfg rfl rfl fuel hf, fun q hq => ?_⟩
  obtain ⟨P', hctx', hU, hE, ε, hε, hh⟩ := exists_touchCtx hd hv (ghosts := [q]) (by simpa using hq)
  obtain ⟨N', A, st', hr', hall⟩ := trapezoidize_run hctx' cfg.order cfg.mathN hcfg
  have hst : st' = st := by
    have h1 := hr cfg rfl rfl (max N N') (le_max_left _ _)
    have h2 := hr' cfg rfl rfl (max N N') (le_max_right _ _)
    rw [h1] at h2; cases h2; rfl
  subst hst
  have hqU : P'.U q := (hU q).2 (.inr (by simp))
  have hG := hall.glob
  have hoff : ∀ s < A.S, ¬ OnSeg (A.sg s) q := by
    intro s hs ho
    obtain ⟨e, he, h'⟩ := List.mem_map.1 ((hE _).1 (hG.inv.sE s hs))
    rw [← h', onSeg_edgeC] at ho
    exact hq e he ho
  obtain ⟨s, i, hfind, hreg⟩ := hG.root q hqU (fresh_of_off hall hq)
  obtain ⟨t, ht1, ht2⟩ := hG.qry.snk' s i hfind.end_sink
  obtain ⟨M, hM⟩ := hfind.find
  subst ht2
  refine ⟨i, t, M, ht1, (region_iff_bent hG.inv hG.link hh hall.mnC ht1 hqU hoff).1 hreg, hM, fun j t' hj hc => ?_⟩
  exact hG.inv.disj q hqU j (hG.link.lt_M hj) i (hG.link.lt_M ht1)
    ((region_iff_bent hG.inv hG.link hh hall.mnC hj hqU hoff).2 hc) hreg

/-- **C67**, as C53 for valid input: for one polygon with `n` vertices, averaged over all orders of insertion, the trapezoidation
leaves at most `8 n + 1` query nodes. -/
theorem C67_query_nodes_mean (p : PolyList I V) (xy : V → Coords K) (g : List (I × Coords K))
    (hd : Describes p xy [g]) (hv : TouchingPolys [g.map Prod.snd]) (mathN : Nat → Nat → Nat) :
    ∃ N, ∃ nodes : Equiv.Perm (Fin g.length) → Nat,
      (∀ (σ : Equiv.Perm (Fin g.length)) (cfg : Cfg), cfg.mathN = mathN →
        cfg.order 0 g.length = List.ofFn (fun i => (σ i).val) → ∀ fuel ≥ N,
          (trapezoidize cfg fuel p xy).map (fun st => st.qs.length) = .ok (nodes σ)) ∧
      (∑ σ, (nodes σ : ℚ)) / g.length.factorial ≤ 8 * g.length + 1 := by
  obtain ⟨P, hctx, -⟩ := exists_touchCtx hd (by simpa using hv) (ghosts := []) (by simp)
  exact ctx_query_nodes_mean hctx mathN

section Examples

/-- The hypotheses of point location are met by `rooms` (see `Props/TouchRight.lean`), and the point in the second room is on no edge. -/
example : TouchingPolys ((indexedFrom id 0 rooms).map (List.map Prod.snd)) ∧
    ∀ e ∈ ((indexedFrom id 0 rooms).map (List.map Prod.snd)).flatMap cycleEdges, ¬ OnSeg e ⟨6, 3⟩ := by
  refine ⟨touchingOk_sound (by decide +kernel), ?_⟩
  intro e he
  have h : ∀ e ∈ ((indexedFrom id 0 rooms).map (List.map Prod.snd)).flatMap cycleEdges, orient e.1 e.2 ⟨6, 3⟩ ≠ 0 := by decide +kernel
  exact fun ho => h e he (orient_onSeg ho)

/-- One polygon that touches itself: a corner of the notch is in the middle of the slanted edge on the left. -/
def notched : List (Coords ℚ) := [⟨0, 0⟩, ⟨8, 0⟩, ⟨8, 3⟩, ⟨2, 4⟩, ⟨8, 6⟩, ⟨4, 8⟩]

/-- The hypotheses of the mean number of query nodes are met by `notched`. -/
example : Describes (PolyList.single notched) id [indexed (notched.map id)] ∧ TouchingPolys [(indexed (notched.map id)).map Prod.snd] ∧
    OnSeg ((⟨4, 8⟩, ⟨0, 0⟩) : Coords ℚ × Coords ℚ) ⟨2, 4⟩ :=
  ⟨describes_single notched id (by decide +kernel), touchingOk_sound (by decide +kernel), midOk_sound (.inl (by decide +kernel))⟩

end Examples

end Tri
