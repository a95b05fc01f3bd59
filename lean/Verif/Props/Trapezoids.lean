import Verif.Proof.Locate
import Verif.Proof.Describe

/-!
# C24, C25, C33: the trapezoidation of valid input
-/

namespace Tri

variable {I V K : Type} [Field K] [LinearOrder K] [IsStrictOrderedRing K] [DecidableEq I]

attribute [local instance] exact

/-- **C25.**  The trapezoidation of valid input ends, without panic or error, with the debug checks switched on
as well as off, and both builds give the same result, whatever the format. -/
theorem C25_debug_checks (p : PolyList I V) (xy : V → Coords K) (gs : List (List (I × Coords K)))
    (hd : Describes p xy gs) (hv : ValidPolys (gs.map (List.map Prod.snd))) (order : Nat → Nat → List Nat)
    (hord : ∀ k n, (order k n).Perm (List.range n)) (mathN : Nat → Nat → Nat) :
    ∃ N st, ∀ fuel ≥ N, trapezoidize ⟨order, mathN, true⟩ fuel p xy = .ok st ∧
      trapezoidize ⟨order, mathN, false⟩ fuel p xy = .ok st ∧
      ∀ F : FanFormat I, triangulate ⟨order, mathN, true⟩ fuel p xy F = triangulate ⟨order, mathN, false⟩ fuel p xy F := by
  obtain ⟨P, hctx, -⟩ := exists_polysCtx hd hv (ghosts := []) (by simp)
  obtain ⟨N, A, st, hr, -⟩ := trapezoidize_run hctx order mathN hord
  refine ⟨N, st, fun fuel hf => ?_⟩
  have h1 := hr ⟨order, mathN, true⟩ rfl rfl fuel hf
  have h2 := hr ⟨order, mathN, false⟩ rfl rfl fuel hf
  refine ⟨h1, h2, fun F => ?_⟩
  rw [triangulate, triangulate, h1, h2]

/-- **C33.**  On valid input the relocation schedule changes nothing: with the same segment order any two
schedules give the same trapezoidation, and the same output in every format. -/
theorem C33_schedule (p : PolyList I V) (xy : V → Coords K) (gs : List (List (I × Coords K)))
    (hd : Describes p xy gs) (hv : ValidPolys (gs.map (List.map Prod.snd))) (order : Nat → Nat → List Nat)
    (hord : ∀ k n, (order k n).Perm (List.range n)) (mathN mathN' : Nat → Nat → Nat) (debug debug' : Bool) :
    ∃ N st, ∀ fuel ≥ N, trapezoidize ⟨order, mathN, debug⟩ fuel p xy = .ok st ∧
      trapezoidize ⟨order, mathN', debug'⟩ fuel p xy = .ok st ∧
      ∀ F : FanFormat I, triangulate ⟨order, mathN, debug⟩ fuel p xy F = triangulate ⟨order, mathN', debug'⟩ fuel p xy F := by
  obtain ⟨P, hctx, -⟩ := exists_polysCtx hd hv (ghosts := []) (by simp)
  obtain ⟨N, st, hr⟩ := trapezoidize_lock hctx order mathN mathN' hord
  refine ⟨N, st, fun fuel hf => ?_⟩
  have h1 := hr ⟨order, mathN, debug⟩ rfl (.inl rfl) fuel hf
  have h2 := hr ⟨order, mathN', debug'⟩ rfl (.inr rfl) fuel hf
  refine ⟨h1, h2, fun F => ?_⟩
  rw [triangulate, triangulate, h1, h2]

/-- **C24.**  In the trapezoidation of valid input the search for any point that is on no edge ends at a
trapezoid that contains the point, at the query node of that trapezoid, and no other trapezoid contains it. -/
theorem C24_point_location (p : PolyList I V) (xy : V → Coords K) (gs : List (List (I × Coords K)))
    (hd : Describes p xy gs) (hv : ValidPolys (gs.map (List.map Prod.snd))) (cfg : Cfg) (hcfg : cfg.Valid) :
    ∃ N st, (∀ fuel ≥ N, trapezoidize cfg fuel p xy = .ok st) ∧
      ∀ q, (∀ e ∈ (gs.map (List.map Prod.snd)).flatMap cycleEdges, ¬ OnSeg e q) →
        ∃ i t M, st.ts[i]? = some t ∧ Contains st t q ∧ (∀ fuel ≥ M, St.find st.qs q fuel 0 = .ok (t.sink, i)) ∧
          ∀ j t', st.ts[j]? = some t' → Contains st t' q → j = i := by
  obtain ⟨P, hctx, -⟩ := exists_polysCtx hd hv (ghosts := []) (by simp)
  obtain ⟨N, -, st, hr, -⟩ := trapezoidize_run hctx cfg.order cfg.mathN hcfg
  refine ⟨N, st, fun fuel hf => hr cfg rfl rfl fuel hf, fun q hq => ?_⟩
  obtain ⟨P', hctx', hU, hE, ε, hε, hh, hX⟩ := exists_polysCtx hd hv (ghosts := [q]) (by simpa using hq)
  obtain ⟨N', A, st', hr', hall⟩ := trapezoidize_run hctx' cfg.order cfg.mathN hcfg
  have hst : st' = st := by
    have h1 := hr cfg rfl rfl (max N N') (le_max_left _ _)
    have h2 := hr' cfg rfl rfl (max N N') (le_max_right _ _)
    rw [h1] at h2; cases h2; rfl
  subst hst
  have hqU : P'.U q := (hU q).2 (.inr (by simp))
  have hG := hall.glob
  have hfresh : A.Fresh q := by
    intro n hn he
    obtain ⟨g, hg, v, hv', h⟩ := hall.cs n hn
    have hm : q ∈ (gs.map (List.map Prod.snd)).flatten := by
      rw [← he, h]
      exact List.mem_flatten.2 ⟨_, List.mem_map.2 ⟨g, hg, rfl⟩, List.mem_map.2 ⟨v, hv', rfl⟩⟩
    rw [← flatMap_fst] at hm
    obtain ⟨e, he1, he2⟩ := List.mem_map.1 hm
    exact hq e he1 ⟨0, le_rfl, zero_le_one, by simp [← he2], by simp [← he2]⟩
  obtain ⟨s, i, hfind, hreg⟩ := hG.root q hqU hfresh
  obtain ⟨t, ht1, ht2⟩ := hG.qry.snk' s i hfind.end_sink
  obtain ⟨M, hM⟩ := hfind.find
  subst ht2
  refine ⟨i, t, M, ht1, (region_iff hG.inv hG.link hh hX ht1 hqU).1 hreg, hM, fun j t' hj hc => ?_⟩
  exact hG.inv.disj q hqU j (hG.link.lt_M hj) i (hG.link.lt_M ht1) ((region_iff hG.inv hG.link hh hX hj hqU).2 hc) hreg

section Examples

/-- A square with a square hole, as nested vectors; the outer one has collinear vertices and horizontal sides. -/
def holed : List (List (Coords ℚ)) :=
  [[⟨0, 0⟩, ⟨3, 0⟩, ⟨6, 0⟩, ⟨6, 6⟩, ⟨0, 6⟩], [⟨2, 2⟩, ⟨2, 4⟩, ⟨4, 4⟩, ⟨4, 2⟩]]

theorem holed_valid : ValidPolys ((indexedFrom id 0 holed).map (List.map Prod.snd)) :=
  polysOk_sound (by decide +kernel)

theorem holed_describes : Describes (PolyList.nested holed) id (indexedFrom id 0 holed) :=
  describes_nested holed id (by decide +kernel)

/-- C25, C33: the hypotheses hold for the square with a hole and a shuffled order. -/
example : ∃ N st, ∀ fuel ≥ N, trapezoidize ⟨fun _ n => (List.range n).reverse, fun _ _ => 2, true⟩ fuel (PolyList.nested holed) id = .ok st ∧
    trapezoidize ⟨fun _ n => (List.range n).reverse, fun _ _ => 2, false⟩ fuel (PolyList.nested holed) id = .ok st ∧
    ∀ F, triangulate ⟨fun _ n => (List.range n).reverse, fun _ _ => 2, true⟩ fuel (PolyList.nested holed) id F =
      triangulate ⟨fun _ n => (List.range n).reverse, fun _ _ => 2, false⟩ fuel (PolyList.nested holed) id F :=
  C25_debug_checks _ _ _ holed_describes holed_valid _ (fun _ _ => List.reverse_perm _) _

example : ∃ N st, ∀ fuel ≥ N, trapezoidize (Cfg.plain (fun _ _ => 0) true) fuel (PolyList.nested holed) id = .ok st ∧
    trapezoidize (Cfg.plain (fun _ k => 2 * k) false) fuel (PolyList.nested holed) id = .ok st ∧
    ∀ F, triangulate (Cfg.plain (fun _ _ => 0) true) fuel (PolyList.nested holed) id F =
      triangulate (Cfg.plain (fun _ k => 2 * k) false) fuel (PolyList.nested holed) id F :=
  C33_schedule _ _ _ holed_describes holed_valid _ (fun _ _ => .refl _) _ _ _ _

/-- C24: a point in the hole at the level of a vertex. -/
example : ∃ N st, (∀ fuel ≥ N, trapezoidize (Cfg.plain (fun _ _ => 0) true) fuel (PolyList.nested holed) id = .ok st) ∧
    ∃ i t M, st.ts[i]? = some t ∧ Contains st t ⟨3, 3⟩ ∧ (∀ fuel ≥ M, St.find st.qs ⟨3, 3⟩ fuel 0 = .ok (t.sink, i)) := by
  obtain ⟨N, st, h1, h2⟩ := C24_point_location _ _ _ holed_describes holed_valid (Cfg.plain (fun _ _ => 0) true) (Cfg.plain_valid _ _)
  obtain ⟨i, t, M, h3, h4, h5, -⟩ := h2 ⟨3, 3⟩ (by
    intro e he
    have : ∀ e ∈ ((indexedFrom id 0 holed).map (List.map Prod.snd)).flatMap cycleEdges, orient e.1 e.2 ⟨3, 3⟩ ≠ 0 := by
      decide +kernel
    exact fun ho => this e he (orient_onSeg ho))
  exact ⟨N, st, h1, i, t, M, h3, h4, h5⟩

end Examples

end Tri
