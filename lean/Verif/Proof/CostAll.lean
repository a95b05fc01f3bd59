import Mathlib.Data.Fintype.Pi
import Mathlib.Logic.Equiv.Prod
import Verif.Proof.CostMean

/-!
# What the trapezoidation of several polygons costs
-/

set_option linter.unusedSectionVars false

namespace Tri

open Finset

variable {I V K : Type} [Field K] [LinearOrder K] [IsStrictOrderedRing K] [DecidableEq I]

attribute [local instance] exact

variable {P : Plane K} {p : PolyList I V} {xy : V → Coords K}

/-- Polygon `j`. -/
def poly (gs : List (List (I × Coords K))) (j : Nat) : List (I × Coords K) := gs.getD j []

/-- The edges of the polygons before `j`. -/
def oldE (gs : List (List (I × Coords K))) (j : Nat) (e : Coords K × Coords K) : Prop := ∃ g ∈ gs.take j, ∃ k, SideIs g k e

open Classical in
/-- The vertices of the polygons before `j`. -/
noncomputable def oldW (gs : List (List (I × Coords K))) (j : Nat) : Finset (Coords K) :=
  ((gs.take j).flatten.map Prod.snd).toFinset

/-- How often the search for `w` gets longer while polygon `i` is added. -/
noncomputable def bads (P : Plane K) (gs : List (List (I × Coords K))) (i : Nat) (σ : Nat → Nat) (w : Coords K) : Nat :=
  ∑ l ∈ range (poly gs i).length, bad P (oldE gs i) (poly gs i) (firsts σ (l + 1)) (σ l) w

/-- The bound for the search for `w` from the root before polygon `j`. -/
noncomputable def rootLe (P : Plane K) (gs : List (List (I × Coords K))) (τ : Nat → Nat → Nat) (j : Nat) (w : Coords K) : Nat :=
  1 + 3 * ∑ i ∈ range j, bads P gs i (τ i) w

/-- The bound for polygon `j`. -/
noncomputable def polyCost (P : Plane K) (gs : List (List (I × Coords K))) (mathN : Nat → Nat → Nat) (τ : Nat → Nat → Nat)
    (j : Nat) : Nat :=
  ∑ i ∈ range (poly gs j).length,
    stage P (oldE gs j) (oldW gs j) (poly gs j) (rootLe P gs τ j) (mathN (poly gs j).length) (τ j) i

/-- The vertices that the segments of polygon `j` pass. -/
noncomputable def polyPasses (P : Plane K) (gs : List (List (I × Coords K))) (σ : Nat → Nat) (j : Nat) : Nat :=
  ∑ i ∈ range (poly gs j).length, passes P (oldE gs j) (oldW gs j) (poly gs j) (firsts σ (i + 1)) (σ i)

/-- The run up to polygon `J`, with its cost. -/
theorem runPolysC_run {gs : List (List (I × Coords K))} (hctx : PolysCtx P p xy gs) (mathN : Nat → Nat → Nat)
    {τ : Nat → Nat → Nat} (hτ : ∀ j < gs.length, ((List.range (poly gs j).length).map (τ j)).Perm (List.range (poly gs j).length)) :
    ∀ J ≤ gs.length, ∃ N A st c, (∀ cfg : Cfg, cfg.mathN = mathN →
        (∀ j < gs.length, cfg.order j (poly gs j).length = (List.range (poly gs j).length).map (τ j)) → ∀ fuel ≥ N,
        runElemsC cfg fuel p xy ((elemsOf ((gs.take J).map (List.map Prod.fst))).map some) (⟨St.init, [], 0⟩, 0) =
          .ok (⟨st, [], J⟩, c)) ∧
      AllIn P p xy (gs.take J) A st ∧ c ≤ ∑ j ∈ range J, polyCost P gs mathN τ j ∧
      (∃ x, St.Nodes St.init st x ∧ x ≤ ∑ j ∈ range J, polyPasses P gs (τ j) j) ∧
      ∀ w, P.U w → A.Fresh w → ∃ k ≤ rootLe P gs τ J w, Locs P A st.qs w 0 k := by
  intro J
  induction J with
  | zero =>
    intro _
    refine ⟨0, Abs.init, St.init, 0, fun _ _ _ _ _ => rfl, ?_, le_refl _, ⟨0, St.Nodes.refl _, le_refl _⟩, fun w _ _ =>
      ⟨1, by simp [rootLe], 0, 0, .sink rfl, by refine ⟨?_, ?_, ?_, ?_⟩ <;> intro d h <;> cases h⟩⟩
    exact ⟨glob_init, fun i hi => absurd hi (Nat.not_lt_zero _), by simp, fun i hi => absurd hi (Nat.not_lt_zero _)⟩
  | succ J ih =>
    intro hJ
    obtain ⟨N1, A, st, c, hr1, hA, hc, ⟨x, hx, hxl⟩, hroot⟩ := ih (by omega)
    have hget : gs[J]? = some (poly gs J) := by
      unfold poly
      rw [List.getD_eq_getElem?_getD, List.getElem?_eq_getElem (by omega)]
      rfl
    have hmem : poly gs J ∈ gs := mem_of_get hget
    have htake : gs.take (J + 1) = gs.take J ++ [poly gs J] := by
      rw [List.take_add_one, hget]; rfl
    have hg := hctx.poly _ hmem
    have hdis : ∀ v ∈ poly gs J, ∀ g' ∈ gs.take J, ∀ v' ∈ g', v.2 ≠ v'.2 := by
      intro v hv g' hg' v' hv' he
      have hnd := hctx.distinct
      rw [← List.take_append_drop (J + 1) gs, htake, List.flatten_append, List.flatten_append, List.map_append,
        List.map_append] at hnd
      have hnd := (List.nodup_append.1 hnd).1
      rw [List.nodup_append] at hnd
      exact hnd.2.2 v'.2 (List.mem_map.2 ⟨v', List.mem_flatten.2 ⟨g', hg', hv'⟩, rfl⟩) v.2
        (List.mem_map.2 ⟨v, List.mem_flatten.2 ⟨_, by simp, hv⟩, rfl⟩) he.symm
    have hp := hτ J (by omega)
    have hlt : ∀ i < (poly gs J).length, τ J i < (poly gs J).length := by
      intro i hi
      have := hp.mem_iff.1 (List.mem_map.2 ⟨i, by simpa using hi, rfl⟩)
      simpa using this
    have hinj : ∀ i < (poly gs J).length, ∀ j < (poly gs J).length, τ J i = τ J j → i = j := by
      have hnd := hp.nodup_iff.2 List.nodup_range
      intro i hi j hj he
      exact List.inj_on_of_nodup_map hnd (by simpa using hi) (by simpa using hj) he
    have hfr : ∀ v ∈ poly gs J, A.Fresh v.2 := by
      intro v hv n hn he
      obtain ⟨g', hg', v', hv', h1⟩ := hA.cs n hn
      exact hdis v hv g' hg' v' hv' (he.symm.trans h1)
    obtain ⟨N2, A', l, k, hr2, h', -, -, -, hk, ⟨y, hy, hyl⟩, hloc⟩ := polyLoopC_run hg (O := oldE gs J) (W := oldW gs J)
      (B := rootLe P gs τ J) (by
        rintro j e he ⟨g', hg', j', he'⟩
        obtain ⟨v, hv, h1⟩ := he.ends.1
        obtain ⟨v', hv', h1'⟩ := he'.ends.1
        exact hdis v hv g' hg' v' hv' (h1.symm.trans h1')) hA.glob hfr (by
        intro e
        constructor
        · rintro ⟨i, hi, rfl⟩
          exact hA.segs i hi
        · rintro ⟨g', hg', k, h1⟩
          exact hA.has g' hg' k e h1) (by
        intro n hn
        obtain ⟨g', hg', v, hv, h1⟩ := hA.cs n hn
        refine ⟨by rw [h1]; exact (hctx.poly g' (List.mem_of_mem_take hg')).U v hv, ?_⟩
        unfold oldW
        rw [List.mem_toFinset, h1]
        exact List.mem_map.2 ⟨v, List.mem_flatten.2 ⟨g', hg', hv⟩, rfl⟩) (by intro w; unfold rootLe; omega)
      (fun v hv => hroot v.2 (hg.U v hv) (hfr v hv)) mathN hlt hinj _ (le_refl _)
    refine ⟨max N1 N2, A', l.st, c + k, fun cfg hm ho fuel hf => ?_, ⟨h'.glob, ?_, ?_, ?_⟩, ?_, ⟨x + y, hx.trans hy, ?_⟩, ?_⟩
    · have hmap : (elemsOf ((gs.take (J + 1)).map (List.map Prod.fst))).map some =
          (elemsOf ((gs.take J).map (List.map Prod.fst))).map some ++
          (((poly gs J).map Prod.fst).map (fun i => some (.cont i)) ++ [some (.newPolygon : Elem I)]) := by
        rw [htake]
        simp [elemsOf, Function.comp_def]
      have hadd : St.addPolygonC cfg fuel p xy J st (startLocs (poly gs J)) = .ok (l.st, k) := by
        have hlen : (startLocs (poly gs J)).length = (poly gs J).length := by simp [startLocs]
        unfold St.addPolygonC
        simp only [hlen, ho J (by omega), hm, hr2 cfg hm fuel (le_trans (le_max_right _ _) hf), bind, Except.bind]
      rw [hmap, runElemsC_append, hr1 cfg hm ho fuel (le_trans (le_max_left _ _) hf)]
      exact runElemsC_poly cfg fuel hg.len (fun v hv => coords_of_get (hctx.desc.coords _ hmem v hv)) st J c hadd
    · intro i hi
      rw [htake]
      rcases h'.segs i hi with ⟨g', hg', j, h1⟩ | ⟨j, -, h1⟩
      · exact ⟨g', by simp [hg'], j, h1⟩
      · exact ⟨_, by simp, j, h1⟩
    · intro g' hg' j e he
      rw [htake] at hg'
      rcases List.mem_append.1 hg' with hg' | hg'
      · obtain ⟨i, hi, h1⟩ := hA.has g' hg' j e he
        exact ⟨i, hi.trans_le h'.gro.S, by rw [h'.gro.sg i hi, h1]⟩
      · rw [List.mem_singleton] at hg'
        subst hg'
        refine h'.has j ?_ e he
        rw [hp.mem_iff]
        simpa using he.lt
    · intro n hn
      rw [htake]
      rcases h'.cs n hn with h1 | ⟨v, hv, h1⟩
      · obtain ⟨g', hg', v', hv', h2⟩ := hA.cs n h1
        exact ⟨g', by simp [hg'], v', hv', by rw [h'.gro.c n h1, h2]⟩
      · exact ⟨_, by simp, v, hv, h1⟩
    · rw [sum_range_succ]
      exact Nat.add_le_add hc hk
    · rw [sum_range_succ]
      exact Nat.add_le_add hxl hyl
    · intro w hU hf
      obtain ⟨k0, h1, h2⟩ := hroot w hU (hf.of_gro h'.gro)
      obtain ⟨k1, h3, h4⟩ := hloc w k0 hU hf h2
      refine ⟨k1, ?_, h3⟩
      unfold rootLe at h1 ⊢
      rw [sum_range_succ]
      unfold bads at h1 ⊢
      omega

/-- One order for each polygon. -/
abbrev Orders (gs : List (List (I × Coords K))) : Type := ∀ j : Fin gs.length, Equiv.Perm (Fin (gs.get j).length)

/-- The order for polygon `j`. -/
def orderOf {gs : List (List (I × Coords K))} (σ : Orders gs) (j : Nat) : Nat → Nat :=
  if h : j < gs.length then ofPerm (σ ⟨j, h⟩) else id

theorem poly_get {gs : List (List (I × Coords K))} {j : Nat} (h : j < gs.length) : poly gs j = gs.get ⟨j, h⟩ := by
  unfold poly
  rw [List.getD_eq_getElem?_getD, List.getElem?_eq_getElem h]
  rfl

theorem orderOf_eq {gs : List (List (I × Coords K))} (σ : Orders gs) {j : Nat} (h : j < gs.length) :
    orderOf σ j = ofPerm (σ ⟨j, h⟩) := dif_pos h

/-- The trapezoidation of several polygons and its cost. -/
theorem trapezoidizeC_runs {gs : List (List (I × Coords K))} (hctx : PolysCtx P p xy gs) (mathN : Nat → Nat → Nat) :
    ∃ N, ∃ (cost : Orders gs → Nat) (st : Orders gs → St I K),
      (∀ (σ : Orders gs) (cfg : Cfg), cfg.mathN = mathN →
        (∀ j : Fin gs.length, cfg.order j (gs.get j).length = List.ofFn (fun i => (σ j i).val)) → ∀ fuel ≥ N,
          trapezoidizeC cfg fuel p xy = .ok (st σ, cost σ)) ∧
      (∀ σ, cost σ ≤ ∑ j ∈ range gs.length, polyCost P gs mathN (orderOf σ) j) ∧
      ∀ σ, ∃ x, St.Nodes St.init (st σ) x ∧ x ≤ ∑ j ∈ range gs.length, polyPasses P gs (orderOf σ j) j := by
  have hord : ∀ (σ : Orders gs) (j : Nat) (h : j < gs.length), (List.range (poly gs j).length).map (orderOf σ j) =
      List.ofFn (fun i => (σ ⟨j, h⟩ i).val) := by
    intro σ j h
    rw [orderOf_eq σ h, ofPerm_list, poly_get h]
  have hr := fun σ : Orders gs => runPolysC_run hctx mathN (τ := orderOf σ)
    (fun j h => by rw [hord σ j h, poly_get h]; exact ofFn_perm _) gs.length (le_refl _)
  choose N A st c h1 _ h3 h4 _ using hr
  refine ⟨univ.sup N, c, st, fun σ cfg hm ho fuel hf => ?_, h3, h4⟩
  obtain ⟨es, hes, hpoly⟩ := hctx.desc.elems
  have e1 := runElemsC_polygons cfg fuel p xy es [] St.init 0 0
  rw [← polygonsOf.eq_1, hpoly] at e1
  have e2 := h1 σ cfg hm (fun j h => by rw [hord σ j h, poly_get h]; exact ho ⟨j, h⟩) fuel
    (le_trans (le_sup (f := N) (mem_univ σ)) hf)
  rw [List.take_length] at e2
  rw [e2] at e1
  rw [trapezoidizeC_eq, hes]
  simp only [List.map_nil, List.nil_append] at e1
  rw [e1]
  simp [Except.map]

/-- The average over all choices of a quantity that depends on one of them. -/
theorem mean_pi {ι : Type} [Fintype ι] [DecidableEq ι] {α : ι → Type} [∀ i, Fintype (α i)] (j : ι) (f : α j → ℚ) {c : ℚ}
    (h : ∑ a, f a ≤ Fintype.card (α j) * c) : ∑ σ : ∀ i, α i, f (σ j) ≤ Fintype.card (∀ i, α i) * c := by
  have h1 : ∑ σ : ∀ i, α i, f (σ j) = ∑ x : α j × ∀ i : {i // i ≠ j}, α i, f x.1 :=
    Fintype.sum_equiv (Equiv.piSplitAt j α) _ _ fun σ => rfl
  rw [h1, Fintype.sum_prod_type, Fintype.card_congr (Equiv.piSplitAt j α), Fintype.card_prod]
  simp only [sum_const, card_univ, nsmul_eq_mul]
  rw [← mul_sum]
  calc _ ≤ (Fintype.card (∀ i : {i // i ≠ j}, α i) : ℚ) * (Fintype.card (α j) * c) :=
        mul_le_mul_of_nonneg_left h (Nat.cast_nonneg _)
    _ = _ := by push_cast; ring

/-- The harmonic sum. -/
def harm (n : Nat) : ℚ := ∑ l ∈ range n, 1 / (l + 1 : ℚ)

/-- The bound for the average cost of polygon `j`. -/
noncomputable def meanPoly (gs : List (List (I × Coords K))) (mathN : Nat → Nat → Nat) (j : Nat) : ℚ :=
  ∑ i ∈ range (poly gs j).length, meanStage (oldW gs j).card (poly gs j).length (mathN (poly gs j).length) i +
    (poly gs j).length * (2 + 24 * ∑ i ∈ range j, harm (poly gs i).length)

theorem oldE_E {gs : List (List (I × Coords K))} (hctx : PolysCtx P p xy gs) (j : Nat) :
    ∀ e, oldE gs j e → P.E e := by
  rintro e ⟨g, hg, k, a, b, h1, h2, rfl⟩
  exact (hctx.poly g (List.mem_of_mem_take hg)).E k a b h1 h2

/-- The average of the bounds for the searches from the root. -/
theorem mean_root {gs : List (List (I × Coords K))} (hctx : PolysCtx P p xy gs) {j : Nat} (hj : j ≤ gs.length) (w : Coords K) :
    (∑ σ : Orders gs, (rootLe P gs (orderOf σ) j w : ℚ)) ≤
      Fintype.card (Orders gs) * (1 + 12 * ∑ i ∈ range j, harm (poly gs i).length) := by
  simp only [rootLe, Nat.cast_add, Nat.cast_mul, Nat.cast_sum, Nat.cast_one, Nat.cast_ofNat]
  rw [sum_add_distrib, sum_const, card_univ, nsmul_eq_mul, ← mul_sum, sum_comm]
  have key : ∀ i ∈ range j, (∑ σ : Orders gs, (bads P gs i (orderOf σ i) w : ℚ)) ≤
      Fintype.card (Orders gs) * (4 * harm (poly gs i).length) := by
    intro i hi
    have hi : i < gs.length := lt_of_lt_of_le (mem_range.1 hi) hj
    have h1 := mean_bads (O := oldE gs i) (hctx.poly _ (List.get_mem gs ⟨i, hi⟩)) w
    rw [poly_get hi]
    have h2 := mean_pi (α := fun j : Fin gs.length => Equiv.Perm (Fin (gs.get j).length)) ⟨i, hi⟩
      (fun σ => ((∑ l ∈ range (gs.get ⟨i, hi⟩).length,
        bad P (oldE gs i) (gs.get ⟨i, hi⟩) (firsts (ofPerm σ) (l + 1)) (ofPerm σ l) w : ℕ) : ℚ))
      (c := 4 * harm (gs.get ⟨i, hi⟩).length) (by
        rw [Fintype.card_perm, Fintype.card_fin]; exact h1)
    refine le_trans (le_of_eq (sum_congr rfl fun σ _ => ?_)) h2
    unfold bads
    rw [poly_get hi, orderOf_eq σ hi]
  have h3 := sum_le_sum key
  rw [← mul_sum, ← mul_sum] at h3
  linarith

/-- The average of the bounds for one polygon. -/
theorem mean_poly {gs : List (List (I × Coords K))} (hctx : PolysCtx P p xy gs) (mathN : Nat → Nat → Nat) {j : Nat}
    (hj : j < gs.length) :
    (∑ σ : Orders gs, (polyCost P gs mathN (orderOf σ) j : ℚ)) ≤ Fintype.card (Orders gs) * meanPoly gs mathN j := by
  have hp := hctx.poly _ (List.get_mem gs ⟨j, hj⟩)
  have h0 : ∀ σ : Orders gs, polyCost P gs mathN (orderOf σ) j =
      ∑ i ∈ range (gs.get ⟨j, hj⟩).length, stage P (oldE gs j) (oldW gs j) (gs.get ⟨j, hj⟩) (fun _ => 0)
        (mathN (gs.get ⟨j, hj⟩).length) (ofPerm (σ ⟨j, hj⟩)) i +
      2 * ∑ k ∈ range (gs.get ⟨j, hj⟩).length, rootLe P gs (orderOf σ) j (vat (gs.get ⟨j, hj⟩) k) := by
    intro σ
    unfold polyCost
    rw [orderOf_eq σ hj, poly_get hj]
    exact stages_base _ (by have := hp.len; omega) _
  simp only [h0, Nat.cast_add, Nat.cast_mul, Nat.cast_ofNat]
  rw [sum_add_distrib, ← mul_sum]
  have h1 := mean_pi (α := fun j : Fin gs.length => Equiv.Perm (Fin (gs.get j).length)) ⟨j, hj⟩
    (fun σ => ((∑ i ∈ range (gs.get ⟨j, hj⟩).length, stage P (oldE gs j) (oldW gs j) (gs.get ⟨j, hj⟩) (fun _ => 0)
        (mathN (gs.get ⟨j, hj⟩).length) (ofPerm σ) i : ℕ) : ℚ))
    (c := ∑ i ∈ range (gs.get ⟨j, hj⟩).length, meanStage (oldW gs j).card (gs.get ⟨j, hj⟩).length
      (mathN (gs.get ⟨j, hj⟩).length) i) (by
        rw [Fintype.card_perm, Fintype.card_fin]; exact mean_stages (oldE_E hctx j) hp _)
  have h2 : (∑ σ : Orders gs, ((∑ k ∈ range (gs.get ⟨j, hj⟩).length, rootLe P gs (orderOf σ) j (vat (gs.get ⟨j, hj⟩) k) : ℕ) : ℚ)) ≤
      Fintype.card (Orders gs) * ((gs.get ⟨j, hj⟩).length * (1 + 12 * ∑ i ∈ range j, harm (poly gs i).length)) := by
    simp only [Nat.cast_sum]
    rw [sum_comm]
    calc _ ≤ ∑ _k ∈ range (gs.get ⟨j, hj⟩).length,
          (Fintype.card (Orders gs) * (1 + 12 * ∑ i ∈ range j, harm (poly gs i).length) : ℚ) :=
          sum_le_sum fun k _ => mean_root hctx hj.le _
      _ = _ := by rw [sum_const, card_range, nsmul_eq_mul]; ring
  unfold meanPoly
  rw [poly_get hj]
  linarith

/-- The average cost for several polygons. -/
theorem mean_costs {gs : List (List (I × Coords K))} (hctx : PolysCtx P p xy gs) (mathN : Nat → Nat → Nat)
    {cost : Orders gs → Nat} (h : ∀ σ, cost σ ≤ ∑ j ∈ range gs.length, polyCost P gs mathN (orderOf σ) j) :
    (∑ σ, (cost σ : ℚ)) ≤ Fintype.card (Orders gs) * ∑ j ∈ range gs.length, meanPoly gs mathN j := by
  calc (∑ σ, (cost σ : ℚ)) ≤ ∑ σ : Orders gs, ∑ j ∈ range gs.length, (polyCost P gs mathN (orderOf σ) j : ℚ) :=
        sum_le_sum fun σ _ => by exact_mod_cast h σ
    _ = ∑ j ∈ range gs.length, ∑ σ : Orders gs, (polyCost P gs mathN (orderOf σ) j : ℚ) := sum_comm
    _ ≤ ∑ j ∈ range gs.length, (Fintype.card (Orders gs) * meanPoly gs mathN j : ℚ) :=
        sum_le_sum fun j hj => mean_poly hctx mathN (mem_range.1 hj)
    _ = _ := by rw [mul_sum]

/-- The average number of vertices passed, for several polygons. -/
theorem mean_allPasses {gs : List (List (I × Coords K))} (hctx : PolysCtx P p xy gs) :
    (∑ σ : Orders gs, ∑ j ∈ range gs.length, (polyPasses P gs (orderOf σ j) j : ℚ)) ≤
      Fintype.card (Orders gs) * ∑ j ∈ range gs.length,
        (4 * (poly gs j).length + 2 * (oldW gs j).card * harm (poly gs j).length) := by
  rw [sum_comm, mul_sum]
  refine sum_le_sum fun j hj => ?_
  have hj := mem_range.1 hj
  have hp := hctx.poly _ (List.get_mem gs ⟨j, hj⟩)
  have h1 := mean_pi (α := fun j : Fin gs.length => Equiv.Perm (Fin (gs.get j).length)) ⟨j, hj⟩
    (fun σ => ∑ i ∈ range (gs.get ⟨j, hj⟩).length,
      (passes P (oldE gs j) (oldW gs j) (gs.get ⟨j, hj⟩) (firsts (ofPerm σ) (i + 1)) (ofPerm σ i) : ℚ))
    (c := 4 * (gs.get ⟨j, hj⟩).length + 2 * (oldW gs j).card * harm (gs.get ⟨j, hj⟩).length) (by
      rw [Fintype.card_perm, Fintype.card_fin, sum_comm]
      calc _ ≤ ∑ i ∈ range (gs.get ⟨j, hj⟩).length,
            ((gs.get ⟨j, hj⟩).length.factorial * (4 + 2 * (oldW gs j).card * (1 / (i + 1 : ℚ))) : ℚ) :=
            sum_le_sum fun i hi => mean_passes (oldE_E hctx j) hp (mem_range.1 hi)
        _ = _ := by
          rw [← mul_sum, sum_add_distrib, sum_const, card_range, nsmul_eq_mul, ← mul_sum, harm, mul_comm _ (4 : ℚ)])
  rw [poly_get hj]
  refine le_trans (le_of_eq (sum_congr rfl fun σ _ => ?_)) h1
  unfold polyPasses
  rw [poly_get hj, orderOf_eq σ hj]
  push_cast
  rfl

/-- The number of vertices of the polygons before `j`. -/
theorem oldW_card (gs : List (List (I × Coords K))) (j : Nat) :
    (oldW gs j).card ≤ gs.flatten.length ∧ (oldW gs 0).card = 0 := by
  classical
  refine ⟨?_, by simp [oldW]⟩
  unfold oldW
  refine (List.toFinset_card_le _).trans ?_
  rw [List.length_map]
  exact ((List.take_sublist j gs).flatten).length_le

theorem poly_sum (gs : List (List (I × Coords K))) : ∑ j ∈ range gs.length, (poly gs j).length = gs.flatten.length := by
  induction gs with
  | nil => rfl
  | cons g gs ih =>
    rw [List.length_cons, sum_range_succ', List.flatten_cons, List.length_append, ← ih, add_comm]
    rfl

end Tri
