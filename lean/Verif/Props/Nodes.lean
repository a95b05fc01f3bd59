import Verif.Proof.RankedBuild
import Verif.Proof.Fuel
import Verif.Props.Safety
import Verif.Props.Cost

/-!
# Properties: how large the search structure gets (C53)

`TrapezoidationState::new` (`trapezoidation.rs:188-192`) asks for the upper bound of the number of query nodes and reserves
room for four per vertex.
-/

namespace Tri

open Finset

section
variable {I V C : Type}

theorem polygonsFrom_flatten (es : List (Elem I)) :
    ∀ cur : List I, (polygonsFrom cur es).flatten.length = cur.length + conts (es.map some) := by
  induction es with
  | nil => intro cur; unfold polygonsFrom; split <;> simp_all [conts]
  | cons e es ih =>
    intro cur
    cases e with
    | cont i => rw [polygonsFrom, ih]; simp [conts]; omega
    | newPolygon =>
      rw [polygonsFrom]
      split
      · next h => rw [ih]; simp [conts, h]
      · rw [List.flatten_cons, List.length_append, ih]; simp [conts]

variable [Scalar C] [DecidableEq I]

/-- **C53**: for every input with `n` vertices (of all polygons), valid or not, with exact numbers or floats, every insertion order and every schedule,
a successful trapezoidation leaves at least `4 n + 1` query nodes, one more than the code reserves room for,
and at most `n² + 4 n + 1`. -/
theorem C53_query_nodes (cfg : Cfg) (hcfg : cfg.Valid) (fuel : Nat) (p : PolyList I V) (xy : V → Coords C)
    (st : St I C) (h : trapezoidize cfg fuel p xy = .ok st) :
    ∃ es : List (Elem I), p.elems = es.map some ∧
      4 * (polygonsOf es).flatten.length + 1 ≤ st.qs.length ∧
      st.qs.length ≤ (polygonsOf es).flatten.length ^ 2 + 4 * (polygonsOf es).flatten.length + 1 := by
  obtain ⟨es, vss, h1, h2, -, -, -, h3, h4, -⟩ := C23_sizes cfg hcfg fuel p xy st h
  have hlen : (polygonsOf es).flatten.length = vss.flatten.length := by
    rw [← h2, ← List.map_flatten, List.length_map]
  have hc : conts p.elems = vss.flatten.length := by
    have := polygonsFrom_flatten es []
    rw [h1, ← hlen]
    unfold polygonsOf
    simpa using this.symm
  refine ⟨es, h1, ?_, ?_⟩
  · have hC := C50_counts_the_code cfg fuel p xy
    rw [h] at hC
    cases hr : trapezoidizeC cfg fuel p xy with
    | error e => rw [hr] at hC; cases hC
    | ok r =>
      rw [hr] at hC
      obtain ⟨st', c⟩ := r
      cases hC
      have h5 := (trapezoidizeC_nodes hr).1
      simp only at h3 h4 ⊢
      omega
  · have hf := trapezoidize_fle cfg p xy (Nat.le_max_left fuel (enough (conts p.elems)))
    rcases hf with hf | hf
    · rw [h] at hf; cases hf
    · have hE := trapezoidize_ranked cfg hcfg p xy (Nat.le_max_right fuel (enough (conts p.elems)))
      rw [hf, h] at hE
      have h5 := hE.2.1.size
      rw [h3, h4, hc] at h5
      rw [hlen]
      calc _ ≤ _ := h5
        _ = _ := by ring

end

variable {I V K : Type} [Field K] [LinearOrder K] [IsStrictOrderedRing K] [DecidableEq I]

section
attribute [local instance] exact

/-- The mean number of query nodes, in any plane. -/
theorem ctx_query_nodes_mean {P : Plane K} {p : PolyList I V} {xy : V → Coords K} {g : List (I × Coords K)}
    (hctx : PolysCtx P p xy [g]) (mathN : Nat → Nat → Nat) :
    ∃ N, ∃ nodes : Equiv.Perm (Fin g.length) → Nat,
      (∀ (σ : Equiv.Perm (Fin g.length)) (cfg : Cfg), cfg.mathN = mathN →
        cfg.order 0 g.length = List.ofFn (fun i => (σ i).val) → ∀ fuel ≥ N,
          (trapezoidize cfg fuel p xy).map (fun st => st.qs.length) = .ok (nodes σ)) ∧
      (∑ σ, (nodes σ : ℚ)) / g.length.factorial ≤ 8 * g.length + 1 := by
  have hd := hctx.desc
  obtain ⟨N, cost, st, h1, -, h3⟩ := trapezoidizeC_run hctx mathN
  choose x h4 h5 using h3
  have h6 : ∀ σ, (st σ).qs.length = 1 + 4 * g.length + x σ := by
    intro σ
    let cfg : Cfg := ⟨fun _ n => if n = g.length then List.ofFn (fun i => (σ i).val) else List.range n, mathN, false⟩
    have hcfg : cfg.Valid := by
      intro _ n
      by_cases hn : n = g.length
      · subst hn
        simp only [cfg, if_true]
        exact ofFn_perm σ
      · simp only [cfg, if_neg hn]
        exact .refl _
    have h7 : trapezoidize cfg N p xy = .ok (st σ) := by
      rw [← C50_counts_the_code, h1 σ cfg rfl (by simp [cfg]) N (Nat.le_refl _)]
      rfl
    obtain ⟨es, vss, h8, h9, -, -, -, h10, h11, -⟩ := C23_sizes cfg hcfg N p xy _ h7
    obtain ⟨es', h12, h13⟩ := hd.elems
    have h14 : es = es' := List.map_injective_iff.2 (Option.some_injective _) (h8.symm.trans h12)
    have h15 : vss.flatten.length = g.length := by
      have := congrArg (fun l => l.flatten.length) (h9.trans (h14 ▸ h13))
      simpa [← List.map_flatten] using this
    have h16 := h4 σ
    unfold St.Nodes at h16
    simp only [St.init, List.length_nil, List.length_singleton] at h16
    omega
  refine ⟨N, fun σ => (st σ).qs.length, fun σ cfg hm ho fuel hf => ?_, ?_⟩
  · rw [← C50_counts_the_code, h1 σ cfg hm ho fuel hf]
    rfl
  have h7 : (∑ σ, ((st σ).qs.length : ℚ)) ≤ g.length.factorial * (8 * g.length + 1) := by
    calc (∑ σ, ((st σ).qs.length : ℚ)) ≤ ∑ σ : Equiv.Perm (Fin g.length), ((1 + 4 * (g.length : ℚ)) +
            ∑ i ∈ range g.length, (passes P (fun _ => False) ∅ g (firsts (ofPerm σ) (i + 1)) (ofPerm σ i) : ℚ)) :=
          sum_le_sum fun σ _ => by rw [h6]; exact_mod_cast Nat.add_le_add_left (h5 σ) _
      _ = g.length.factorial * (1 + 4 * (g.length : ℚ)) + ∑ i ∈ range g.length, ∑ σ : Equiv.Perm (Fin g.length),
            (passes P (fun _ => False) ∅ g (firsts (ofPerm σ) (i + 1)) (ofPerm σ i) : ℚ) := by
          rw [sum_add_distrib, sum_const, card_univ, Fintype.card_perm, Fintype.card_fin, nsmul_eq_mul, sum_comm]
      _ ≤ g.length.factorial * (1 + 4 * (g.length : ℚ)) + ∑ _i ∈ range g.length, (g.length.factorial * 4 : ℚ) :=
          add_le_add (le_refl _) (sum_le_sum fun i hi => by
            have := mean_passes (O := fun _ => False) (W := ∅) (fun _ h => h.elim) (hctx.poly g (by simp)) (mem_range.1 hi)
            simpa using this)
      _ = _ := by rw [sum_const, card_range, nsmul_eq_mul]; ring
  rw [div_le_iff₀ (by exact_mod_cast Nat.factorial_pos _), mul_comm]
  exact h7

/-- **C53**, on average: for a valid polygon with `n` vertices and any schedule, averaged over all orders of insertion,
the trapezoidation leaves at most `8 n + 1` query nodes. -/
theorem C53_query_nodes_mean (p : PolyList I V) (xy : V → Coords K) (g : List (I × Coords K))
    (hd : Describes p xy [g]) (hv : ValidPolys [g.map Prod.snd]) (mathN : Nat → Nat → Nat) :
    ∃ N, ∃ nodes : Equiv.Perm (Fin g.length) → Nat,
      (∀ (σ : Equiv.Perm (Fin g.length)) (cfg : Cfg), cfg.mathN = mathN →
        cfg.order 0 g.length = List.ofFn (fun i => (σ i).val) → ∀ fuel ≥ N,
          (trapezoidize cfg fuel p xy).map (fun st => st.qs.length) = .ok (nodes σ)) ∧
      (∑ σ, (nodes σ : ℚ)) / g.length.factorial ≤ 8 * g.length + 1 := by
  obtain ⟨P, hctx, -⟩ := exists_polysCtx hd (by simpa using hv) (ghosts := []) (by simp)
  exact ctx_query_nodes_mean hctx mathN

end

section Examples

attribute [local instance] exact

/-- C53: the pentagon has between 21 and 46 query nodes, whatever the order; with this one, 24. -/
example : (trapezoidize (Cfg.plain (fun _ h => h) true) 40 (PolyList.single pentagon) id).map (fun st => st.qs.length) = .ok 24 := by
  decide +kernel

/-- C53: the hypotheses hold for the pentagon. -/
example : ∃ N, ∃ nodes : Equiv.Perm (Fin 5) → Nat,
      (∀ (σ : Equiv.Perm (Fin 5)) (cfg : Cfg), cfg.mathN = (fun _ _ => 2) →
        cfg.order 0 5 = List.ofFn (fun i => (σ i).val) → ∀ fuel ≥ N,
          (trapezoidize cfg fuel (PolyList.single pentagon) id).map (fun st => st.qs.length) = .ok (nodes σ)) ∧
      (∑ σ, (nodes σ : ℚ)) / Nat.factorial 5 ≤ 8 * (5 : Nat) + 1 :=
  C53_query_nodes_mean (PolyList.single pentagon) id (indexed (pentagon.map id))
    (describes_single _ _ (by decide +kernel)) (polysOk_sound (by decide +kernel)) (fun _ _ => 2)

end Examples

end Tri
