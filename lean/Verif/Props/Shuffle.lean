import Verif.Proof.Shuffle
import Verif.Props.CostAll

/-!
# Properties: the shuffle of the insertion order (C60)
-/

namespace Tri

open Finset

/-- **C60**, any numbers: whatever the random number generator draws, the segments of each polygon are inserted in some order, each of them
once.  So theorems about all valid insertion orders speak about all outcomes of the shuffle. -/
theorem C60_shuffle_is_valid (d : (k len : Nat) → Draws len) (mathN : Nat → Nat → Nat) (debug : Bool) :
    Cfg.Valid ⟨fun k len => shuffledOrder len (d k len), mathN, debug⟩ :=
  fun k len => shuffledOrder_perm len (d k len)

/-- **C60**, fairness: every order of `len` segments is the outcome for exactly one sequence of drawn numbers, so that, if all sequences are equally
likely, all orders are. -/
theorem C60_every_order_once (len : Nat) (o : List Nat) (ho : o.Perm (List.range len)) :
    ∃! d : Draws len, shuffledOrder len d = o := by
  have hl : o.length = len := by rw [ho.length_eq, List.length_range]
  have hn : o.Nodup := ho.nodup_iff.2 List.nodup_range
  let f : Fin len → Fin len := fun i => ⟨o[i.val]'(by rw [hl]; exact i.2), List.mem_range.1 (ho.subset (List.getElem_mem _))⟩
  have hf : Function.Injective f := fun a b hab =>
    Fin.ext ((List.Nodup.getElem_inj_iff hn).1 (congrArg Fin.val hab))
  obtain ⟨d, hd⟩ := (permOf_bijective len).2 (Equiv.ofBijective f (Finite.injective_iff_bijective.1 hf))
  refine ⟨d, ?_, fun d' hd' => shuffledOrder_inj len ?_⟩
  · simp only
    rw [permOf_spec, hd]
    refine List.ext_getElem (by rw [hl, List.length_ofFn]) fun k h1 h2 => ?_
    rw [List.getElem_ofFn]
    rfl
  · rw [hd', permOf_spec, hd]
    refine List.ext_getElem (by rw [hl, List.length_ofFn]) fun k h1 h2 => ?_
    rw [List.getElem_ofFn]
    rfl

variable {I V K : Type} [Field K] [LinearOrder K] [IsStrictOrderedRing K] [DecidableEq I]

section
attribute [local instance] exact

/-- **C60**, expected cost: if the numbers drawn for the shuffles are independent and uniform, that is, averaged over all sequences of drawn numbers,
the trapezoidation of a valid set of `m` polygons with `n` vertices together costs at most
`80 n (log* n + 1) + 31 (m - 1) n (log n + 1)`, with the schedule `math_n` computed with errors of at most two percent in each operation. -/
theorem C60_expected_cost_of_draws (p : PolyList I V) (xy : V → Coords K) (gs : List (List (I × Coords K)))
    (hd : Describes p xy gs) (hv : ValidPolys (gs.map (List.map Prod.snd))) (mathN : Nat → Nat → Nat) (hm : MathN mathN) :
    ∃ cost : (∀ j : Fin gs.length, Draws (gs.get j).length) → Nat,
      (∃ N, ∀ d, ∃ st, ∀ cfg : Cfg, cfg.mathN = mathN →
        (∀ j : Fin gs.length, cfg.order j (gs.get j).length = shuffledOrder _ (d j)) →
        ∀ fuel ≥ N, trapezoidizeC cfg fuel p xy = .ok (st, cost d)) ∧
      (∑ d, (cost d : ℝ)) / Fintype.card (∀ j : Fin gs.length, Draws (gs.get j).length) ≤
        80 * gs.flatten.length * (logStar gs.flatten.length + 1) +
        31 * (gs.length - 1 : ℕ) * gs.flatten.length * (Real.logb 2 gs.flatten.length + 1) := by
  obtain ⟨cost, ⟨N, h1⟩, h2⟩ := C55_expected_cost_polygons p xy gs hd hv mathN hm
  have hb : Function.Bijective fun (d : ∀ j : Fin gs.length, Draws (gs.get j).length) j => permOf _ (d j) :=
    Function.Bijective.piMap fun j => permOf_bijective _
  refine ⟨fun d => cost fun j => permOf _ (d j), ⟨N, fun d => ?_⟩, ?_⟩
  · obtain ⟨st, h3⟩ := h1 fun j => permOf _ (d j)
    exact ⟨st, fun cfg hc ho => h3 cfg hc fun j => (ho j).trans (permOf_spec _ _)⟩
  · rw [Fintype.card_of_bijective hb, hb.sum_comp fun σ => (cost σ : ℝ)]
    exact h2

end

section Examples

/-- C60: if 0 is drawn every time, the result is a rotation. -/
example : shuffledOrder 4 (fun _ => 0) = [1, 2, 3, 0] := by decide

/-- C60: the order 3, 1, 0, 2 is the result of one sequence of draws. -/
example : ∃! d : Draws 4, shuffledOrder 4 d = [3, 1, 0, 2] := C60_every_order_once 4 _ (by decide)

attribute [local instance] exact

/-- C60: the hypotheses hold for a square with a hole. -/
example : ∃ cost : (∀ j : Fin 2, Draws ((indexedFrom (id : Coords ℚ → Coords ℚ) 0 holed).get j).length) → Nat,
    (∑ d, (cost d : ℝ)) / Fintype.card (∀ j : Fin 2, Draws ((indexedFrom (id : Coords ℚ → Coords ℚ) 0 holed).get j).length) ≤
      80 * 9 * (logStar 9 + 1) + 31 * (2 - 1 : ℕ) * 9 * (Real.logb 2 9 + 1) := by
  obtain ⟨cost, -, h⟩ := C60_expected_cost_of_draws _ _ _ holed_describes holed_valid exactMathN exactMathN_ok
  have e1 : (indexedFrom (id : Coords ℚ → Coords ℚ) 0 holed).flatten.length = 9 := by decide +kernel
  have e2 : (indexedFrom (id : Coords ℚ → Coords ℚ) 0 holed).length - 1 = 2 - 1 := by decide +kernel
  exact ⟨cost, h.trans_eq (by rw [e1, e2]; norm_num)⟩

end Examples

end Tri
