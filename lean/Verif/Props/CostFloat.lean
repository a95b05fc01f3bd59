import Verif.Proof.CostSim2
import Verif.Props.CostAll
import Verif.Props.CostTri
import Verif.Props.Floats

/-!
# Properties: what a call costs with floating point coordinates (C59)

C50, C55 and C57 bound the cost of calls with exact coordinates.  Where floating point coordinates give the same answers (C41),
the cost is the same, so the bounds hold for `f32` and `f64` on the grids of C42.
-/

namespace Tri

open Finset

section
variable {I V C D W : Type} [Scalar C] [Scalar D] [DecidableEq I]

/-- **C59**, any coordinates: the cost depends on the coordinates only through the answers to comparisons and side tests
between vertices of the input.  Two inputs with the same answers are trapezoidized at the same cost, or neither is, and then triangulated
with the same result and at the same cost. -/
theorem C59_cost_depends_on_answers (cfg : Cfg) (fuel : Nat) (p : PolyList I V) (xy : V → Coords C) (p' : PolyList I W)
    (xy' : W → Coords D) (he : p'.elems = p.elems)
    (ha : SameAnswers (fun i => (p.getVertex i).map xy) (fun i => (p'.getVertex i).map xy')) :
    (trapezoidizeC cfg fuel p' xy').map Prod.snd = (trapezoidizeC cfg fuel p xy).map Prod.snd ∧
    ∀ st st', trapezoidize cfg fuel p xy = .ok st → trapezoidize cfg fuel p' xy' = .ok st' →
      ∀ fuel' F, st'.triangulateC fuel' p' xy' F = st.triangulateC fuel' p xy F := by
  have h := cost_answers cfg fuel p xy p' xy' he ha
  rw [← C50_counts_the_code cfg fuel p xy, ← C50_counts_the_code cfg fuel p' xy']
  cases h1 : trapezoidizeC cfg fuel p xy <;> cases h2 : trapezoidizeC cfg fuel p' xy' <;> rw [h1, h2] at h
  · cases h
    exact ⟨rfl, fun st st' h => by cases h⟩
  · exact h.elim
  · exact h.elim
  · obtain ⟨h3, h4⟩ := h
    refine ⟨congrArg Except.ok h4.symm, fun st st' g1 g2 => ?_⟩
    cases g1
    cases g2
    exact h3

end

variable {I V : Type} [DecidableEq I]

attribute [local instance] ieee exact

/-- **C59**: under the hypotheses of C41, a call with floating point coordinates costs what it costs with exact arithmetic, valid
input or not, whatever the format, the order, the schedule and the build. -/
theorem C59_clear_input_same_cost (f : FloatFormat) (hf : f.Usual) (cfg : Cfg) (fuel : Nat) (p : PolyList I V)
    (xy : V → Coords ℚ) (hs : ∀ i v, p.getVertex i = some v → f.Sound (xy v))
    (hc : ∀ i j k u v w, p.getVertex i = some u → p.getVertex j = some v → p.getVertex k = some w →
      xy u ≠ xy v → (xy w).y ≠ (xy v).y → (xy w).y ≠ (xy u).y →
      f.Clear (xy u) (xy v) (xy w) ∨ f.NoRounding (xy u) (xy v) (xy w)) :
    (trapezoidizeC cfg fuel p (fun v => (xy v).toFl f)).map Prod.snd = (trapezoidizeC cfg fuel p xy).map Prod.snd ∧
    ∀ st st', trapezoidize cfg fuel p xy = .ok st → trapezoidize cfg fuel p (fun v => (xy v).toFl f) = .ok st' →
      ∀ fuel' F, st'.triangulateC fuel' p (fun v => (xy v).toFl f) F = st.triangulateC fuel' p xy F :=
  C59_cost_depends_on_answers cfg fuel p xy p _ rfl (answers_toFl hf p xy hs hc)

/-- The grids of C42: `f64` with integers of at most 25 bits times `2 ^ k`, `-537 ≤ k ≤ 484`, or `f32` with at most 11 bits and
`-74 ≤ k ≤ 50`. -/
theorem grid_answers (f : FloatFormat) (k : Int) (L : Nat)
    (hf : (f = binary64 ∧ L = 25 ∧ -537 ≤ k ∧ k ≤ 484) ∨ (f = binary32 ∧ L = 11 ∧ -74 ≤ k ∧ k ≤ 50))
    (p : PolyList I V) (xy : V → Coords ℚ) (hg : ∀ i v, p.getVertex i = some v →
      ∃ m n : Int, |m| ≤ 2 ^ L ∧ |n| ≤ 2 ^ L ∧ (xy v).x = m * pow2 k ∧ (xy v).y = n * pow2 k) :
    SameAnswers (fun i => (p.getVertex i).map xy) (fun i => (p.getVertex i).map fun v => (xy v).toFl f) := by
  have key : ∀ (hu : f.Usual) (_ : 2 * L + 2 ≤ f.p) (_ : f.emin ≤ k ∧ f.emin ≤ 2 * k ∧ 2 * ((L : Int) + k) + 6 ≤ f.emax), _ :=
    fun hu hp hk => answers_toFl hu p xy (fun i v h => grid_sound hu hp hk.1 hk.2.2 (hg i v h))
      (fun i j l u v w hu hv hw _ _ _ => .inr (grid_exact hp hk.1 hk.2.1 (hg i u hu) (hg j v hv) (hg l w hw)))
  rcases hf with ⟨rfl, rfl, h1, h2⟩ | ⟨rfl, rfl, h1, h2⟩
  · exact key usual64 (by decide) (by simp only [binary64]; omega)
  · exact key usual32 (by decide) (by simp only [binary32]; omega)

/-- **C59**, trapezoidation: for a valid set of `m` polygons with `n` vertices together, with coordinates in `f64` on a grid of 25
bits or in `f32` on a grid of 11 bits, and the schedule `math_n` computed with errors of at most two percent in each operation, the
trapezoidation costs at most `80 n (log* n + 1) + 31 (m - 1) n (log n + 1)`, averaged over all choices of an insertion order for
each polygon. -/
theorem C59_grid_expected_cost (f : FloatFormat) (k : Int) (L : Nat)
    (hf : (f = binary64 ∧ L = 25 ∧ -537 ≤ k ∧ k ≤ 484) ∨ (f = binary32 ∧ L = 11 ∧ -74 ≤ k ∧ k ≤ 50))
    (p : PolyList I V) (xy : V → Coords ℚ) (gs : List (List (I × Coords ℚ)))
    (hd : Describes p xy gs) (hv : ValidPolys (gs.map (List.map Prod.snd)))
    (hg : ∀ i v, p.getVertex i = some v →
      ∃ m n : Int, |m| ≤ 2 ^ L ∧ |n| ≤ 2 ^ L ∧ (xy v).x = m * pow2 k ∧ (xy v).y = n * pow2 k)
    (mathN : Nat → Nat → Nat) (hm : MathN mathN) :
    ∃ (N : Nat) (cost : (∀ j : Fin gs.length, Equiv.Perm (Fin (gs.get j).length)) → Nat),
      (∀ σ, ∀ cfg : Cfg, cfg.mathN = mathN →
        (∀ j : Fin gs.length, cfg.order j (gs.get j).length = List.ofFn (fun i => (σ j i).val)) → ∀ fuel ≥ N,
          ∃ st, trapezoidizeC cfg fuel p (fun v => (xy v).toFl f) = .ok (st, cost σ)) ∧
      (∑ σ, (cost σ : ℝ)) / Fintype.card (∀ j : Fin gs.length, Equiv.Perm (Fin (gs.get j).length)) ≤
        80 * gs.flatten.length * (logStar gs.flatten.length + 1) +
        31 * (gs.length - 1 : ℕ) * gs.flatten.length * (Real.logb 2 gs.flatten.length + 1) := by
  obtain ⟨cost, ⟨N, h1⟩, h2⟩ := C55_expected_cost_polygons p xy gs hd hv mathN hm
  refine ⟨N, cost, fun σ cfg hc ho fuel hN => ?_, h2⟩
  obtain ⟨st, h1⟩ := h1 σ
  have h3 := (C59_cost_depends_on_answers cfg fuel p xy p _ rfl (grid_answers f k L hf p xy hg)).1
  rw [h1 cfg hc ho fuel hN] at h3
  cases h4 : trapezoidizeC cfg fuel p (fun v => (xy v).toFl f) with
  | error e => rw [h4] at h3; cases h3
  | ok r =>
    rw [h4] at h3
    exact ⟨r.1, congrArg Except.ok (Prod.ext rfl (Except.ok.inj h3))⟩

/-- **C59**, the triangulation step: for a valid set of polygons with `n` vertices together, with coordinates on such a grid, the
step takes at most `3 n² + 28 n` evaluations of loop conditions and calls of the format, and for a single polygon at most
`n² + 14 n`. -/
theorem C59_grid_triangulation_step (f : FloatFormat) (k : Int) (L : Nat)
    (hf : (f = binary64 ∧ L = 25 ∧ -537 ≤ k ∧ k ≤ 484) ∨ (f = binary32 ∧ L = 11 ∧ -74 ≤ k ∧ k ≤ 50))
    (p : PolyList I V) (xy : V → Coords ℚ) (gs : List (List (I × Coords ℚ)))
    (hd : Describes p xy gs) (hv : ValidPolys (gs.map (List.map Prod.snd))) (hne : gs ≠ [])
    (hg : ∀ i v, p.getVertex i = some v →
      ∃ m n : Int, |m| ≤ 2 ^ L ∧ |n| ≤ 2 ^ L ∧ (xy v).x = m * pow2 k ∧ (xy v).y = n * pow2 k)
    (cfg : Cfg) (hcfg : cfg.Valid) : ∀ fuel ≥ (p.elems.length + 3) ^ 2,
    ∃ st, trapezoidize cfg fuel p (fun v => (xy v).toFl f) = .ok st ∧
      ∀ F : FanFormat I,
        (st.triangulateC fuel p (fun v => (xy v).toFl f) F).2 ≤ 3 * gs.flatten.length ^ 2 + 28 * gs.flatten.length ∧
        ∀ g, gs = [g] → (st.triangulateC fuel p (fun v => (xy v).toFl f) F).2 ≤ g.length ^ 2 + 14 * g.length := by
  intro fuel hfuel
  obtain ⟨st, h1⟩ := C57_quadratic_bound p xy gs hd hv hne cfg hcfg
  obtain ⟨h1, h2⟩ := h1 fuel hfuel
  obtain ⟨h3, h4⟩ := C59_cost_depends_on_answers cfg fuel p xy p _ rfl (grid_answers f k L hf p xy hg)
  have h5 := C50_counts_the_code cfg fuel p xy
  have h6 := C50_counts_the_code cfg fuel p (fun v => (xy v).toFl f)
  rw [h1] at h5
  cases h7 : trapezoidizeC cfg fuel p xy with
  | error e => rw [h7] at h5; cases h5
  | ok r =>
    cases h8 : trapezoidizeC cfg fuel p (fun v => (xy v).toFl f) with
    | error e => rw [h7, h8] at h3; cases h3
    | ok r' =>
      rw [h8] at h6
      refine ⟨r'.1, h6.symm, fun F => ?_⟩
      rw [h4 st r'.1 h1 h6.symm fuel F]
      exact h2 F

section Examples

/-- The square with a hole is on the grid. -/
theorem holed_grid (L : Nat) (hL : 11 ≤ L) : ∀ i v, (PolyList.nested holed).getVertex i = some v →
    ∃ m n : Int, |m| ≤ 2 ^ L ∧ |n| ≤ 2 ^ L ∧ v.x = m * pow2 0 ∧ v.y = n * pow2 0 := by
  intro i v h
  have hm : v ∈ holed.flatten := by
    obtain ⟨g, h1, h2⟩ := Option.bind_eq_some_iff.1 (show (holed[i.1]?.bind fun p => p[i.2]?) = some v from h)
    exact List.mem_flatten.2 ⟨g, List.mem_of_getElem? h1, List.mem_of_getElem? h2⟩
  have h1 : ∀ v ∈ holed.flatten, |v.x.num| ≤ 2 ^ 11 ∧ |v.y.num| ≤ 2 ^ 11 ∧ v.x = v.x.num * pow2 0 ∧ v.y = v.y.num * pow2 0 := by
    decide +kernel
  obtain ⟨a, b, c, d⟩ := h1 v hm
  have : (2 : Int) ^ 11 ≤ 2 ^ L := by exact_mod_cast Nat.pow_le_pow_right (by decide) hL
  exact ⟨_, _, a.trans this, b.trans this, c, d⟩

/-- C59: the hypotheses hold for the square with a hole, in `f32` and in `f64`, with the schedule `math_n` computed exactly. -/
example : ∃ N, ∀ cfg : Cfg, cfg.mathN = exactMathN → cfg.order 0 5 = [0, 1, 2, 3, 4] → cfg.order 1 4 = [0, 1, 2, 3] → ∀ fuel ≥ N,
    ∃ st k, trapezoidizeC cfg fuel (PolyList.nested holed) (Coords.toFl binary32) = .ok (st, k) := by
  obtain ⟨N, cost, h, -⟩ := C59_grid_expected_cost binary32 0 11 (.inr ⟨rfl, rfl, by decide, by decide⟩) _ _ _ holed_describes
    holed_valid (holed_grid 11 (by decide)) exactMathN exactMathN_ok
  refine ⟨N, fun cfg h1 h2 h3 fuel hf => ?_⟩
  obtain ⟨st, h4⟩ := h (fun _ => 1) cfg h1 (fun j => match j with
    | ⟨0, _⟩ => h2
    | ⟨1, _⟩ => h3) fuel hf
  exact ⟨st, _, h4⟩

example : ∃ st, trapezoidize (Cfg.plain (fun _ _ => 0) true) 400 (PolyList.nested holed) (Coords.toFl binary64) = .ok st ∧
    ∀ F, (st.triangulateC 400 (PolyList.nested holed) (Coords.toFl binary64) F).2 ≤ 3 * 9 ^ 2 + 28 * 9 := by
  obtain ⟨st, h1, h2⟩ := C59_grid_triangulation_step binary64 0 25 (.inl ⟨rfl, rfl, by decide, by decide⟩) _ _ _ holed_describes
    holed_valid holed_ne (holed_grid 25 (by decide)) _ (Cfg.plain_valid (fun _ _ => 0) true) 400 (by decide +kernel)
  exact ⟨st, h1, fun F => (h2 F).1.trans (by decide +kernel)⟩

/-- C59: clear input off the grid. -/
example (cfg : Cfg) (fuel : Nat) : (trapezoidizeC cfg fuel (PolyList.single tenths) (Coords.toFl binary64)).map Prod.snd =
    (trapezoidizeC cfg fuel (PolyList.single tenths) id).map Prod.snd :=
  (C59_clear_input_same_cost binary64 usual64 cfg fuel _ id tenths_sound
    (fun i j k u v w hu hv hw h1 h2 h3 => .inl (tenths_clear i j k u v w hu hv hw h1 h2 h3))).1

end Examples

end Tri
