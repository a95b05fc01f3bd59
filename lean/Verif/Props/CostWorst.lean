import Verif.Proof.CostFail
import Verif.Proof.Ending
import Verif.Props.Cost
import Verif.Props.Undetected

/-!
# C58: the cost of trapezoidation in the worst case

`trapezoidizeT` (`Verif/Model/CostFail.lean`) is the trapezoidation with a count of the iterations of its loops that is kept when
the run fails.  Here the input may be anything: several polygons, edges that cross, coincident vertices, floats and NaN;
comparisons may answer anything.
-/

namespace Tri

section
variable {I V C : Type} [Scalar C] [DecidableEq I]

/-- **C58**: the count does not change the run, and if the run succeeds then it is the count of C50. -/
theorem C58_counts_the_code (cfg : Cfg) (fuel : Nat) (p : PolyList I V) (xy : V → Coords C) :
    (trapezoidizeT cfg fuel p xy).2 = trapezoidize cfg fuel p xy ∧
    ∀ st k, trapezoidizeC cfg fuel p xy = .ok (st, k) → (trapezoidizeT cfg fuel p xy).1 = k :=
  ⟨trapezoidizeT_snd cfg fuel p xy, fun _ _ => trapezoidizeT_count⟩

/-- **C58**, nothing is left out: if a trapezoidation without debug checks ends, with a result, an error value or a panic, after
`k` counted iterations, then no loop or search in it made more than `k`: with every one of them cut off after `k + 1`, the run
ends the same. -/
theorem C58_covers_every_loop (cfg : Cfg) (hd : cfg.debug = false) (fuel : Nat) (p : PolyList I V) (xy : V → Coords C)
    (h : trapezoidize cfg fuel p xy ≠ .error .timeout) :
    trapezoidize cfg ((trapezoidizeT cfg fuel p xy).1 + 1) p xy = trapezoidize cfg fuel p xy := by
  have := trapezoidizeT_cov cfg hd p xy fuel ((trapezoidizeT cfg fuel p xy).1 + 1)
    (by rw [trapezoidizeT_snd]; exact h) (Nat.lt_succ_self _)
  rw [← trapezoidizeT_snd, this, trapezoidizeT_snd]

theorem cost_worst (cfg : Cfg) (hcfg : cfg.Valid) (fuel : Nat) (p : PolyList I V) (xy : V → Coords C) {R : Nat}
    (hR : ∀ len ≤ p.elems.length, relocations cfg len ≤ R) :
    (trapezoidizeT cfg fuel p xy).1 ≤ p.elems.length * (6 * p.elems.length + 10 + R * (2 * p.elems.length + 4)) := by
  have hc := conts_le p.elems
  refine (trapezoidizeT_worst cfg hcfg fuel p xy fun len hl => hR len (hl.trans hc)).trans ?_
  refine Nat.mul_le_mul hc (Nat.add_le_add ?_ (Nat.mul_le_mul_left R ?_))
  · unfold enough; omega
  · unfold enough; omega

/-- **C58**, any schedule: the trapezoidation of an input with `n` elements of the index iterator makes at most
`n (6 n + 10 + R (2 n + 4))` iterations before it ends, however it ends, in every insertion order, if the schedule asks for at
most `R` relocations in each polygon: the next one is due after the last step, or at a step that has passed. -/
theorem C58_worst_case_any_schedule (cfg : Cfg) (hcfg : cfg.Valid) (fuel : Nat) (p : PolyList I V) (xy : V → Coords C)
    (R : Nat) (hR : ∀ len ≤ p.elems.length, len ≤ cfg.mathN len (R + 1) ∨
      (0 < R ∧ cfg.mathN len (R + 1) ≤ cfg.mathN len R)) :
    (trapezoidizeT cfg fuel p xy).1 ≤ p.elems.length * (6 * p.elems.length + 10 + R * (2 * p.elems.length + 4)) :=
  cost_worst cfg hcfg fuel p xy fun len hl => relocs_le (hR len hl)

/-- **C58**, no schedule: whatever the numbers that `math_n` computes and however the run ends, the cost is at most cubic. -/
theorem C58_worst_case_no_schedule (cfg : Cfg) (hcfg : cfg.Valid) (fuel : Nat) (p : PolyList I V) (xy : V → Coords C) :
    (trapezoidizeT cfg fuel p xy).1 ≤
      p.elems.length * (6 * p.elems.length + 10 + p.elems.length * (2 * p.elems.length + 4)) :=
  cost_worst cfg hcfg fuel p xy fun len hl => ((Finset.card_filter_le _ _).trans (Finset.card_range len).le).trans hl

/-- **C58**: if the schedule of relocations is `math_n`, computed with errors of at most two percent in each operation, then the
trapezoidation of an input with `n` elements of the index iterator makes at most `n (6 n + 10 + (log* n + 2) (2 n + 4))`
iterations in every insertion order, however it ends. -/
theorem C58_worst_case_log_star (cfg : Cfg) (hcfg : cfg.Valid) (hm : MathN cfg.mathN) (fuel : Nat) (p : PolyList I V)
    (xy : V → Coords C) :
    (trapezoidizeT cfg fuel p xy).1 ≤
      p.elems.length * (6 * p.elems.length + 10 + (logStar p.elems.length + 2) * (2 * p.elems.length + 4)) := by
  refine cost_worst cfg hcfg fuel p xy fun len hl => ?_
  rcases Nat.lt_or_ge len 3 with h3 | h3
  · have := (Finset.card_filter_le (Finset.range len) fun i => relocAt (cfg.mathN len) i = true).trans (Finset.card_range len).le
    unfold relocations
    omega
  · exact (mathN_sums hm h3).2.1.trans (Nat.add_le_add_right (logStar_mono hl) 2)

end

section Examples

attribute [local instance] exact

/-- C58: two triangles whose sides cross are trapezoidized in a release build after 25 iterations; a debug build panics after as
many. Both are within the bound. -/
example :
    ((trapezoidizeT ⟨fun _ len => List.range len, fun len _ => len, false⟩ 60 (PolyList.nested crossed) id).1 = 25 ∧
      (trapezoidizeT ⟨fun _ len => List.range len, fun len _ => len, false⟩ 60 (PolyList.nested crossed) id).2.isOk) ∧
    ((trapezoidizeT ⟨fun _ len => List.range len, fun len _ => len, true⟩ 60 (PolyList.nested crossed) id).1 = 25 ∧
      (trapezoidizeT ⟨fun _ len => List.range len, fun len _ => len, true⟩ 60 (PolyList.nested crossed) id).2.isOk = false) ∧
    25 ≤ 8 * (6 * 8 + 10 + 0 * (2 * 8 + 4)) := by
  have h : 25 = (trapezoidizeT ⟨fun _ len => List.range len, fun len _ => len, true⟩ 60 (PolyList.nested crossed) id).1 := by
    decide +kernel
  refine ⟨by decide +kernel, by decide +kernel, ?_⟩
  rw [h]
  exact C58_worst_case_any_schedule _ (fun _ _ => List.Perm.refl _) 60
    (PolyList.nested crossed) id 0 (fun len _ => .inl (Nat.le_refl _))

/-- C58: a quadrilateral with a repeated vertex is refused after 15 iterations, also if each loop is cut off after 16. -/
example :
    (trapezoidizeT (Cfg.plain (fun _ h => h) false) 60
      (PolyList.single ([⟨0, 0⟩, ⟨4, 4⟩, ⟨0, 0⟩, ⟨0, 4⟩] : List (Coords Rat))) id).1 = 15 ∧
    (∃ e, trapezoidize (Cfg.plain (fun _ h => h) false) 60
      (PolyList.single ([⟨0, 0⟩, ⟨4, 4⟩, ⟨0, 0⟩, ⟨0, 4⟩] : List (Coords Rat))) id = .error (.err (.internal e)) ∧
    trapezoidize (Cfg.plain (fun _ h => h) false) 16
      (PolyList.single ([⟨0, 0⟩, ⟨4, 4⟩, ⟨0, 0⟩, ⟨0, 4⟩] : List (Coords Rat))) id = .error (.err (.internal e))) := by
  have h1 : (trapezoidizeT (Cfg.plain (fun _ h => h) false) 60
      (PolyList.single ([⟨0, 0⟩, ⟨4, 4⟩, ⟨0, 0⟩, ⟨0, 4⟩] : List (Coords Rat))) id).1 = 15 := by decide +kernel
  have h2 : (match trapezoidize (Cfg.plain (fun _ h => h) false) 60
      (PolyList.single ([⟨0, 0⟩, ⟨4, 4⟩, ⟨0, 0⟩, ⟨0, 4⟩] : List (Coords Rat))) id with
      | .error (.err (.internal _)) => true | _ => false) = true := by decide +kernel
  refine ⟨h1, ?_⟩
  split at h2
  · next e hr =>
    have h3 := C58_covers_every_loop _ rfl 60 _ _ (by rw [hr]; exact fun h => by cases h)
    rw [h1, hr] at h3
    exact ⟨e, hr, h3⟩
  · cases h2

/-- C58: a pentagon is trapezoidized with the schedule `math_n` computed exactly, at a cost within the bound. -/
example : ∃ fuel st k, trapezoidizeC ⟨fun _ len => List.range len, exactMathN, true⟩ fuel (PolyList.single pentagon) id =
    .ok (st, k) ∧ k ≤ 5 * (6 * 5 + 10 + (logStar 5 + 2) * (2 * 5 + 4)) := by
  obtain ⟨cost, ⟨N, h⟩, -⟩ := C50_expected_cost_log_star (PolyList.single pentagon) id (indexed (pentagon.map id))
    (describes_single _ _ (by decide +kernel)) (polysOk_sound (by decide +kernel)) exactMathN exactMathN_ok
  obtain ⟨st, h⟩ := h 1
  have h' := h ⟨fun _ len => List.range len, exactMathN, true⟩ rfl (by decide) N (le_refl _)
  refine ⟨N, st, _, h', ?_⟩
  rw [← (C58_counts_the_code _ _ _ _).2 _ _ h']
  exact C58_worst_case_log_star _ (fun _ _ => List.Perm.refl _) exactMathN_ok N (PolyList.single pentagon) id

end Examples

end Tri
