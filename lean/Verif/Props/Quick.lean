import Verif.Proof.QuickFail
import Verif.Proof.CostEnough
import Verif.Proof.FuelRun
import Verif.Props.Ending

/-!
# C65: a call that does not return soon never returns

For an arbitrary `Scalar`, as C37 to C39: comparisons and arithmetic on coordinates may answer anything, so NaN,
infinities, rounding and invalid polygons are included.
-/

namespace Tri

section
variable {I V C : Type} [Scalar C] [DecidableEq I]

/-- **C65.**  For every input, however invalid, and every shuffled order, schedule and format: with `n` the number of
elements of the index iterator, giving each loop more than `(6 n + 4)²` passes changes nothing.  If some loop has not
ended then, it never ends. -/
theorem C65_soon_or_never (cfg : Cfg) (hcfg : cfg.Valid) (p : PolyList I V) (xy : V → Coords C) (F : FanFormat I) :
    (∀ fuel ≥ (6 * p.elems.length + 4) ^ 2,
      triangulate cfg fuel p xy F = triangulate cfg ((6 * p.elems.length + 4) ^ 2) p xy F) ∧
    ((triangulate cfg ((6 * p.elems.length + 4) ^ 2) p xy F).2 = .error .timeout →
      ∀ fuel, (triangulate cfg fuel p xy F).2 = .error .timeout) := by
  have key : ∀ fuel ≥ (6 * p.elems.length + 4) ^ 2,
      triangulate cfg fuel p xy F = triangulate cfg ((6 * p.elems.length + 4) ^ 2) p xy F := by
    intro fuel hf
    obtain ⟨r, h1, -⟩ := C37_trapezoidation_ends cfg hcfg p xy
    have hle : 2 * p.elems.length + 3 ≤ (6 * p.elems.length + 4) ^ 2 := by nlinarith
    unfold triangulate
    rw [h1 fuel (by omega), h1 _ hle]
    rcases r with e | st
    · cases e <;> rfl
    · obtain ⟨hwf, ht, hk, hlen⟩ := trapezoidize_done cfg hcfg p xy (h1 _ (Nat.le_refl _))
      show st.triangulate fuel p xy F = st.triangulate _ p xy F
      have hm : (3 * st.ts.length + 1) ^ 2 ≤ (6 * p.elems.length + 4) ^ 2 := Nat.pow_le_pow_left (by omega) 2
      rw [triangulate_eq_play, triangulate_eq_play, innerTrace_quick F.winding p xy hwf ht hk fuel (hm.trans hf),
        innerTrace_quick F.winding p xy hwf ht hk _ hm]
  refine ⟨key, fun h fuel => ?_⟩
  by_contra hne
  rcases Nat.le_total fuel ((6 * p.elems.length + 4) ^ 2) with hle | hle
  · rw [triangulate_more cfg p xy F hle hne] at h
    exact hne h
  · rw [key fuel hle] at hne
    exact hne h

/-- **C65**: whatever the input, and even if the run never ends, a format is asked for little: at most `6 n + 3` triangles, and at
most one operation besides, which ends the run. -/
theorem C65_few_calls (cfg : Cfg) (hcfg : cfg.Valid) (fuel : Nat) (p : PolyList I V) (xy : V → Coords C) (F : FanFormat I) :
    (triangulate cfg fuel p xy F.logged).1.2.length ≤ 6 * p.elems.length + 4 := by
  unfold triangulate
  rcases hT : trapezoidize cfg fuel p xy with e | st
  · cases e <;> exact Nat.zero_le _
  · obtain ⟨hwf, ht, hk, hlen⟩ := trapezoidize_done cfg hcfg p xy hT
    show (st.triangulate fuel p xy F.logged).1.2.length ≤ _
    rw [triangulate_eq_play, play_logged]
    have h1 := innerTrace_calls F.logged.winding p xy hwf ht hk fuel
    have h2 := logOf_length F (innerTrace F.logged.winding fuel p xy st).calls (innerTrace F.logged.winding fuel p xy st).res
    show (logOf F _ _).length ≤ _
    omega

/-- **C65**: every triangulation step that ends, with a success, an error of the library or the format, or a panic, takes at most
quadratic time, also if the polygons are invalid or the arithmetic is not exact. -/
theorem C65_quadratic_time (cfg : Cfg) (hcfg : cfg.Valid) (fuel0 : Nat) (p : PolyList I V) (xy : V → Coords C)
    (st : St I C) (hT : trapezoidize cfg fuel0 p xy = .ok st) (fuel : Nat) (F : FanFormat I)
    (h : (st.triangulate fuel p xy F).2 ≠ .error .timeout) :
    (st.triangulateC fuel p xy F).2 ≤ 72 * p.elems.length ^ 2 + 124 * p.elems.length + 45 := by
  obtain ⟨hwf, ht, hk, hlen⟩ := trapezoidize_done cfg hcfg p xy hT
  have e1 := triangulateC_more F p xy st (Nat.le_max_left fuel ((3 * st.ts.length + 1) ^ 2)) h
  have e2 : st.triangulate (max fuel ((3 * st.ts.length + 1) ^ 2)) p xy F = st.triangulate ((3 * st.ts.length + 1) ^ 2) p xy F := by
    rw [triangulate_eq_play, triangulate_eq_play, innerTrace_quick F.winding p xy hwf ht hk _ (Nat.le_max_right _ _)]
  have h' : (st.triangulate ((3 * st.ts.length + 1) ^ 2) p xy F).2 ≠ .error .timeout := by
    rw [← e2, ← (triangulateC_eq _ p xy st F).1, e1, (triangulateC_eq _ p xy st F).1]
    exact h
  have e3 := triangulateC_more F p xy st (Nat.le_max_right fuel ((3 * st.ts.length + 1) ^ 2)) h'
  rw [← e1, e3]
  have h1 := innerEvents_any F.winding p xy hwf ht hk ((3 * st.ts.length + 1) ^ 2) (by nlinarith)
  have h2 := (triangulateC_eq ((3 * st.ts.length + 1) ^ 2) p xy st F).2.1
  have h3 : (3 * st.ts.length) ^ 2 ≤ (6 * p.elems.length + 3) ^ 2 := Nat.pow_le_pow_left (by omega) 2
  have h4 : (3 * st.ts.length + 1) ^ 2 ≤ (6 * p.elems.length + 4) ^ 2 := Nat.pow_le_pow_left (by omega) 2
  nlinarith

/-- **C65**: the bound for a triangulation that succeeds. -/
theorem C65_quadratic_time_of_success (cfg : Cfg) (hcfg : cfg.Valid) (fuel0 : Nat) (p : PolyList I V) (xy : V → Coords C) (st : St I C)
    (hT : trapezoidize cfg fuel0 p xy = .ok st) (fuel : Nat) (F : FanFormat I) (o : F.O)
    (h : (st.triangulate fuel p xy F).2 = .ok o) :
    (st.triangulateC fuel p xy F).2 ≤ 36 * p.elems.length ^ 2 + 76 * p.elems.length + 29 := by
  obtain ⟨hwf, ht, hk, hlen⟩ := trapezoidize_done cfg hcfg p xy hT
  have hres : (innerTrace F.winding fuel p xy st).res = .ok () := by
    rw [triangulate_eq_interp] at h
    rcases hr : innerTrace F.winding fuel p xy st with ⟨cs, e | u⟩
    · rw [hr] at h
      simp only [interp] at h
      generalize feed F cs .uninit = z at h
      rcases z with ⟨s, e' | u⟩
      · rcases s with _ | b | b | w <;> rcases e' with e' | _ | _ | _ <;> cases h
      · rcases s with _ | b | b | w <;> rcases e with e | _ | _ | _ <;> cases h
    · rfl
  have h1 := innerEvents_quick F.winding p xy hwf ht hk fuel hres
  have h2 := (triangulateC_eq fuel p xy st F).2.1
  have h3 : (3 * st.ts.length) ^ 2 ≤ (6 * p.elems.length + 3) ^ 2 := Nat.pow_le_pow_left (by omega) 2
  nlinarith

end

section
attribute [local instance] exact

/-- C65: the closed ring of C40 is a run that never ends: here this is known after 784 steps. -/
example (fuel : Nat) : (triangulate (ringCfg [1, 2, 0, 3] true) fuel (PolyList.single closedRing) id (recorder Nat .clockwise)).2 =
    .error .timeout :=
  (C65_soon_or_never _ (ringCfg_valid _ (by decide) _) _ _ _).2 (by decide +kernel) fuel

/-- A polygon with five different vertices, two edges of which cross. -/
def crossing : List (Coords Int) := [ipt 4 0, ipt 0 2, ipt 3 0, ipt 5 5, ipt 3 1]

/-- The values of `math_n` for five vertices (`math.rs:15-21`). -/
def mathN5 : Nat → Nat → Nat := fun _ h => if h = 0 then 1 else if h = 1 then 3 else if h = 2 then 5 else 18

/-- **C65**: `triangulate` may also run forever if no vertex is repeated: on this polygon with edges that cross it does in a release
build, with the edges inserted in their order, after two triangles. -/
theorem C65_crossing_runs_forever (w : Winding) (fuel : Nat) :
    crossing.Nodup ∧
    (triangulate (Cfg.plain mathN5 false) fuel (PolyList.single crossing) id (recorder Nat w)).2 = .error .timeout ∧
    (1156 ≤ fuel → (triangulate (Cfg.plain mathN5 false) fuel (PolyList.single crossing) id (recorder Nat w)).1.length = 2) := by
  obtain ⟨h1, h2⟩ := C65_soon_or_never (Cfg.plain mathN5 false) (Cfg.plain_valid _ _) (PolyList.single crossing) id (recorder Nat w)
  have hc : ∀ w, (triangulate (Cfg.plain mathN5 false) 1156 (PolyList.single crossing) id (recorder Nat w)).2 = .error .timeout ∧
      (triangulate (Cfg.plain mathN5 false) 1156 (PolyList.single crossing) id (recorder Nat w)).1.length = 2 := by
    intro w
    cases w <;> decide +kernel
  refine ⟨by decide, h2 (hc w).1 fuel, fun hf => ?_⟩
  rw [h1 fuel hf]
  exact (hc w).2

/-- C65: a polygon with edges that cross for which the run succeeds.  The bound is 1309 and this run takes 28. -/
example : (trapezoidize (Cfg.plain mathN5 false) 60 (PolyList.single [ipt 3 0, ipt 1 4, ipt 0 0, ipt 5 4, ipt 2 5]) id).map
    (fun st => ((st.triangulate 60 (PolyList.single [ipt 3 0, ipt 1 4, ipt 0 0, ipt 5 4, ipt 2 5]) id
        (recorder Nat .clockwise)).2.toOption.map List.length,
      (st.triangulateC 60 (PolyList.single [ipt 3 0, ipt 1 4, ipt 0 0, ipt 5 4, ipt 2 5]) id (recorder Nat .clockwise)).2)) =
    .ok (some 3, 28) := by
  decide +kernel

/-- C65: the cost of a triangulation step that fails, on a polygon with edges that cross. -/
example : (trapezoidize (Cfg.plain (fun _ _ => 1) false) 60 (PolyList.single [ipt 4 0, ipt 0 1, ipt 2 2, ipt 1 1, ipt 3 0]) id).map
    (fun st => ((st.triangulate 60 (PolyList.single [ipt 4 0, ipt 0 1, ipt 2 2, ipt 1 1, ipt 3 0]) id
        (recorder Nat .clockwise)).2.toOption.map List.length,
      (st.triangulateC 60 (PolyList.single [ipt 4 0, ipt 0 1, ipt 2 2, ipt 1 1, ipt 3 0]) id (recorder Nat .clockwise)).2)) =
    .ok (none, 15) := by
  decide +kernel

end

end Tri
