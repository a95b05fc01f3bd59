import Mathlib.Analysis.Complex.ExponentialBounds
import Mathlib.Algebra.Order.Floor.Semiring
import Mathlib.Tactic.Linarith
import Mathlib.Tactic.Positivity
import Mathlib.Tactic.FieldSimp
import Verif.Model.MathN
import Verif.Spec.LogStar
import Verif.Proof.CostRun

/-!
# The sums for the schedule of relocations of the code
-/

namespace Tri

open Finset

/-- The expected number of changes to the trapezoid of a vertex since the last relocation, up to a factor. -/
noncomputable def gap (m : Nat → Nat) (i : Nat) : ℝ := ∑ l ∈ Ico (since m i) i, 1 / ((l : ℝ) + 1)

/-- The sum over the relocations before step `e` of `n` divided by the step of the relocation. -/
noncomputable def relocSum (m : Nat → Nat) (n e : Nat) : ℝ := ∑ i ∈ range e, if relocAt m i then (n : ℝ) / (i + 2) else 0

theorem log_le_div_e {x : ℝ} (hx : 0 < x) : Real.log x ≤ x / Real.exp 1 := by
  have h := Real.log_le_sub_one_of_pos (div_pos hx (Real.exp_pos 1))
  rw [Real.log_div hx.ne' (Real.exp_pos 1).ne', Real.log_exp] at h
  linarith

theorem logb_le {x : ℝ} (hx : 0 < x) : Real.logb 2 x ≤ 3 / 5 * x := by
  have h1 := log_le_div_e hx
  have h2 := Real.exp_one_gt_d9
  have h3 := Real.log_two_gt_d9
  unfold Real.logb
  rw [div_le_iff₀ (by linarith)]
  refine h1.trans ?_
  rw [div_le_iff₀ (by linarith)]
  have h4 : 5 / 3 ≤ Real.log 2 * Real.exp 1 := by nlinarith
  nlinarith

/-- The harmonic sum from `r` to `i`. -/
theorem sum_inv_le {r : Nat} (hr : 0 < r) : ∀ {i : Nat}, r ≤ i → ∑ l ∈ Ico r i, 1 / ((l : ℝ) + 1) ≤ Real.log (i / r) := by
  intro i hi
  have hr' : (0 : ℝ) < r := by exact_mod_cast hr
  induction i, hi using Nat.le_induction with
  | base => simp [hr'.ne']
  | succ i hi ih =>
    have hi' : (0 : ℝ) < i := lt_of_lt_of_le hr' (by exact_mod_cast hi)
    rw [sum_Ico_succ_top hi]
    have h1 := Real.log_le_sub_one_of_pos (x := (i : ℝ) / (i + 1)) (by positivity)
    have h2 : Real.log ((i : ℝ) / (i + 1)) = Real.log (i / r) - Real.log ((i + 1 : ℝ) / r) := by
      rw [Real.log_div hi'.ne' (by positivity), Real.log_div hi'.ne' hr'.ne', Real.log_div (by positivity) hr'.ne']
      ring
    have h3 : (i : ℝ) / (i + 1) - 1 = - (1 / (i + 1)) := by field_simp; ring
    push_cast
    linarith

theorem sum_inv_zero_le {i : Nat} (hi : 0 < i) : ∑ l ∈ Ico 0 i, 1 / ((l : ℝ) + 1) ≤ 1 + Real.log i := by
  rw [sum_eq_sum_Ico_succ_bot hi]
  have h := sum_inv_le (r := 1) Nat.one_pos (i := i) hi
  simp only [Nat.cast_one, div_one] at h
  simpa using h

/-- `n` after `h` logarithms. -/
noncomputable def logs (n h : Nat) : ℝ := (Real.logb 2)^[h] n

theorem logs_succ (n h : Nat) : logs n (h + 1) = Real.logb 2 (logs n h) := by
  unfold logs; rw [Function.iterate_succ_apply']

theorem logs_succ_pos {n h : Nat} (hh : 1 < logs n h) : 0 < logs n (h + 1) := by
  rw [logs_succ]; exact Real.logb_pos (by norm_num) hh

/-- The iterated logarithms get small. -/
theorem logs_small (n : Nat) : ∃ h, logs n h ≤ 1 := by
  by_contra hc
  push Not at hc
  have key : ∀ h, logs n h ≤ (3 / 5) ^ h * n := by
    intro h
    induction h with
    | zero => simp [logs]
    | succ h ih =>
      rw [logs_succ]
      have := logb_le (lt_trans one_pos (hc h))
      calc _ ≤ _ := this
        _ ≤ 3 / 5 * ((3 / 5) ^ h * n) := by linarith
        _ = _ := by ring
  obtain ⟨h, hh⟩ := exists_pow_lt_of_lt_one (show (0 : ℝ) < 1 / (n + 1) by positivity) (show (3 / 5 : ℝ) < 1 by norm_num)
  have h1 := key h
  have h2 := hc h
  have hn : (0 : ℝ) ≤ n := Nat.cast_nonneg n
  have h3 : (3 / 5 : ℝ) ^ h * n ≤ 1 / (n + 1) * n := mul_le_mul_of_nonneg_right hh.le hn
  have h4 : 1 / ((n : ℝ) + 1) * n ≤ 1 := by
    rw [div_mul_eq_mul_div, div_le_one (by positivity)]; linarith
  linarith

theorem logStar_spec (n : Nat) : logs n (logStar n) ≤ 1 ∧ ∀ h < logStar n, 1 < logs n h := by
  obtain ⟨h0, hh0⟩ := logs_small n
  refine ⟨Nat.sInf_mem (s := {h | (Real.logb 2)^[h] (n : ℝ) ≤ 1}) ⟨h0, hh0⟩, fun h hh => ?_⟩
  have := Nat.notMem_of_lt_sInf hh
  exact not_le.1 this

theorem sched_stay {m : Nat → Nat} {i0 r u x : Nat} (h0 : sched m i0 = (r, u, x)) {i : Nat} (hi : i0 ≤ i) (hx : i ≤ x) :
    sched m i = (r, u, x) := by
  induction i, hi using Nat.le_induction with
  | base => exact h0
  | succ i hi ih =>
    have := ih (by omega)
    rw [sched, this, if_neg (by simp only; omega)]

/-- One phase of the schedule. -/
theorem phase {m : Nat → Nat} {i0 r u x : Nat} (h0 : sched m i0 = (r, u, x)) {e : Nat} (he : e ≤ x + 1) {b : ℝ} (hb : 0 ≤ b)
    (hr : ∀ i, i0 ≤ i → i < e → ∑ l ∈ Ico r i, 1 / ((l : ℝ) + 1) ≤ b) :
    ∑ i ∈ Ico i0 e, gap m i ≤ e * b := by
  have h1 : ∑ i ∈ Ico i0 e, gap m i ≤ ∑ _i ∈ Ico i0 e, b := by
    refine sum_le_sum fun i hi => ?_
    obtain ⟨h1, h2⟩ := mem_Ico.1 hi
    unfold gap since
    rw [sched_stay h0 h1 (by omega)]
    exact hr i h1 h2
  rw [sum_const, Nat.card_Ico, nsmul_eq_mul] at h1
  refine h1.trans (mul_le_mul_of_nonneg_right ?_ hb)
  exact_mod_cast Nat.sub_le _ _

theorem phase_reloc {m : Nat → Nat} {i0 r u x : Nat} (h0 : sched m i0 = (r, u, x)) {e : Nat} (he : e ≤ x) :
    (Ico i0 e).filter (fun i => relocAt m i = true) = ∅ := by
  refine filter_eq_empty_iff.2 fun i hi => ?_
  obtain ⟨h1, h2⟩ := mem_Ico.1 hi
  unfold relocAt
  rw [sched_stay h0 h1 (by omega)]
  simp only [decide_eq_true_eq]
  omega

/-- The number of relocations before step `j` is less than the counter. -/
theorem relocs_eq (m : Nat → Nat) (j : Nat) : ((range j).filter fun i => relocAt m i = true).card + 1 = (sched m j).2.1 := by
  induction j with
  | zero => rfl
  | succ j ih =>
    rw [range_add_one, filter_insert]
    unfold sched
    by_cases h : j = (sched m j).2.2
    · rw [if_pos (by unfold relocAt; simpa using h), if_pos h, card_insert_of_notMem (by simp)]
      simp only [← ih]
    · rw [if_neg (by unfold relocAt; simpa using h), if_neg h, ih]

theorem sched_inv (m : Nat → Nat) (j : Nat) : (sched m j).2.2 = m (sched m j).2.1 ∧
    ∀ u, (sched m j).2.1 = u + 1 → 0 < u → m u < j := by
  induction j with
  | zero => exact ⟨rfl, fun u h h0 => by simp only [sched] at h; omega⟩
  | succ j ih =>
    unfold sched
    split
    · rename_i h
      refine ⟨rfl, fun u hu h0 => ?_⟩
      have : u = (sched m j).2.1 := by simp only at hu; omega
      rw [this, ← ih.1, ← h]
      exact Nat.lt_succ_self _
    · exact ⟨ih.1, fun u hu h0 => (ih.2 u hu h0).trans (Nat.lt_succ_self _)⟩

/-- The schedule makes at most `R` relocations if the next one is never due. -/
theorem relocs_le {m : Nat → Nat} {n R : Nat} (h : n ≤ m (R + 1) ∨ (0 < R ∧ m (R + 1) ≤ m R)) :
    ((range n).filter fun i => relocAt m i = true).card ≤ R := by
  have key : ∀ j ≤ n, (sched m j).2.1 ≤ R + 1 := by
    intro j
    induction j with
    | zero => intro _; simp only [sched]; omega
    | succ j ih =>
      intro hj
      have h1 := ih (by omega)
      obtain ⟨h2, h3⟩ := sched_inv m j
      unfold sched
      split
      · rename_i hd
        rcases Nat.lt_or_ge (sched m j).2.1 (R + 1) with h4 | h4
        · exact h4
        · exfalso
          have e : (sched m j).2.1 = R + 1 := by omega
          rw [h2, e] at hd
          rcases h with h | ⟨h0, h⟩
          · omega
          · have := h3 R e h0
            omega
      · exact h1
  have h1 := key n (le_refl _)
  have h2 := relocs_eq m n
  omega

/-- Without a relocation to come, the schedule does not change. -/
theorem sched_done {m : Nat → Nat} {i0 r u x : Nat} (h0 : sched m i0 = (r, u, x)) {i : Nat} (hi : i0 ≤ i) (hx : x < i0 ∨ i ≤ x) :
    sched m i = (r, u, x) := by
  induction i, hi using Nat.le_induction with
  | base => exact h0
  | succ i hi ih =>
    have := ih (by omega)
    rw [sched, this, if_neg (by simp only; omega)]

/-- A sequence that describes a schedule of relocations for `n` steps: relocation `h` is at about `n / v h`, each value is about
the logarithm of the one before, and value `H` is the first that is at most one. -/
structure Phases (m : Nat → Nat) (n : Nat) (v : Nat → ℝ) (H : Nat) : Prop where
  three : 3 ≤ n
  zero : v 0 = n
  lower : ∀ h < H, 49 / 50 * Real.logb 2 (v h) ≤ v (h + 1)
  upper : ∀ h < H, v (h + 1) ≤ 51 / 50 * Real.logb 2 (v h)
  large : ∀ h < H, 1 < v h
  small : v H ≤ 1
  pos : 0 < v H
  least : ∀ h ≤ H, m h < n → 49 / 50 * (n / v h) ≤ m h
  most : ∀ h ≤ H, ∀ e ≤ m h + 1, e ≤ n → (e : ℝ) ≤ 51 / 50 * (n / v h) + 2
  last : n ≤ m (H + 1) ∨ m (H + 1) = 0

theorem logb_le' {x : ℝ} (hx : 0 < x) : Real.logb 2 x ≤ 27 / 50 * x := by
  have h1 := log_le_div_e hx
  have h2 := Real.exp_one_gt_d9
  have h3 := Real.log_two_gt_d9
  unfold Real.logb
  rw [div_le_iff₀ (by linarith)]
  refine h1.trans ?_
  rw [div_le_iff₀ (by linarith)]
  have h4 : 50 / 27 ≤ Real.log 2 * Real.exp 1 := by nlinarith
  nlinarith

namespace Phases

variable {m : Nat → Nat} {n : Nat} {v : Nat → ℝ} {H : Nat} (P : Phases m n v H)
include P

theorem three' : (3 : ℝ) ≤ n := by exact_mod_cast P.three

theorem posH {h : Nat} (hh : h ≤ H) : 0 < v h := by
  rcases Nat.lt_or_ge h H with h1 | h1
  · exact lt_trans one_pos (P.large h h1)
  · have : h = H := by omega
    rw [this]; exact P.pos

theorem ratio {h : Nat} (hh : h < H) : v (h + 1) ≤ 11 / 20 * v h + v h / 1000 := by
  have := P.upper h hh
  have := logb_le' (P.posH hh.le)
  have := P.posH hh.le
  linarith

theorem ratio' {h : Nat} (hh : h < H) : v (h + 1) ≤ 14 / 25 * v h := by
  have := P.ratio hh
  have := P.posH hh.le
  linarith

theorem le_n {h : Nat} (hh : h ≤ H) : v h ≤ n := by
  induction h with
  | zero => rw [P.zero]
  | succ h ih =>
    have := P.ratio' (h := h) (by omega)
    have := P.posH (h := h) (by omega)
    have := ih (by omega)
    linarith

theorem H_pos : 0 < H := by
  rcases Nat.eq_zero_or_pos H with h | h
  · have := P.small
    rw [h, P.zero] at this
    linarith [P.three']
  · exact h

theorem le_n' {h : Nat} (h0 : 0 < h) (hh : h ≤ H) : v h ≤ 14 / 25 * n := by
  obtain ⟨k, rfl⟩ : ∃ k, h = k + 1 := ⟨h - 1, by omega⟩
  have := P.ratio' (h := k) (by omega)
  have := P.le_n (h := k) (by omega)
  linarith

/-- Consecutive relocations are apart. -/
theorem apart {h : Nat} (h0 : 0 < h) (hh : h < H) (hlt : m h < n) : m h < m (h + 1) := by
  rcases Nat.lt_or_ge (m (h + 1)) n with hlt' | hge
  · have hp := P.posH hh.le
    have hp' := P.posH (h := h + 1) hh
    have h1 := P.least (h + 1) hh hlt'
    have h2 := P.most h hh.le (m h + 1) (le_refl _) hlt
    have h3 : n / v h * (25 / 14) ≤ n / v (h + 1) := by
      rw [le_div_iff₀ hp', div_mul_eq_mul_div, div_mul_eq_mul_div, div_le_iff₀ hp]
      have := P.ratio' hh
      have hnn : (0 : ℝ) ≤ n := Nat.cast_nonneg n
      nlinarith
    have h4 : (25 : ℝ) / 14 ≤ n / v h := by
      rw [le_div_iff₀ hp]
      have := P.le_n' h0 hh.le
      linarith
    have h5 : (m h : ℝ) < m (h + 1) := by
      push_cast at h2
      linarith
    exact_mod_cast h5
  · omega

theorem logb_mul {x : ℝ} : Real.logb 2 x * Real.log 2 = Real.log x := by
  rw [Real.logb, div_mul_cancel₀]
  exact (Real.log_pos (by norm_num)).ne'

/-- The first phase. -/
theorem first {e : Nat} (he : e ≤ m 1 + 1) (hen : e ≤ n) : ∑ i ∈ range e, gap m i ≤ 3 * n := by
  have hnr := P.three'
  have hl2 := Real.log_two_lt_d9
  have hl2' := Real.log_two_gt_d9
  have hlogn : 0 ≤ Real.log n := Real.log_nonneg (by linarith)
  have hloge : Real.log n ≤ n * (2 / 5) := by
    have := log_le_div_e (x := n) (by linarith)
    have he := Real.exp_one_gt_d9
    rw [le_div_iff₀ (by linarith)] at this
    nlinarith
  rw [range_eq_Ico]
  have hp := phase (m := m) (i0 := 0) rfl (e := e) he (b := 1 + Real.log n) (by linarith) (by
    intro i _ hi
    rcases Nat.eq_zero_or_pos i with rfl | hi0
    · simp; linarith
    · refine (sum_inv_zero_le hi0).trans ?_
      have : Real.log i ≤ Real.log n := Real.log_le_log (by exact_mod_cast hi0) (by exact_mod_cast (by omega))
      linarith)
  refine hp.trans ?_
  have hH := P.H_pos
  have he' := P.most 1 hH e he hen
  have hp1 := P.posH (h := 1) hH
  have hlow := P.lower 0 hH
  rw [P.zero] at hlow
  have hlb : Real.logb 2 n * Real.log 2 = Real.log n := P.logb_mul
  have hlb3 : 3 / 2 ≤ Real.logb 2 n := by
    rw [Real.le_logb_iff_rpow_le (by norm_num) (by linarith)]
    have : (2 : ℝ) ^ (3 / 2 : ℝ) ≤ 3 := by
      have h1 : ((2 : ℝ) ^ (3 / 2 : ℝ)) ^ 2 = 8 := by
        rw [← Real.rpow_natCast, ← Real.rpow_mul (by norm_num)]
        norm_num
      have h2 : (0 : ℝ) ≤ (2 : ℝ) ^ (3 / 2 : ℝ) := by positivity
      nlinarith
    linarith
  have h4 : (n : ℝ) / v 1 ≤ 69 / 100 * n := by
    rw [div_le_iff₀ hp1]
    nlinarith
  have h5 : (n : ℝ) / v 1 * Real.log n ≤ 71 / 100 * n := by
    rw [div_mul_eq_mul_div, div_le_iff₀ hp1, ← hlb]
    have : Real.logb 2 n * Real.log 2 ≤ 71 / 100 * v 1 := by nlinarith
    nlinarith
  calc (e : ℝ) * (1 + Real.log n) ≤ (51 / 50 * (n / v 1) + 2) * (1 + Real.log n) :=
        mul_le_mul_of_nonneg_right he' (by linarith)
    _ = 51 / 50 * (n / v 1) + 51 / 50 * (n / v 1 * Real.log n) + 2 + 2 * Real.log n := by ring
    _ ≤ 3 * n := by nlinarith

/-- The expected changes to a trapezoid after relocation `h`. -/
theorem since_reloc {h i : Nat} (hh : h ≤ H) (hlt : m h < n) (hi1 : m h + 1 ≤ i) (hi2 : i ≤ n) :
    ∑ l ∈ Ico (m h + 1) i, 1 / ((l : ℝ) + 1) ≤ Real.log (v h) + 1 / 40 := by
  refine (sum_inv_le (Nat.succ_pos _) hi1).trans ?_
  have hp := P.posH hh
  have hr : (0 : ℝ) < (m h + 1 : ℕ) := by positivity
  have hi0 : (0 : ℝ) < i := by exact_mod_cast (by omega : 0 < i)
  have h1 : Real.log (i / (m h + 1 : ℕ)) ≤ Real.log (v h * (50 / 49)) := by
    refine Real.log_le_log (by positivity) ?_
    rw [div_le_iff₀ hr]
    have h1 : (i : ℝ) ≤ n := by exact_mod_cast hi2
    have h2 := P.least h hh hlt
    rw [← mul_div_assoc, div_le_iff₀ hp] at h2
    push_cast
    nlinarith
  refine h1.trans ?_
  rw [Real.log_mul hp.ne' (by norm_num)]
  have := Real.log_le_sub_one_of_pos (x := 50 / 49) (by norm_num)
  linarith

/-- The phase after relocation `h`. -/
theorem next {h : Nat} (h0 : 0 < h) (hh : h < H) (hlt : m h < n) (hsch : sched m (m h + 1) =
    (m h + 1, h + 1, m (h + 1))) {e : Nat} (he : e ≤ m (h + 1) + 1) (hen : e ≤ n) :
    ∑ i ∈ Ico (m h + 1) e, gap m i ≤ 3 / 2 * n := by
  have hnr := P.three'
  have ha := P.large h hh
  have ha0 := P.posH hh.le
  have ha' := P.posH (h := h + 1) hh
  have hl2 := Real.log_two_lt_d9
  have hl2' := Real.log_two_gt_d9
  have hlb : Real.logb 2 (v h) * Real.log 2 = Real.log (v h) := P.logb_mul
  have hlogb : 0 ≤ Real.logb 2 (v h) := Real.logb_nonneg (by norm_num) ha.le
  have hlow := P.lower h hh
  have hlog : Real.log (v h) ≤ 71 / 100 * v (h + 1) := by rw [← hlb]; nlinarith
  have hlog0 : 0 ≤ Real.log (v h) := Real.log_nonneg ha.le
  have hp := phase (m := m) hsch he (b := 71 / 100 * v (h + 1) + 1 / 40) (by positivity) (fun i hi1 hi2 =>
    (P.since_reloc hh.le hlt hi1 (by omega)).trans (by linarith))
  refine hp.trans ?_
  have hen' : (e : ℝ) ≤ n := by exact_mod_cast hen
  have hle := P.le_n' h0 hh.le
  have hle' := P.ratio' hh
  by_cases hc : 1 ≤ v (h + 1)
  · have he' := P.most (h + 1) hh e he hen
    have h5 : (n : ℝ) / v (h + 1) * v (h + 1) = n := by field_simp
    have h6 : (n : ℝ) / v (h + 1) ≤ n := by rw [div_le_iff₀ ha']; nlinarith
    calc (e : ℝ) * (71 / 100 * v (h + 1) + 1 / 40) ≤ (51 / 50 * (n / v (h + 1)) + 2) * (71 / 100 * v (h + 1) + 1 / 40) :=
          mul_le_mul_of_nonneg_right he' (by positivity)
      _ = 51 / 50 * (71 / 100) * (n / v (h + 1) * v (h + 1)) + 51 / 50 / 40 * (n / v (h + 1)) + 71 / 50 * v (h + 1) + 1 / 20 := by ring
      _ ≤ 3 / 2 * n := by rw [h5]; nlinarith
  · push Not at hc
    calc (e : ℝ) * (71 / 100 * v (h + 1) + 1 / 40) ≤ n * 1 := mul_le_mul hen' (by linarith) (by positivity) (by linarith)
      _ ≤ 3 / 2 * n := by linarith

/-- After relocation `H`, if there is one, there is no other. -/
theorem after (hlt : m H < n) (hsch : sched m (m H + 1) = (m H + 1, H + 1, m (H + 1))) :
    ∑ i ∈ Ico (m H + 1) n, gap m i ≤ n / 40 := by
  have hb : ∀ i ∈ Ico (m H + 1) n, gap m i ≤ 1 / 40 := by
    intro i hi
    obtain ⟨h1, h2⟩ := mem_Ico.1 hi
    unfold gap since
    have hl := P.last
    rw [sched_done hsch h1 (by omega)]
    refine (P.since_reloc (le_refl _) hlt h1 h2.le).trans ?_
    have := Real.log_nonpos P.pos.le P.small
    linarith
  refine (sum_le_sum hb).trans ?_
  rw [sum_const, Nat.card_Ico, nsmul_eq_mul]
  have : ((n - (m H + 1) : ℕ) : ℝ) ≤ n := by exact_mod_cast Nat.sub_le _ _
  linarith

/-- The schedule up to relocation `h`. -/
theorem upTo {h : Nat} (h0 : 0 < h) (hh : h ≤ H) (hlt : m h < n) :
    sched m (m h + 1) = (m h + 1, h + 1, m (h + 1)) ∧
      ∑ i ∈ range (m h + 1), gap m i ≤ n * (3 / 2 + 3 / 2 * h) ∧
      relocSum m n (m h + 1) ≤ 50 / 49 * ∑ u ∈ Ico 1 (h + 1), v u := by
  have hnr := P.three'
  have hrel : ∀ i0 r u, 0 < u → u ≤ H → m u < n → i0 ≤ m u → sched m i0 = (r, u, m u) →
      relocSum m n (m u + 1) ≤ relocSum m n i0 + 50 / 49 * v u := by
    intro i0 r u hu0 hu hun hi hs
    have h1 : relocSum m n (m u) = relocSum m n i0 := by
      unfold relocSum
      rw [range_eq_Ico, range_eq_Ico, ← sum_Ico_consecutive _ (Nat.zero_le i0) hi]
      rw [add_eq_left]
      refine sum_eq_zero fun i hi' => if_neg ?_
      have := filter_eq_empty_iff.1 (phase_reloc hs (le_refl (m u))) hi'
      exact this
    have h2 : relocSum m n (m u + 1) ≤ relocSum m n (m u) + (n : ℝ) / (m u + 2) := by
      unfold relocSum
      rw [sum_range_succ]
      split
      · exact le_refl _
      · have : (0 : ℝ) ≤ (n : ℝ) / (m u + 2) := by positivity
        linarith
    have h3 : (n : ℝ) / (m u + 2) ≤ 50 / 49 * v u := by
      have hb := P.least u hu hun
      have hpos := P.posH hu
      rw [← mul_div_assoc, div_le_iff₀ hpos] at hb
      rw [div_le_iff₀ (by positivity)]
      nlinarith
    linarith
  induction h, h0 using Nat.le_induction with
  | base =>
    refine ⟨?_, (P.first (le_refl _) hlt).trans (by push_cast; linarith), ?_⟩
    · rw [sched, sched_stay (m := m) (i0 := 0) rfl (Nat.zero_le _) (le_refl (m 1))]
      simp
    · have := hrel 0 0 1 Nat.one_pos hh hlt (Nat.zero_le _) rfl
      simpa [relocSum] using this
  | succ h h0 ih =>
    have hlt' : m h < n := by
      by_contra hc
      -- a relocation that is not due before the end cannot be followed by one that is
      have hp := P.posH (h := h) (by omega)
      have hp' := P.posH hh
      have h1 := P.most h (by omega) n (by omega) (le_refl _)
      have h2 := P.least (h + 1) hh hlt
      have h3 : n / v h * (25 / 14) ≤ n / v (h + 1) := by
        rw [le_div_iff₀ hp', div_mul_eq_mul_div, div_mul_eq_mul_div, div_le_iff₀ hp]
        have := P.ratio' (h := h) hh
        nlinarith
      have h4 : (25 : ℝ) / 14 ≤ n / v h := by
        rw [le_div_iff₀ hp]
        have := P.le_n' (h := h) (by omega) (by omega)
        linarith
      have h5 : (m (h + 1) : ℝ) + 1 ≤ n := by exact_mod_cast hlt
      linarith
    have hl := P.apart (by omega) hh hlt'
    obtain ⟨h1, h2, h4⟩ := ih (by omega) hlt'
    refine ⟨?_, ?_, ?_⟩
    · rw [sched, sched_stay h1 hl (le_refl _)]
      simp
    · have h3 := P.next (by omega) hh hlt' h1 (le_refl _) hlt
      rw [range_eq_Ico, ← sum_Ico_consecutive _ (Nat.zero_le (m h + 1)) (by omega), ← range_eq_Ico]
      push_cast
      linarith
    · have := hrel (m h + 1) _ (h + 1) (by omega) hh hlt (by omega) h1
      rw [sum_Ico_succ_top (by omega)]
      linarith

/-- The values together. -/
theorem values {h : Nat} (hh : h ≤ H) : 50 / 49 * ∑ u ∈ Ico 1 (h + 1), v u ≤ 5 / 2 * Real.logb 2 n := by
  have key : ∀ h ≤ H, ∑ u ∈ Ico 1 (h + 1), v u ≤ 25 / 11 * v 1 - 14 / 11 * v h ∨ h = 0 := by
    intro h
    induction h with
    | zero => intro _; exact .inr rfl
    | succ h ih =>
      intro hh
      left
      rw [sum_Ico_succ_top (by omega)]
      rcases ih (by omega) with h1 | rfl
      · have := P.ratio' hh
        linarith
      · simp
        linarith
  have h1 := P.upper 0 P.H_pos
  rw [P.zero] at h1
  have hlog : 0 ≤ Real.logb 2 (n : ℝ) := Real.logb_nonneg (by norm_num) (by linarith [P.three'])
  rcases key h hh with h2 | rfl
  · have := P.posH hh
    have : ∑ u ∈ Ico 1 (h + 1), v u ≤ 25 / 11 * v 1 := by linarith
    have : 50 / 49 * (25 / 11 * (51 / 50 * Real.logb 2 (n : ℝ))) ≤ 5 / 2 * Real.logb 2 (n : ℝ) := by nlinarith
    simp only [Nat.zero_add] at h1
    linarith
  · simp
    linarith

/-- The sums for the schedule. -/
theorem sums : ∑ i ∈ range n, gap m i ≤ n * (8 / 5 + 3 / 2 * H) ∧
    ((range n).filter fun i => relocAt m i = true).card ≤ H ∧
    relocSum m n n ≤ 5 / 2 * Real.logb 2 n := by
  have hnr := P.three'
  have hH := P.H_pos
  have hcnt := relocs_eq m n
  by_cases hall : ∃ h, h < H + 1 ∧ n ≤ m (h + 1) ∧ (h = 0 ∨ m h < n)
  · obtain ⟨R, hRH, hR, h0⟩ := hall
    have hRr : (R : ℝ) ≤ H := by exact_mod_cast (by omega)
    rcases Nat.eq_zero_or_pos R with hz | hpos
    · rw [hz, Nat.zero_add] at hR
      have hHr : (1 : ℝ) ≤ H := by exact_mod_cast hH
      refine ⟨(P.first (by omega) (le_refl _)).trans (by nlinarith), ?_, ?_⟩
      · have := sched_stay (m := m) (i0 := 0) rfl (Nat.zero_le n) hR
        rw [this] at hcnt
        simp only at hcnt
        omega
      · have := P.values (h := 0) (by omega)
        refine le_trans (le_of_eq ?_) this
        rw [Ico_self, sum_empty, mul_zero]
        refine sum_eq_zero fun i hi => if_neg ?_
        rw [range_eq_Ico] at hi
        exact filter_eq_empty_iff.1 (phase_reloc (m := m) (i0 := 0) rfl hR) hi
    · have hlt : m R < n := by omega
      obtain ⟨h1, h2, h4⟩ := P.upTo hpos (by omega) hlt
      refine ⟨?_, ?_, ?_⟩
      · rw [range_eq_Ico, ← sum_Ico_consecutive _ (Nat.zero_le (m R + 1)) hlt, ← range_eq_Ico]
        rcases Nat.lt_or_ge R H with hl | hl
        · have h3 := P.next hpos hl hlt h1 (e := n) (by omega) (le_refl _)
          have : (R : ℝ) + 1 ≤ H := by exact_mod_cast hl
          nlinarith
        · have e : R = H := by omega
          subst e
          have h3 := P.after hlt h1
          nlinarith
      · have := sched_stay h1 hlt hR
        rw [this] at hcnt
        simp only at hcnt
        omega
      · have h5 := P.values (h := R) (by omega)
        refine le_trans (le_of_eq ?_) (h4.trans h5)
        unfold relocSum
        rw [range_eq_Ico, range_eq_Ico, ← sum_Ico_consecutive _ (Nat.zero_le (m R + 1)) hlt, add_eq_left]
        refine sum_eq_zero fun i hi => if_neg ?_
        exact filter_eq_empty_iff.1 (phase_reloc h1 hR) hi
  · have hlt : ∀ h, h ≤ H → m (h + 1) < n ∧ (h = 0 ∨ m h < n) := by
      intro h
      induction h with
      | zero =>
        intro _
        refine ⟨?_, .inl rfl⟩
        by_contra hc
        exact hall ⟨0, by omega, by omega, .inl rfl⟩
      | succ h ih =>
        intro hh
        have h1 := (ih (by omega)).1
        refine ⟨?_, .inr h1⟩
        by_contra hc
        exact hall ⟨h + 1, by omega, by omega, .inr h1⟩
    have hltH : m H < n := (hlt H (le_refl _)).2.resolve_left (by omega)
    have hz : m (H + 1) = 0 := P.last.resolve_left (not_le.2 (hlt H (le_refl _)).1)
    obtain ⟨h1, h2, h4⟩ := P.upTo hH (le_refl _) hltH
    refine ⟨?_, ?_, ?_⟩
    · rw [range_eq_Ico, ← sum_Ico_consecutive _ (Nat.zero_le (m H + 1)) hltH, ← range_eq_Ico]
      have h3 := P.after hltH h1
      nlinarith
    · have := sched_done h1 hltH (.inl (by omega))
      rw [this] at hcnt
      simp only at hcnt
      omega
    · have h5 := P.values (h := H) (le_refl _)
      refine le_trans (le_of_eq ?_) (h4.trans h5)
      unfold relocSum
      rw [range_eq_Ico, range_eq_Ico, ← sum_Ico_consecutive _ (Nat.zero_le (m H + 1)) hltH, add_eq_left]
      refine sum_eq_zero fun i hi => if_neg ?_
      obtain ⟨hi1, hi2⟩ := mem_Ico.1 hi
      unfold relocAt
      rw [sched_done h1 hi1 (.inl (by omega)), hz]
      simp only [decide_eq_true_eq]
      omega

end Phases

theorem logStar_gt_one {n : Nat} (hn : 3 ≤ n) : 1 < logStar n := by
  have hs := logStar_spec n
  have hn' : (3 : ℝ) ≤ n := by exact_mod_cast hn
  by_contra hc
  have h01 : logStar n = 0 ∨ logStar n = 1 := by omega
  rcases h01 with h | h
  · have := hs.1
    rw [h] at this
    simp only [logs, Function.iterate_zero, id] at this
    linarith
  · have := hs.1
    rw [h, logs_succ] at this
    have h2 : Real.logb 2 2 < Real.logb 2 (n : ℝ) := Real.logb_lt_logb (by norm_num) (by norm_num) (by linarith)
    rw [Real.logb_self_eq_one (by norm_num)] at h2
    simp only [logs, Function.iterate_zero, id] at this
    linarith

theorem logb_three : Real.logb 2 3 ≤ 8 / 5 := by
  rw [Real.logb_le_iff_le_rpow (by norm_num) (by norm_num)]
  have h1 : ((2 : ℝ) ^ (8 / 5 : ℝ)) ^ 5 = 256 := by
    rw [← Real.rpow_natCast, ← Real.rpow_mul (by norm_num)]
    norm_num
  by_contra hc
  push Not at hc
  have h2 : ((2 : ℝ) ^ (8 / 5 : ℝ)) ^ 5 < 3 ^ 5 := pow_lt_pow_left₀ hc (by positivity) (by norm_num)
  rw [h1] at h2
  norm_num at h2

theorem logb_five_third : Real.logb 2 (5 / 3) ≤ 3 / 4 := by
  rw [Real.logb_le_iff_le_rpow (by norm_num) (by norm_num)]
  have h1 : ((2 : ℝ) ^ (3 / 4 : ℝ)) ^ 4 = 8 := by
    rw [← Real.rpow_natCast, ← Real.rpow_mul (by norm_num)]
    norm_num
  by_contra hc
  push Not at hc
  have h2 : ((2 : ℝ) ^ (3 / 4 : ℝ)) ^ 4 < (5 / 3) ^ 4 := pow_lt_pow_left₀ hc (by positivity) (by norm_num)
  rw [h1] at h2
  norm_num at h2

/-- The schedule of the code is such a schedule. -/
theorem MathN.phases {mathN : Nat → Nat → Nat} (hm : MathN mathN) {n : Nat} (hn : 3 ≤ n) :
    ∃ v H, Phases (mathN n) n v H ∧ H ≤ logStar n + 2 := by
  obtain ⟨v, h0, hstep, hq⟩ := hm n
  have hs := logStar_spec n
  have hnr : (3 : ℝ) ≤ n := by exact_mod_cast hn
  have hup : ∀ h, 1 < v h → v (h + 1) ≤ 51 / 50 * Real.logb 2 (v h) ∧ 49 / 50 * Real.logb 2 (v h) ≤ v (h + 1) := by
    intro h hh
    have h1 := hstep h (by linarith)
    have h2 : 0 < Real.logb 2 (v h) := Real.logb_pos (by norm_num) hh
    unfold Approx at h1
    rw [abs_of_pos h2, abs_le] at h1
    constructor <;> linarith [h1.1, h1.2]
  have key : ∀ h ≤ logStar n, (∀ j < h, 1 < v j) → v h ≤ 3 * max 1 (logs n h) := by
    intro h
    induction h with
    | zero =>
      intro _ _
      have : (n : ℝ) ≤ max 1 (logs n 0) := by
        refine le_trans (le_of_eq ?_) (le_max_right _ _)
        simp [logs]
      rw [h0]; linarith
    | succ h ih =>
      intro hh hj
      have h1 := ih (by omega) (fun j hj' => hj j (by omega))
      have h2 := hs.2 h (by omega)
      rw [max_eq_right h2.le] at h1
      have h3 := (hup h (hj h (by omega))).1
      have h4 : Real.logb 2 (v h) ≤ Real.logb 2 3 + logs n (h + 1) := by
        rw [logs_succ, ← Real.logb_mul (by norm_num) (by linarith)]
        exact Real.logb_le_logb_of_le (by norm_num) (by linarith [hj h (by omega)]) h1
      have := logb_three
      have h5 := le_max_left 1 (logs n (h + 1))
      have h6 := le_max_right 1 (logs n (h + 1))
      linarith
  have hex : ∃ h, v h ≤ 1 := by
    by_contra hc
    push Not at hc
    have h1 := key _ (le_refl _) (fun j _ => hc j)
    rw [max_eq_left hs.1] at h1
    have h2 := (hup _ (hc (logStar n))).1
    have h3 : Real.logb 2 (v (logStar n)) ≤ Real.logb 2 3 :=
      Real.logb_le_logb_of_le (by norm_num) (by linarith [hc (logStar n)]) (by linarith)
    have h4 := (hup _ (hc (logStar n + 1))).1
    have h5 : Real.logb 2 (v (logStar n + 1)) ≤ Real.logb 2 (5 / 3) :=
      Real.logb_le_logb_of_le (by norm_num) (by linarith [hc (logStar n + 1)]) (by linarith [logb_three])
    have h6 := hc (logStar n + 1 + 1)
    linarith [logb_five_third]
  classical
  let H := Nat.find hex
  have hH : v H ≤ 1 := Nat.find_spec hex
  have hlarge : ∀ h < H, 1 < v h := fun h hh => not_le.1 (Nat.find_min hex hh)
  have hHle : H ≤ logStar n + 2 := by
    by_contra hc
    have h1 := key _ (le_refl _) (fun j _ => hlarge j (by omega))
    rw [max_eq_left hs.1] at h1
    have h2 := (hup _ (hlarge (logStar n) (by omega))).1
    have h3 : Real.logb 2 (v (logStar n)) ≤ Real.logb 2 3 :=
      Real.logb_le_logb_of_le (by norm_num) (by linarith [hlarge (logStar n) (by omega)]) (by linarith)
    have h4 := (hup _ (hlarge (logStar n + 1) (by omega))).1
    have h5 : Real.logb 2 (v (logStar n + 1)) ≤ Real.logb 2 (5 / 3) :=
      Real.logb_le_logb_of_le (by norm_num) (by linarith [hlarge (logStar n + 1) (by omega)]) (by linarith [logb_three])
    have h6 := hlarge (logStar n + 1 + 1) (by omega)
    linarith [logb_five_third]
  have hH0 : 0 < H := by
    rcases Nat.eq_zero_or_pos H with h | h
    · rw [h, h0] at hH
      linarith
    · exact h
  have hpos : 0 < v H := by
    obtain ⟨k, hk⟩ : ∃ k, H = k + 1 := ⟨H - 1, by omega⟩
    have h1 := hlarge k (by omega)
    have h2 := (hup k h1).2
    have h3 : 0 < Real.logb 2 (v k) := Real.logb_pos (by norm_num) h1
    rw [hk]
    linarith
  have hposH : ∀ h ≤ H, 0 < v h := by
    intro h hh
    rcases Nat.lt_or_ge h H with h1 | h1
    · linarith [hlarge h h1]
    · rw [show h = H by omega]; exact hpos
  have hquot : ∀ h ≤ H, ∃ q : ℝ, 49 / 50 * (n / v h) ≤ q ∧ q ≤ 51 / 50 * (n / v h) ∧
      (mathN n h = ⌈q⌉₊ ∨ (n : ℝ) ≤ q ∧ n ≤ mathN n h) := by
    intro h hh
    obtain ⟨q, h1, h2⟩ := (hq h).1 (fun j hj => hposH j (by omega))
    have h3 : 0 < n / v h := div_pos (by linarith) (hposH h hh)
    unfold Approx at h1
    rw [abs_of_pos h3, abs_le] at h1
    exact ⟨q, by linarith [h1.1], by linarith [h1.2], h2⟩
  refine ⟨v, H, ⟨hn, h0, fun h hh => (hup h (hlarge h hh)).2, fun h hh => (hup h (hlarge h hh)).1, hlarge, hH, hpos, ?_, ?_, ?_⟩, hHle⟩
  · intro h hh hlt
    obtain ⟨q, h1, -, h3⟩ := hquot h hh
    rcases h3 with h3 | h3
    · rw [h3]
      exact h1.trans (Nat.le_ceil q)
    · omega
  · intro h hh e he hen
    obtain ⟨q, h1, h2, h3⟩ := hquot h hh
    have hq0 : 0 ≤ q := le_trans (by have := hposH h hh; positivity) h1
    rcases h3 with h3 | h3
    · have h4 := Nat.ceil_lt_add_one hq0
      have h5 : (e : ℝ) ≤ ⌈q⌉₊ + 1 := by rw [h3] at he; exact_mod_cast he
      linarith
    · have h5 : (e : ℝ) ≤ n := by exact_mod_cast hen
      linarith [h3.1]
  · have hlog : Real.logb 2 (v H) ≤ 0 := Real.logb_nonpos (by norm_num) hpos.le hH
    have h1 := hstep H hpos
    unfold Approx at h1
    rw [abs_of_nonpos hlog, abs_le] at h1
    have h2 : v (H + 1) ≤ 0 := by linarith [h1.2]
    rcases lt_or_eq_of_le h2 with h2 | h2
    · exact .inr ((hq (H + 1)).2.2 (.inr h2))
    · exact .inl ((hq (H + 1)).2.1 (fun j hj => hposH j (by omega)) h2)

/-- The sums for the schedule of the code. -/
theorem mathN_sums {mathN : Nat → Nat → Nat} (hm : MathN mathN) {n : Nat} (hn : 3 ≤ n) :
    ∑ i ∈ range n, gap (mathN n) i ≤ n * (23 / 5 + 3 / 2 * logStar n) ∧
    ((range n).filter fun i => relocAt (mathN n) i = true).card ≤ logStar n + 2 ∧
    relocSum (mathN n) n n ≤ 5 / 2 * Real.logb 2 n := by
  obtain ⟨v, H, P, hH⟩ := hm.phases hn
  obtain ⟨h1, h2, h3⟩ := P.sums
  have hHr : (H : ℝ) ≤ logStar n + 2 := by exact_mod_cast hH
  have hn0 : (0 : ℝ) ≤ n := Nat.cast_nonneg n
  exact ⟨h1.trans (by nlinarith), h2.trans hH, h3⟩

/-- `log*` is monotone. -/
theorem logStar_mono {n N : Nat} (h : n ≤ N) : logStar n ≤ logStar N := by
  by_contra hc
  have h1 := logStar_spec n
  have h2 := logStar_spec N
  have key : ∀ k ≤ logStar N, logs n k ≤ logs N k := by
    intro k
    induction k with
    | zero => intro _; simpa [logs] using h
    | succ k ih =>
      intro hk
      rw [logs_succ, logs_succ]
      exact Real.logb_le_logb_of_le (by norm_num) (lt_trans one_pos (h1.2 k (by omega))) (ih (by omega))
  have h3 := key _ (le_refl _)
  have h4 := h1.2 (logStar N) (by omega)
  linarith [h2.1]

end Tri
