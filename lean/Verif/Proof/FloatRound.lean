import Verif.Proof.Float

/-!
# Rounding picks the nearest number
-/

namespace Tri

/-- No integer is nearer, and an integer that is as near is the same one, or the next one to an even one. -/
theorem roundEven_best (q : ℚ) (z : Int) : |(roundEven q : ℚ) - q| ≤ |(z : ℚ) - q| ∧
    (|(z : ℚ) - q| = |(roundEven q : ℚ) - q| → z = roundEven q ∨ (∃ m, roundEven q = 2 * m) ∧ |z - roundEven q| = 1) := by
  have h1 := floor_le' q
  have h2 := Rat.lt_floor_add_one q
  push_cast at h2
  have hz : z < q.floor ∨ z = q.floor ∨ z = q.floor + 1 ∨ q.floor + 1 < z := by omega
  have lo : z < q.floor → (z : ℚ) ≤ q.floor - 1 := fun h => by
    have : (z : ℚ) ≤ ((q.floor - 1 : Int) : ℚ) := by exact_mod_cast (by omega : z ≤ q.floor - 1)
    push_cast at this; exact this
  have hi : q.floor + 1 < z → (q.floor : ℚ) + 2 ≤ z := fun h => by
    have : ((q.floor + 2 : Int) : ℚ) ≤ z := by exact_mod_cast (by omega : q.floor + 2 ≤ z)
    push_cast at this; exact this
  unfold roundEven
  simp only
  generalize hfl : q.floor = n at *
  have dlo : |(n : ℚ) - q| = q - n := by rw [abs_of_nonpos (by linarith)]; ring
  have dhi : |((n + 1 : Int) : ℚ) - q| = n + 1 - q := by push_cast; rw [abs_of_nonneg (by linarith)]
  have dz : z < n → |(z : ℚ) - q| = q - z := fun h => by
    have := lo h
    rw [abs_of_nonpos (by linarith)]; ring
  have dz' : n + 1 < z → |(z : ℚ) - q| = z - q := fun h => by
    have := hi h
    rw [abs_of_nonneg (by linarith)]
  split
  · rw [dlo]
    rcases hz with h | rfl | rfl | h
    · have := lo h
      rw [dz h]
      exact ⟨by linarith, fun e => by linarith⟩
    · rw [dlo]
      exact ⟨le_rfl, fun _ => .inl rfl⟩
    · rw [dhi]
      exact ⟨by linarith, fun e => by linarith⟩
    · have := hi h
      rw [dz' h]
      exact ⟨by linarith, fun e => by linarith⟩
  · split
    · rw [dhi]
      rcases hz with h | rfl | rfl | h
      · have := lo h
        rw [dz h]
        exact ⟨by linarith, fun e => by linarith⟩
      · rw [dlo]
        exact ⟨by linarith, fun e => by linarith⟩
      · rw [dhi]
        exact ⟨le_rfl, fun _ => .inl rfl⟩
      · have := hi h
        rw [dz' h]
        exact ⟨by linarith, fun e => by linarith⟩
    · split
      · rw [dlo]
        rcases hz with h | rfl | rfl | h
        · have := lo h
          rw [dz h]
          exact ⟨by linarith, fun e => by linarith⟩
        · rw [dlo]
          exact ⟨le_rfl, fun _ => .inl rfl⟩
        · rw [dhi]
          exact ⟨by linarith, fun _ => .inr ⟨⟨n / 2, by omega⟩, by simp⟩⟩
        · have := hi h
          rw [dz' h]
          exact ⟨by linarith, fun e => by linarith⟩
      · rw [dhi]
        rcases hz with h | rfl | rfl | h
        · have := lo h
          rw [dz h]
          exact ⟨by linarith, fun e => by linarith⟩
        · rw [dlo]
          exact ⟨by linarith, fun _ => .inr ⟨⟨(z + 1) / 2, by omega⟩, by simp⟩⟩
        · rw [dhi]
          exact ⟨le_rfl, fun _ => .inl rfl⟩
        · have := hi h
          rw [dz' h]
          exact ⟨by linarith, fun e => by linarith⟩

/-- A number of the format is not nearer than some multiple of the last place. -/
theorem fits_multiple_near {f : FloatFormat} (hp : 0 < f.p) {q v : ℚ} (hq : q ≠ 0) (hv : f.Fits v) {e : Int}
    (he : e = max (ilog2 q + 1 - f.p) f.emin) :
    ∃ z : Int, |(z : ℚ) * pow2 e - q| ≤ |v - q| ∧ (|(z : ℚ) * pow2 e - q| = |v - q| → v = z * pow2 e) := by
  obtain ⟨m, k, rfl, hm, hk⟩ := hv
  by_cases hek : e ≤ k
  · refine ⟨m * 2 ^ (k - e).toNat, ?_⟩
    have h1 : pow2 k = pow2 (k - e).toNat * pow2 e := by rw [← pow2_add]; congr 1; omega
    have h2 : ((m * 2 ^ (k - e).toNat : Int) : ℚ) * pow2 e = m * pow2 k := by
      rw [h1, pow2_nat]; push_cast; ring
    rw [h2]
    exact ⟨le_rfl, fun _ => rfl⟩
  · have he' : e = ilog2 q + 1 - f.p := by omega
    obtain ⟨n, hn⟩ : ∃ n, f.p = n + 1 := ⟨f.p - 1, by omega⟩
    have hL : pow2 (ilog2 q) = ((2 ^ n : Nat) : ℚ) * pow2 e := by
      rw [← pow2_nat, ← pow2_add]; congr 1; omega
    have hmq : |(m : ℚ)| ≤ pow2 f.p := by
      rw [pow2_nat]; push_cast; rw [← Int.cast_abs]; exact_mod_cast hm
    have hv : |(m : ℚ) * pow2 k| ≤ pow2 (ilog2 q) := by
      rw [abs_mul, abs_of_pos (pow2_pos k)]
      calc |(m : ℚ)| * pow2 k ≤ pow2 f.p * pow2 k := mul_le_mul_of_nonneg_right hmq (pow2_pos k).le
        _ = pow2 (f.p + k) := (pow2_add _ _).symm
        _ ≤ pow2 (ilog2 q) := pow2_le.2 (by omega)
    have hlq := (ilog2_spec hq).1
    generalize (m : ℚ) * pow2 k = v at hv
    rw [hL] at hv hlq
    rw [abs_le] at hv
    rcases lt_or_gt_of_ne hq with h0 | h0
    · refine ⟨-2 ^ n, ?_⟩
      push_cast at hv hlq ⊢
      rw [abs_of_neg h0] at hlq
      rw [abs_of_nonneg (by linarith), abs_of_nonneg (by linarith)]
      exact ⟨by linarith, fun h => by linarith⟩
    · refine ⟨2 ^ n, ?_⟩
      push_cast at hv hlq ⊢
      rw [abs_of_pos h0] at hlq
      rw [abs_of_nonpos (by linarith), abs_of_nonpos (by linarith)]
      exact ⟨by linarith, fun h => by linarith⟩

/-- Rounding gives a number of the format, no number of the format is nearer, and in case of a tie the last digit is even. -/
theorem nearest_best {f : FloatFormat} (hp : 0 < f.p) (q : ℚ) : f.Fits (f.nearest q) ∧ ∀ v, f.Fits v →
    |f.nearest q - q| ≤ |v - q| ∧ (|v - q| = |f.nearest q - q| → v = f.nearest q ∨ ∃ m : Int, f.nearest q = 2 * m * |v - f.nearest q|) := by
  by_cases hq : q = 0
  · subst hq
    rw [nearest_zero]
    refine ⟨fits_zero f, fun v _ => ⟨by simp, fun h => .inl ?_⟩⟩
    simpa using h
  have hnear : f.nearest q = roundEven (q / pow2 (max (ilog2 q + 1 - f.p) f.emin)) * pow2 (max (ilog2 q + 1 - f.p) f.emin) := by
    unfold FloatFormat.nearest
    rw [if_neg hq]
  rw [hnear]
  have hz := @fits_multiple_near f hp q
  generalize he : max (ilog2 q + 1 - f.p) f.emin = e
  have hpe := pow2_pos e
  have scale : ∀ z : Int, |(z : ℚ) * pow2 e - q| = |(z : ℚ) - q / pow2 e| * pow2 e := by
    intro z
    have : (z : ℚ) * pow2 e - q = ((z : ℚ) - q / pow2 e) * pow2 e := by rw [sub_mul, div_mul_cancel₀ _ hpe.ne']
    rw [this, abs_mul, abs_of_pos hpe]
  constructor
  · refine ⟨roundEven (q / pow2 e), e, rfl, ?_, by omega⟩
    have h1 : |q / pow2 e| ≤ pow2 f.p := by
      rw [div_eq_mul_inv, abs_mul, abs_of_pos (inv_pos.2 hpe), ← div_eq_mul_inv, div_le_iff₀ hpe, ← pow2_add]
      exact (ilog2_spec hq).2.le.trans (pow2_le.2 (by omega))
    rw [pow2_nat, abs_le] at h1
    have key : ∀ s : Int, |(roundEven (q / pow2 e) : ℚ) - q / pow2 e| ≤ |(s : ℚ) - q / pow2 e| := fun s => (roundEven_best _ s).1
    by_contra hgt
    have hgt : 2 ^ f.p < |roundEven (q / pow2 e)| := by omega
    rcases lt_abs.1 hgt with h | h
    · have := key (2 ^ f.p)
      have h' : ((2 ^ f.p : Nat) : ℚ) < roundEven (q / pow2 e) := by exact_mod_cast h
      push_cast at h' h1 this
      rw [abs_of_nonneg (by linarith), abs_of_nonneg (by linarith)] at this
      linarith
    · have := key (-2 ^ f.p)
      have h' : ((2 ^ f.p : Nat) : ℚ) < -roundEven (q / pow2 e) := by exact_mod_cast h
      push_cast at h' h1 this
      rw [abs_of_nonpos (by linarith), abs_of_nonpos (by linarith)] at this
      linarith
  · intro v hv
    obtain ⟨z, h1, h2⟩ := hz hq hv he.symm
    obtain ⟨h3, h4⟩ := roundEven_best (q / pow2 e) z
    have h5 : |(roundEven (q / pow2 e) : ℚ) * pow2 e - q| ≤ |(z : ℚ) * pow2 e - q| := by
      rw [scale, scale]
      exact mul_le_mul_of_nonneg_right h3 hpe.le
    refine ⟨h5.trans h1, fun h => ?_⟩
    have h6 : v = z * pow2 e := h2 (le_antisymm h1 (by rw [h]; exact h5))
    subst h6
    rw [scale, scale] at h
    rcases h4 (mul_right_cancel₀ hpe.ne' h) with h | ⟨⟨m, h⟩, h'⟩
    · left; rw [h]
    · right
      refine ⟨m, ?_⟩
      have : |(z : ℚ) * pow2 e - roundEven (q / pow2 e) * pow2 e| = pow2 e := by
        rw [← sub_mul, abs_mul, abs_of_pos hpe]
        have : |(z : ℚ) - roundEven (q / pow2 e)| = 1 := by exact_mod_cast h'
        rw [this, one_mul]
      rw [this, h]
      push_cast
      ring

end Tri
