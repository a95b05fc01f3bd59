import Mathlib.Tactic.Linarith
import Mathlib.Tactic.Ring
import Mathlib.Tactic.FieldSimp
import Mathlib.Algebra.Order.Field.Rat
import Mathlib.Algebra.Order.Field.Power
import Verif.Spec.Float
import Verif.Spec.Relate

/-!
# Rounding
-/

namespace Tri

theorem pow2_eq (e : Int) : pow2 e = (2 : ℚ) ^ e := by
  unfold pow2
  split
  · rename_i h
    conv_rhs => rw [← Int.toNat_of_nonneg h]
    rw [zpow_natCast]; push_cast; rfl
  · rename_i h
    have h' : e = -((-e).toNat : Int) := by omega
    conv_rhs => rw [h']
    rw [zpow_neg, zpow_natCast, Rat.mkRat_eq_div]
    push_cast
    rw [one_div]

theorem pow2_pos (e : Int) : 0 < pow2 e := by rw [pow2_eq]; positivity

theorem pow2_add (a b : Int) : pow2 (a + b) = pow2 a * pow2 b := by
  simp only [pow2_eq]; exact zpow_add₀ (by norm_num) _ _

theorem pow2_le {a b : Int} : pow2 a ≤ pow2 b ↔ a ≤ b := by
  simp only [pow2_eq]; exact zpow_le_zpow_iff_right₀ (by norm_num)

theorem pow2_lt {a b : Int} : pow2 a < pow2 b ↔ a < b := by
  simp only [pow2_eq]; exact zpow_lt_zpow_iff_right₀ (by norm_num)

theorem pow2_nat (n : Nat) : pow2 n = ((2 ^ n : Nat) : ℚ) := by
  unfold pow2; rw [if_pos (by omega)]; rfl

theorem pow2_one : pow2 1 = 2 := by rw [pow2_eq]; norm_num

theorem abs_num_den (q : ℚ) : |q| = (q.num.natAbs : ℚ) / (q.den : ℚ) := by
  conv_lhs => rw [← Rat.num_div_den q]
  have hd : (0 : ℚ) < q.den := by exact_mod_cast q.den_pos
  rw [div_eq_mul_inv, abs_mul, abs_of_pos (inv_pos.2 hd), ← div_eq_mul_inv, ← Int.cast_abs, Int.abs_eq_natAbs]
  rfl

/-- `ilog2` is the logarithm rounded down. -/
theorem ilog2_spec {q : ℚ} (hq : q ≠ 0) : pow2 (ilog2 q) ≤ |q| ∧ |q| < pow2 (ilog2 q + 1) := by
  have hn : q.num.natAbs ≠ 0 := by simpa using hq
  have hd : q.den ≠ 0 := q.den_nz
  have n1 := Nat.log2_self_le hn
  have n2 := Nat.lt_log2_self (n := q.num.natAbs)
  have d1 := Nat.log2_self_le hd
  have d2 := Nat.lt_log2_self (n := q.den)
  set a := q.num.natAbs.log2
  set b := q.den.log2
  have hn' : (0 : ℚ) < q.num.natAbs := by exact_mod_cast Nat.pos_of_ne_zero hn
  have hd' : (0 : ℚ) < q.den := by exact_mod_cast Nat.pos_of_ne_zero hd
  have N1 : pow2 a ≤ q.num.natAbs := by rw [pow2_nat]; exact_mod_cast n1
  have N2 : (q.num.natAbs : ℚ) < pow2 (a + 1) := by
    rw [show ((a : Int) + 1) = ((a + 1 : Nat) : Int) by push_cast; rfl, pow2_nat]; exact_mod_cast n2
  have D1 : pow2 b ≤ q.den := by rw [pow2_nat]; exact_mod_cast d1
  have D2 : (q.den : ℚ) < pow2 (b + 1) := by
    rw [show ((b : Int) + 1) = ((b + 1 : Nat) : Int) by push_cast; rfl, pow2_nat]; exact_mod_cast d2
  have up : |q| < pow2 ((a : Int) - b + 1) := by
    rw [abs_num_den, div_lt_iff₀ hd']
    calc (q.num.natAbs : ℚ) < pow2 (a + 1) := N2
      _ = pow2 ((a : Int) - b + 1) * pow2 b := by rw [← pow2_add]; congr 1; ring
      _ ≤ _ := mul_le_mul_of_nonneg_left D1 (pow2_pos _).le
  have lo : pow2 ((a : Int) - b - 1) ≤ |q| := by
    rw [abs_num_den, le_div_iff₀ hd']
    calc pow2 ((a : Int) - b - 1) * q.den ≤ pow2 ((a : Int) - b - 1) * pow2 (b + 1) :=
          mul_le_mul_of_nonneg_left D2.le (pow2_pos _).le
      _ = pow2 a := by rw [← pow2_add]; congr 1; ring
      _ ≤ _ := N1
  show pow2 (if pow2 ((a : Int) - b) ≤ |q| then (a : Int) - b else (a : Int) - b - 1) ≤ |q| ∧
    |q| < pow2 ((if pow2 ((a : Int) - b) ≤ |q| then (a : Int) - b else (a : Int) - b - 1) + 1)
  split
  · rename_i h; exact ⟨h, up⟩
  · rename_i h
    exact ⟨lo, by rw [sub_add_cancel]; exact not_le.1 h⟩

theorem ilog2_lt {q : ℚ} (hq : q ≠ 0) {e : Int} (h : |q| < pow2 e) : ilog2 q < e :=
  pow2_lt.1 (lt_of_le_of_lt (ilog2_spec hq).1 h)

theorem le_ilog2 {q : ℚ} (hq : q ≠ 0) {e : Int} (h : pow2 e ≤ |q|) : e ≤ ilog2 q := by
  have := pow2_lt.1 (lt_of_le_of_lt h (ilog2_spec hq).2)
  omega

theorem floor_le' (q : ℚ) : (q.floor : ℚ) ≤ q := Rat.le_floor_iff.1 le_rfl

theorem roundEven_int (z : Int) : roundEven z = z := by
  have : Rat.floor (z : ℚ) = z := Rat.floor_intCast z
  simp [roundEven]

theorem roundEven_near (q : ℚ) : |(roundEven q : ℚ) - q| ≤ 1 / 2 := by
  have h1 := floor_le' q
  have h2 := Rat.lt_floor_add_one q
  push_cast at h2
  unfold roundEven
  simp only
  rw [abs_le]
  split
  · constructor <;> linarith
  · split
    · push_cast; constructor <;> linarith
    · split
      · constructor <;> linarith
      · push_cast; constructor <;> linarith

/-! ## Numbers of a format -/

/-- Rounding does not change numbers of the format. -/
theorem nearest_fits {f : FloatFormat} (hp : 0 < f.p) {q : ℚ} (h : f.Fits q) : f.nearest q = q := by
  obtain ⟨m, k, rfl, hm, hk⟩ := h
  unfold FloatFormat.nearest
  split
  · rename_i h; exact h.symm
  · rename_i hq
    simp only
    set e := max (ilog2 ((m : ℚ) * pow2 k) + 1 - f.p) f.emin with he
    have key : ∃ z : Int, (m : ℚ) * pow2 k / pow2 e = z := by
      have hpe := (pow2_pos e).ne'
      by_cases hek : e ≤ k
      · refine ⟨m * 2 ^ (k - e).toNat, ?_⟩
        rw [div_eq_iff hpe]
        have : pow2 k = pow2 (k - e).toNat * pow2 e := by rw [← pow2_add]; congr 1; omega
        rw [this, pow2_nat]; push_cast; ring
      · have hk' : e = ilog2 ((m : ℚ) * pow2 k) + 1 - f.p := by omega
        have h1 : k + f.p ≤ ilog2 ((m : ℚ) * pow2 k) := by omega
        have h2 : pow2 (k + f.p) ≤ |(m : ℚ) * pow2 k| := (pow2_le.2 h1).trans (ilog2_spec hq).1
        have hmq : |(m : ℚ)| ≤ pow2 f.p := by
          rw [pow2_nat]; push_cast; rw [← Int.cast_abs]; exact_mod_cast hm
        have h3 : |(m : ℚ) * pow2 k| = |(m : ℚ)| * pow2 k := by rw [abs_mul, abs_of_pos (pow2_pos k)]
        have h4 : |(m : ℚ)| = pow2 f.p := by
          refine le_antisymm hmq ?_
          rw [h3, add_comm, pow2_add] at h2
          exact le_of_mul_le_mul_right h2 (pow2_pos k)
        have h5 : ilog2 ((m : ℚ) * pow2 k) < f.p + k + 1 := by
          refine ilog2_lt hq ?_
          rw [h3, h4, ← pow2_add, pow2_lt]; omega
        have hek' : e = k + 1 := by omega
        have h6 : m = 2 ^ f.p ∨ m = -2 ^ f.p := by
          rw [pow2_nat, ← Int.cast_abs] at h4
          have : |m| = 2 ^ f.p := by exact_mod_cast h4
          rcases abs_choice m with h | h
          · left; rw [← h, this]
          · right; rw [← this, h, neg_neg]
        obtain ⟨n, hn⟩ : ∃ n, f.p = n + 1 := ⟨f.p - 1, by omega⟩
        rw [hn] at h6
        rw [hek']
        rcases h6 with h6 | h6
        · refine ⟨2 ^ n, ?_⟩
          rw [div_eq_iff (pow2_pos _).ne', h6, pow2_add, pow2_one]; push_cast; ring
        · refine ⟨-2 ^ n, ?_⟩
          rw [div_eq_iff (pow2_pos _).ne', h6, pow2_add, pow2_one]; push_cast; ring
    obtain ⟨z, hz⟩ := key
    rw [hz, roundEven_int, ← hz, div_mul_cancel₀ _ (pow2_pos e).ne']

/-- Rounding errors. -/
theorem nearest_error (f : FloatFormat) (q : ℚ) :
    |f.nearest q - q| ≤ |q| * pow2 (-f.p) ∨ |f.nearest q - q| ≤ pow2 (f.emin - 1) ∧ |q| < pow2 (f.emin + f.p - 1) := by
  unfold FloatFormat.nearest
  split
  · rename_i h; left; simp [h]
  · rename_i hq
    simp only
    set e := max (ilog2 q + 1 - f.p) f.emin with he
    have h1 := roundEven_near (q / pow2 e)
    have hpe := pow2_pos e
    have h2 : |(roundEven (q / pow2 e) : ℚ) * pow2 e - q| ≤ pow2 (e - 1) := by
      have e1 : (roundEven (q / pow2 e) : ℚ) * pow2 e - q = ((roundEven (q / pow2 e) : ℚ) - q / pow2 e) * pow2 e := by
        rw [sub_mul, div_mul_cancel₀ _ hpe.ne']
      have e2 : pow2 (e - 1) = 1 / 2 * pow2 e := by
        have : pow2 e = pow2 (e - 1) * 2 := by rw [← pow2_one, ← pow2_add]; congr 1; ring
        rw [this]; ring
      rw [e1, e2, abs_mul, abs_of_pos hpe]
      exact mul_le_mul_of_nonneg_right h1 hpe.le
    obtain ⟨l1, l2⟩ := ilog2_spec hq
    by_cases hc : f.emin ≤ ilog2 q + 1 - f.p
    · left
      refine h2.trans ?_
      have : e - 1 = ilog2 q + -f.p := by omega
      rw [this, pow2_add]
      exact mul_le_mul_of_nonneg_right l1 (pow2_pos _).le
    · right
      have : e = f.emin := by omega
      rw [this] at h2 ⊢
      exact ⟨h2, lt_of_lt_of_le l2 (pow2_le.2 (by omega))⟩

theorem fits_zero (f : FloatFormat) : f.Fits 0 := ⟨0, f.emin, by simp, by simp, le_rfl⟩

theorem nearest_zero (f : FloatFormat) : f.nearest 0 = 0 := by simp [FloatFormat.nearest]

theorem fits_multiple {f : FloatFormat} {q : ℚ} (h : f.Fits q) : ∃ z : Int, q = z * pow2 f.emin := by
  obtain ⟨m, k, rfl, -, hk⟩ := h
  refine ⟨m * 2 ^ (k - f.emin).toNat, ?_⟩
  have : pow2 k = pow2 (k - f.emin).toNat * pow2 f.emin := by rw [← pow2_add]; congr 1; omega
  rw [this, pow2_nat]; push_cast; ring

/-- The error of a difference. -/
theorem sub_error {f : FloatFormat} (hp : 0 < f.p) {a b : ℚ} (ha : f.Fits a) (hb : f.Fits b) :
    |f.nearest (a - b) - (a - b)| ≤ |a - b| * pow2 (-f.p) := by
  rcases nearest_error f (a - b) with h | ⟨-, h⟩
  · exact h
  · obtain ⟨y, rfl⟩ := fits_multiple ha
    obtain ⟨z, rfl⟩ := fits_multiple hb
    have e : (y : ℚ) * pow2 f.emin - z * pow2 f.emin = ((y - z : Int) : ℚ) * pow2 f.emin := by push_cast; ring
    rw [e] at h ⊢
    have hf : f.Fits (((y - z : Int) : ℚ) * pow2 f.emin) := by
      refine ⟨y - z, f.emin, rfl, ?_, le_rfl⟩
      rw [abs_mul, abs_of_pos (pow2_pos _)] at h
      have h1 : pow2 (f.emin + f.p - 1) ≤ pow2 f.p * pow2 f.emin := by
        rw [← pow2_add, pow2_le]; omega
      have h2 := le_of_mul_le_mul_right (h.le.trans h1) (pow2_pos _)
      rw [pow2_nat, ← Int.cast_abs] at h2
      exact_mod_cast h2
    rw [nearest_fits hp hf, sub_self, abs_zero]
    exact mul_nonneg (abs_nonneg _) (pow2_pos _).le

theorem mul_error (f : FloatFormat) (q : ℚ) : |f.nearest q - q| ≤ |q| * pow2 (-f.p) + pow2 (f.emin - 1) := by
  have := pow2_pos (f.emin - 1)
  have := mul_nonneg (abs_nonneg q) (pow2_pos (-f.p)).le
  rcases nearest_error f q with h | ⟨h, -⟩ <;> linarith

/-- A number that is not much greater than another one. -/
theorem abs_grow {a b e : ℚ} (h : |a - b| ≤ e) : |a| ≤ |b| + e := by
  have := abs_sub_abs_le_abs_sub a b
  linarith

/-- The error of a product of rounded factors. -/
theorem product_error {f : FloatFormat} {x y x' y' : ℚ} (hp : 2 ≤ f.p) (hx : |x' - x| ≤ |x| * pow2 (-f.p))
    (hy : |y' - y| ≤ |y| * pow2 (-f.p)) :
    |f.nearest (x' * y') - x * y| ≤ 4 * pow2 (-f.p) * |x * y| + pow2 (f.emin - 1) := by
  set u := pow2 (-f.p) with hu
  have u0 : 0 < u := pow2_pos _
  have u1 : u ≤ 1 / 4 := by
    have : pow2 (-2) = 1 / 4 := by rw [pow2_eq]; norm_num
    rw [← this, hu, pow2_le]; omega
  have h1 := mul_error f (x' * y')
  rw [← hu] at h1
  have gx := abs_grow hx
  have gy := abs_grow hy
  have X := abs_nonneg x
  have Y := abs_nonneg y
  -- the product before rounding
  have h2 : |x' * y' - x * y| ≤ |x * y| * (2 * u + u * u) := by
    have e : x' * y' - x * y = (x' - x) * y' + x * (y' - y) := by ring
    rw [e]
    refine (abs_add_le _ _).trans ?_
    rw [abs_mul, abs_mul, abs_mul]
    have k1 : |x' - x| * |y'| ≤ (|x| * u) * (|y| + |y| * u) := mul_le_mul hx gy (abs_nonneg _) (by positivity)
    have k2 : |x| * |y' - y| ≤ |x| * (|y| * u) := mul_le_mul_of_nonneg_left hy X
    nlinarith
  have h3 := abs_grow h2
  have h4 : |f.nearest (x' * y') - x * y| ≤ |f.nearest (x' * y') - x' * y'| + |x' * y' - x * y| := by
    have : f.nearest (x' * y') - x * y = (f.nearest (x' * y') - x' * y') + (x' * y' - x * y) := by ring
    rw [this]; exact abs_add_le _ _
  have P := abs_nonneg (x * y)
  have h5 : |x' * y'| * u ≤ (|x * y| + |x * y| * (2 * u + u * u)) * u := mul_le_mul_of_nonneg_right h3 u0.le
  have h6 : |x * y| * (3 * u + 3 * (u * u) + u * u * u) ≤ |x * y| * (4 * u) := by
    refine mul_le_mul_of_nonneg_left ?_ P
    have : u * u ≤ u * (1 / 4) := mul_le_mul_of_nonneg_left u1 u0.le
    have : u * u * u ≤ u * (1 / 4) * (1 / 4) := by nlinarith
    linarith
  nlinarith

/-! ## Side tests -/

/-- Products that are far apart compare alike after small changes. -/
theorem lt_of_clear {A B A' B' c η : ℚ} (hA : |A' - A| ≤ c * |A| + η) (hB : |B' - B| ≤ c * |B| + η)
    (h : c * (|A| + |B|) + 2 * η < |A - B|) : A' < B' ↔ A < B := by
  rw [abs_le] at hA hB
  rcases lt_trichotomy A B with h1 | h1 | h1
  · rw [abs_of_neg (sub_neg.2 h1)] at h
    exact ⟨fun _ => h1, fun _ => by linarith⟩
  · rw [h1, sub_self, abs_zero] at h
    subst h1
    constructor <;> intro h2 <;> linarith
  · rw [abs_of_pos (sub_pos.2 h1)] at h
    exact ⟨fun h2 => by linarith, fun h2 => absurd h2 (not_lt.2 h1.le)⟩

theorem round_fin {f : FloatFormat} {q : ℚ} (h : |f.nearest q| < pow2 f.emax) : f.round q = .fin (f.nearest q) := if_pos h

/-- A bound for all coordinates. -/
def FloatFormat.Bounded (f : FloatFormat) (c : Coords ℚ) : Prop := |c.x| ≤ pow2 ((f.emax - 6) / 2) ∧ |c.y| ≤ pow2 ((f.emax - 6) / 2)

theorem sound_bounded {f : FloatFormat} {c : Coords ℚ} (h : f.Sound c) : f.Bounded c := by
  obtain ⟨-, -, g, hg, h1, h2⟩ := h
  have : pow2 g ≤ pow2 ((f.emax - 6) / 2) := pow2_le.2 (by omega)
  exact ⟨h1.trans this, h2.trans this⟩

theorem diff_bound {g : Int} {a b : ℚ} (ha : |a| ≤ pow2 g) (hb : |b| ≤ pow2 g) : |a - b| ≤ pow2 (g + 1) := by
  rw [pow2_add, pow2_one]
  have := abs_sub a b
  linarith

/-- The rounded difference of two coordinates. -/
theorem diff_rounded {f : FloatFormat} (hp : 2 ≤ f.p) (hm : 6 ≤ f.emax) {a b : ℚ} (ha : f.Fits a) (hb : f.Fits b)
    (ba : |a| ≤ pow2 ((f.emax - 6) / 2)) (bb : |b| ≤ pow2 ((f.emax - 6) / 2)) :
    f.round (a - b) = .fin (f.nearest (a - b)) ∧ |f.nearest (a - b) - (a - b)| ≤ |a - b| * pow2 (-f.p) ∧
      |f.nearest (a - b)| ≤ pow2 ((f.emax - 6) / 2 + 2) := by
  have h1 := sub_error (by omega) ha hb
  have h2 := diff_bound ba bb
  have h3 : |f.nearest (a - b)| ≤ pow2 ((f.emax - 6) / 2 + 2) := by
    have k := abs_grow h1
    have u1 : pow2 (-f.p) ≤ 1 := by
      have : pow2 0 = 1 := by rw [pow2_eq]; norm_num
      rw [← this, pow2_le]; omega
    have k2 : |a - b| * pow2 (-f.p) ≤ |a - b| * 1 := mul_le_mul_of_nonneg_left u1 (abs_nonneg _)
    have k3 : pow2 ((f.emax - 6) / 2 + 2) = pow2 ((f.emax - 6) / 2 + 1) * 2 := by
      rw [← pow2_one, ← pow2_add]; congr 1; ring
    rw [k3]; linarith
  exact ⟨round_fin (lt_of_le_of_lt h3 (pow2_lt.2 (by omega))), h1, h3⟩

/-- The product of two rounded differences does not overflow. -/
theorem product_rounded {f : FloatFormat} (hp : 2 ≤ f.p) (hm : 6 ≤ f.emax) (hn : f.emin ≤ 0) {x y : ℚ}
    (hx : |x| ≤ pow2 ((f.emax - 6) / 2 + 2)) (hy : |y| ≤ pow2 ((f.emax - 6) / 2 + 2)) :
    f.round (x * y) = .fin (f.nearest (x * y)) := by
  refine round_fin ?_
  have h1 := abs_grow (mul_error f (x * y))
  set g := (f.emax - 6) / 2 with hg
  have h2 : |x * y| ≤ pow2 (2 * g + 4) := by
    rw [abs_mul]
    have : pow2 (2 * g + 4) = pow2 (g + 2) * pow2 (g + 2) := by rw [← pow2_add]; congr 1; ring
    rw [this]
    exact mul_le_mul hx hy (abs_nonneg _) (pow2_pos _).le
  have u1 : pow2 (-f.p) ≤ 1 := by
    have : pow2 0 = 1 := by rw [pow2_eq]; norm_num
    rw [← this, pow2_le]; omega
  have h3 : |x * y| * pow2 (-f.p) ≤ |x * y| * 1 := mul_le_mul_of_nonneg_left u1 (abs_nonneg _)
  have h4 : pow2 (f.emin - 1) < pow2 (2 * g + 4) := pow2_lt.2 (by omega)
  have h5 : pow2 (2 * g + 4) * 4 ≤ pow2 f.emax := by
    have : (4 : ℚ) = pow2 2 := by rw [pow2_eq]; norm_num
    rw [this, ← pow2_add, pow2_le]; omega
  have := pow2_pos (2 * g + 4)
  linarith

attribute [local instance] ieee exact

/-- Side tests in floating point. -/
theorem side_toFl {f : FloatFormat} (hp : 2 ≤ f.p) (hm : 6 ≤ f.emax) (hn : f.emin ≤ 0) {u v w : Coords ℚ}
    (hu : f.Sound u) (hv : f.Sound v) (hw : f.Sound w)
    (h : u ≠ v → w.y ≠ v.y → w.y ≠ u.y → f.Reliable u v w) :
    isLeftOfLine (u.toFl f) (v.toFl f) (w.toFl f) = isLeftOfLine u v w := by
  have key : w.y ≠ v.y → w.y ≠ u.y → Scalar.lt (Scalar.mul (Scalar.sub (u.toFl f).x (v.toFl f).x) (Scalar.sub (w.toFl f).y (v.toFl f).y))
      (Scalar.mul (Scalar.sub (u.toFl f).y (v.toFl f).y) (Scalar.sub (w.toFl f).x (v.toFl f).x)) =
      decide ((u.x - v.x) * (w.y - v.y) < (u.y - v.y) * (w.x - v.x)) := by
    intro n1 n2
    obtain ⟨ux, uy⟩ := sound_bounded hu
    obtain ⟨vx, vy⟩ := sound_bounded hv
    obtain ⟨wx, wy⟩ := sound_bounded hw
    obtain ⟨a1, a2, a3⟩ := diff_rounded hp hm hu.1 hv.1 ux vx
    obtain ⟨b1, b2, b3⟩ := diff_rounded hp hm hw.2.1 hv.2.1 wy vy
    obtain ⟨c1, c2, c3⟩ := diff_rounded hp hm hu.2.1 hv.2.1 uy vy
    obtain ⟨d1, d2, d3⟩ := diff_rounded hp hm hw.1 hv.1 wx vx
    have e1 := product_rounded hp hm hn a3 b3
    have e2 := product_rounded hp hm hn c3 d3
    have goal : (f.nearest (f.nearest (u.x - v.x) * f.nearest (w.y - v.y)) <
        f.nearest (f.nearest (u.y - v.y) * f.nearest (w.x - v.x))) ↔
        (u.x - v.x) * (w.y - v.y) < (u.y - v.y) * (w.x - v.x) := by
      by_cases huv : u = v
      · subst huv
        simp [nearest_zero]
      · rcases h huv n1 n2 with h | ⟨h1, h2, h3, h4, h5, h6⟩ | ⟨h1, h2⟩
        · refine lt_of_clear (product_error hp a2 b2) (product_error hp c2 d2) ?_
          have : pow2 f.emin = 2 * pow2 (f.emin - 1) := by
            rw [← pow2_one, ← pow2_add]; congr 1; ring
          rw [← this]
          exact h
        · have hp' : 0 < f.p := by omega
          rw [nearest_fits hp' h1, nearest_fits hp' h2, nearest_fits hp' h3, nearest_fits hp' h4]
          have k5 := nearest_fits hp' h5
          have k6 := nearest_fits hp' h6
          simp only [sideProducts] at k5 k6
          rw [k5, k6]
        · simp [h1, h2, nearest_zero]
    simp only [Coords.toFl, Scalar.sub, a1, b1, c1, d1, Scalar.mul, e1, e2, Scalar.lt, goal]
  unfold isLeftOfLine
  have q1 : Scalar.eq (w.toFl f).y (v.toFl f).y = decide (w.y = v.y) := rfl
  have q2 : Scalar.eq (w.toFl f).y (u.toFl f).y = decide (w.y = u.y) := rfl
  have q3 : Scalar.eq w.y v.y = decide (w.y = v.y) := rfl
  have q4 : Scalar.eq w.y u.y = decide (w.y = u.y) := rfl
  rw [q1, q2, q3, q4]
  by_cases n1 : w.y = v.y
  · simp only [n1, decide_true, if_true]; rfl
  · by_cases n2 : w.y = u.y
    · simp only [n2, decide_true, if_true]; rfl
    · simp only [n1, n2, decide_false, Bool.false_eq_true, if_false]
      rw [key n1 n2]
      rfl

/-- Floating point coordinates that answer like exact ones. -/
theorem answers_toFl {I V : Type} {f : FloatFormat} (hf : f.Usual) (p : PolyList I V) (xy : V → Coords ℚ)
    (hs : ∀ i v, p.getVertex i = some v → f.Sound (xy v))
    (hc : ∀ i j k u v w, p.getVertex i = some u → p.getVertex j = some v → p.getVertex k = some w →
      xy u ≠ xy v → (xy w).y ≠ (xy v).y → (xy w).y ≠ (xy u).y →
      f.Clear (xy u) (xy v) (xy w) ∨ f.NoRounding (xy u) (xy v) (xy w)) :
    SameAnswers (fun i => (p.getVertex i).map xy) (fun i => (p.getVertex i).map fun v => (xy v).toFl f) := by
  have two : ∀ {P : Coords ℚ → Coords (Fl f) → Prop} {i a a'}, (∀ v, p.getVertex i = some v → P (xy v) ((xy v).toFl f)) →
      (p.getVertex i).map xy = some a → (p.getVertex i).map (fun v => (xy v).toFl f) = some a' → P a a' := by
    intro P i a a' h h1 h2
    cases hg : p.getVertex i with
    | none => rw [hg] at h1; cases h1
    | some v =>
      rw [hg] at h1 h2
      simp only [Option.map_some, Option.some.injEq] at h1 h2
      subst h1 h2
      exact h v hg
  refine ⟨fun i => by simp, ?_, ?_, ?_, ?_⟩
  · intro i j a b a' b' h1 h2 h3 h4
    revert h1 h3
    refine two (P := fun a a' => a.partialCmp b = a'.partialCmp b') fun u hu => ?_
    revert h2 h4
    exact two (P := fun b b' => (xy u).partialCmp b = ((xy u).toFl f).partialCmp b') fun v hv => rfl
  · intro i j k u v w u' v' w' h1 h2 h3 h4 h5 h6
    revert h1 h4
    refine two (P := fun u u' => isLeftOfLine u v w = isLeftOfLine u' v' w') fun a ha => ?_
    revert h2 h5
    refine two (P := fun v v' => isLeftOfLine (xy a) v w = isLeftOfLine ((xy a).toFl f) v' w') fun b hb => ?_
    revert h3 h6
    refine two (P := fun w w' => isLeftOfLine (xy a) (xy b) w = isLeftOfLine ((xy a).toFl f) ((xy b).toFl f) w') fun c hc' => ?_
    exact (side_toFl hf.two hf.big hf.small (hs i a ha) (hs j b hb) (hs k c hc')
      fun n1 n2 n3 => (hc i j k a b c ha hb hc' n1 n2 n3).elim .inl fun h => .inr (.inl h)).symm
  · intro i j a b a' b' h1 h2 h3 h4
    revert h1 h3
    refine two (P := fun a a' => Scalar.eq a.x b.x = Scalar.eq a'.x b'.x) fun u hu => ?_
    revert h2 h4
    exact two (P := fun b b' => Scalar.eq (xy u).x b.x = Scalar.eq ((xy u).toFl f).x b'.x) fun v hv => rfl
  · intro i j a b a' b' h1 h2 h3 h4
    revert h1 h3
    refine two (P := fun a a' => Scalar.eq a.y b.y = Scalar.eq a'.y b'.y) fun u hu => ?_
    revert h2 h4
    exact two (P := fun b b' => Scalar.eq (xy u).y b.y = Scalar.eq ((xy u).toFl f).y b'.y) fun v hv => rfl

/-! ## Points of a grid -/

/-- The point `(m 2^k, n 2^k)`. -/
theorem grid_sound {f : FloatFormat} (hf : f.Usual) {k : Int} {L : Nat} (hp : 2 * L + 2 ≤ f.p) (hk : f.emin ≤ k)
    (hm : 2 * ((L : Int) + k) + 6 ≤ f.emax) {c : Coords ℚ} (h : ∃ m n : Int, |m| ≤ 2 ^ L ∧ |n| ≤ 2 ^ L ∧ c.x = m * pow2 k ∧ c.y = n * pow2 k) :
    f.Sound c := by
  obtain ⟨m, n, h1, h2, h3, h4⟩ := h
  have key : ∀ {m : Int} {q : ℚ}, |m| ≤ 2 ^ L → q = m * pow2 k → f.Fits q ∧ |q| ≤ pow2 ((L + k).toNat : Int) := by
    intro m q h1 h2
    refine ⟨⟨m, k, h2, h1.trans (pow_le_pow_right₀ (by norm_num) (by omega)), hk⟩, ?_⟩
    rw [h2, abs_mul, abs_of_pos (pow2_pos k)]
    have : |(m : ℚ)| ≤ pow2 L := by rw [pow2_nat, ← Int.cast_abs]; exact_mod_cast h1
    calc |(m : ℚ)| * pow2 k ≤ pow2 L * pow2 k := mul_le_mul_of_nonneg_right this (pow2_pos _).le
      _ = pow2 (L + k) := (pow2_add _ _).symm
      _ ≤ _ := pow2_le.2 (by omega)
  have := hf.big
  exact ⟨(key h1 h3).1, (key h2 h4).1, (L + k).toNat, by omega, (key h1 h3).2, (key h2 h4).2⟩

theorem grid_exact {f : FloatFormat} {k : Int} {L : Nat} (hp : 2 * L + 2 ≤ f.p) (hk : f.emin ≤ k) (hk2 : f.emin ≤ 2 * k)
    {u v w : Coords ℚ} (hu : ∃ m n : Int, |m| ≤ 2 ^ L ∧ |n| ≤ 2 ^ L ∧ u.x = m * pow2 k ∧ u.y = n * pow2 k)
    (hv : ∃ m n : Int, |m| ≤ 2 ^ L ∧ |n| ≤ 2 ^ L ∧ v.x = m * pow2 k ∧ v.y = n * pow2 k)
    (hw : ∃ m n : Int, |m| ≤ 2 ^ L ∧ |n| ≤ 2 ^ L ∧ w.x = m * pow2 k ∧ w.y = n * pow2 k) : f.NoRounding u v w := by
  obtain ⟨um, un, um1, un1, ux, uy⟩ := hu
  obtain ⟨vm, vn, vm1, vn1, vx, vy⟩ := hv
  obtain ⟨wm, wn, wm1, wn1, wx, wy⟩ := hw
  have hd : ∀ {m n : Int}, |m| ≤ 2 ^ L → |n| ≤ 2 ^ L → |m - n| ≤ 2 ^ (L + 1) := by
    intro m n h1 h2
    have := abs_sub m n
    rw [pow_succ]; linarith
  have fd : ∀ {m n : Int} {a b : ℚ}, |m| ≤ 2 ^ L → |n| ≤ 2 ^ L → a = m * pow2 k → b = n * pow2 k → f.Fits (a - b) := by
    intro m n a b h1 h2 h3 h4
    refine ⟨m - n, k, by rw [h3, h4]; push_cast; ring, (hd h1 h2).trans (pow_le_pow_right₀ (by norm_num) (by omega)), hk⟩
  have fp : ∀ {m n m' n' : Int} {a b c d : ℚ}, |m| ≤ 2 ^ L → |n| ≤ 2 ^ L → |m'| ≤ 2 ^ L → |n'| ≤ 2 ^ L → a = m * pow2 k →
      b = n * pow2 k → c = m' * pow2 k → d = n' * pow2 k → f.Fits ((a - b) * (c - d)) := by
    intro m n m' n' a b c d h1 h2 h3 h4 h5 h6 h7 h8
    refine ⟨(m - n) * (m' - n'), 2 * k, ?_, ?_, hk2⟩
    · rw [h5, h6, h7, h8, two_mul, pow2_add]; push_cast; ring
    · rw [abs_mul]
      calc |m - n| * |m' - n'| ≤ 2 ^ (L + 1) * 2 ^ (L + 1) := mul_le_mul (hd h1 h2) (hd h3 h4) (abs_nonneg _) (by positivity)
        _ = 2 ^ (2 * L + 2) := by rw [← pow_add]; congr 1; ring
        _ ≤ _ := pow_le_pow_right₀ (by norm_num) hp
  exact ⟨fd um1 vm1 ux vx, fd un1 vn1 uy vy, fd wm1 vm1 wx vx, fd wn1 vn1 wy vy,
    fp um1 vm1 wn1 vn1 ux vx wy vy, fp un1 vn1 wm1 vm1 uy vy wx vx⟩

end Tri
