import Verif.Proof.FloatSpecial

/-!
# The floating point arithmetic of C41, and of all properties on `f32` and `f64`, is that of IEEE 754

What the theorems on floating point coordinates say depends on the model of the arithmetic.  It is compared here with how IEEE 754 defines it.
-/

namespace Tri

variable {f : FloatFormat}

attribute [local instance] ieee

/-- **C41**, the arithmetic: the exact result is rounded to a number of the format.  None is nearer, and if there is another one as near, then the chosen one is an even multiple
of their distance.  Results are infinite if this number, rounded as if the exponent were unlimited, is too large. -/
theorem C41_rounding (hp : 0 < f.p) (a b : ℚ) (op : Fl f → Fl f → Fl f) (r : ℚ)
    (hop : (op = Scalar.sub ∧ r = a - b) ∨ (op = Scalar.mul ∧ r = a * b)) :
    ∃ q, f.Fits q ∧ (∀ v, f.Fits v → |q - r| ≤ |v - r| ∧ (|v - r| = |q - r| → v = q ∨ ∃ m : Int, q = 2 * m * |v - q|)) ∧
      (|q| < pow2 f.emax → op (.fin a) (.fin b) = .fin q) ∧
      (pow2 f.emax ≤ |q| → op (.fin a) (.fin b) = .inf (decide (r < 0))) := by
  obtain ⟨h1, h2⟩ := nearest_best hp r
  refine ⟨f.nearest r, h1, h2, fun h => ?_, fun h => ?_⟩ <;> rcases hop with ⟨rfl, rfl⟩ | ⟨rfl, rfl⟩
  · exact if_pos h
  · exact if_pos h
  · exact if_neg (not_lt.2 h)
  · exact if_neg (not_lt.2 h)

/-- **C41**, the arithmetic: an operation with an infinite operand gives the infinite number that the results with finite operands tend to, and NaN if they do not
(`∞ - ∞`, `0 * ∞`).  With NaN everything is NaN. -/
theorem C41_infinities (op : Fl f → Fl f → Fl f) (g : ℚ → ℚ → ℚ)
    (hop : (op = Scalar.sub ∧ g = (· - ·)) ∨ (op = Scalar.mul ∧ g = (· * ·))) :
    (∀ x y : Fl f, x ≠ .nan → y ≠ .nan → ((∃ s, x = .inf s) ∨ ∃ s, y = .inf s) →
      (∀ t, op x y = .inf t ↔ Tends g x y t) ∧ (op x y = .nan ↔ ∀ t, ¬ Tends g x y t)) ∧
    ∀ x : Fl f, op .nan x = .nan ∧ op x .nan = .nan := by
  constructor
  · intro x y hx hy hi
    have h : Settled op g x y := by
      rcases hop with ⟨rfl, rfl⟩ | ⟨rfl, rfl⟩
      · exact sub_settled x y hx hy hi
      · exact mul_settled x y hx hy hi
    rcases h with ⟨t, h1, h2⟩ | ⟨h1, h2⟩
    · rw [h1]
      refine ⟨fun u => ⟨fun e => by cases e; exact h2, fun h => by rw [h2.unique hx hy h]⟩, fun e => (by cases e), fun h => absurd h2 (h t)⟩
    · rw [h1]
      exact ⟨fun u => ⟨fun e => (by cases e), fun h => absurd h (h2 u)⟩, fun _ => h2, fun _ => rfl⟩
  · intro x
    rcases hop with ⟨rfl, rfl⟩ | ⟨rfl, rfl⟩ <;> rcases x with a | s | _ <;> exact ⟨rfl, rfl⟩

/-- **C41**, the arithmetic: comparisons are those of the numbers close to the operands, and NaN compares with nothing. -/
theorem C41_comparisons (x y : Fl f) :
    (Scalar.cmp x y = none ↔ x = .nan ∨ y = .nan) ∧
    (Scalar.cmp x y = some .eq ↔ x = y ∧ x ≠ .nan) ∧
    (Scalar.cmp x y = some .lt ↔ x ≠ .nan ∧ y ≠ .nan ∧ ∃ N > 0, ∀ a b, x.Close N a → y.Close N b → a < b) ∧
    (Scalar.cmp x y = some .gt ↔ Scalar.cmp y x = some .lt) ∧
    (Scalar.eq x y = true ↔ Scalar.cmp x y = some .eq) ∧
    (Scalar.lt x y = true ↔ Scalar.cmp x y = some .lt) := by
  have hn : Scalar.cmp x y = none ↔ x = .nan ∨ y = .nan := by
    by_cases hx : x = .nan
    · subst hx
      exact ⟨fun _ => .inl rfl, fun _ => rfl⟩
    · by_cases hy : y = .nan
      · subst hy
        exact ⟨fun _ => .inr rfl, fun _ => by cases x <;> rfl⟩
      · rcases cmp_cases hx hy with ⟨h, -⟩ | ⟨h, -⟩ | ⟨h, -⟩ <;> simp [h, hx, hy]
  refine ⟨hn, ?_, ?_, ?_, eq_lt_cmp x y⟩
  all_goals
    by_cases hx : x = .nan
    · have h1 : Scalar.cmp x y = none := hn.2 (.inl hx)
      have h2 : Scalar.cmp y x = none := by subst hx; cases y <;> rfl
      rw [h1]
      try rw [h2]
      simp [hx]
    by_cases hy : y = .nan
    · have h1 : Scalar.cmp x y = none := hn.2 (.inr hy)
      have h2 : Scalar.cmp y x = none := by subst hy; rfl
      rw [h1]
      try rw [h2]
      simp [hy]
      try (intro h; exact absurd h hx)
  · rcases cmp_cases hx hy with ⟨h, -, h'⟩ | ⟨h, -, h'⟩ | ⟨h, -, h'⟩ <;> simp [h, h', hx]
    subst h'
    exact ⟨fun _ => hx, fun _ => h⟩
  · constructor
    · exact fun h => ⟨hx, hy, cmp_lt_close h⟩
    · rintro ⟨-, -, N, hN, h⟩
      rcases cmp_cases hx hy with ⟨h', -⟩ | ⟨-, -, h'⟩ | ⟨-, h', -⟩
      · exact h'
      · subst h'
        obtain ⟨a, ha⟩ := Fl.close_exists hx N hN
        exact absurd (h a a ha ha) (lt_irrefl a)
      · obtain ⟨M, hM, h''⟩ := cmp_lt_close h'
        obtain ⟨a, a1, a2⟩ := Fl.close_self hx N M hN hM
        obtain ⟨b, b1, b2⟩ := Fl.close_self hy N M hN hM
        exact absurd (h a b a1 b1) (h'' b a b2 a2).not_gt
  · rcases cmp_cases hx hy with ⟨h, h', -⟩ | ⟨h, h', -⟩ | ⟨h, h', -⟩ <;> simp [h, h']

/-! ### Examples -/

/-- A tie, rounded down and up to even numbers: with two bits, `5` is rounded to `4`, and `7` to `8`. -/
example : let f : FloatFormat := ⟨2, 0, 10⟩
    f.nearest 5 = 4 ∧ f.nearest 7 = 8 := by
  decide +kernel

/-- `∞ - ∞` is NaN and `-2 * ∞` is `-∞`. -/
example : (Scalar.sub (.inf false) (.inf false) : Fl binary64) = .nan ∧ (Scalar.mul (.fin (-2)) (.inf false) : Fl binary64) = .inf true := by
  decide +kernel

end Tri
