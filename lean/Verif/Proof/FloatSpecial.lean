import Verif.Proof.FloatRound
import Mathlib.Tactic.Positivity
import Mathlib.Tactic.Linarith

/-!
# Infinities and comparisons
-/

namespace Tri

variable {f : FloatFormat}

attribute [local instance] ieee

/-- The finite numbers that are close to a number; to an infinite one if they are large. -/
def Fl.Close (N : ℚ) : Fl f → ℚ → Prop
  | .fin a, q => |q - a| * N < 1
  | .inf s, q => if s then q < -N else N < q
  | .nan, _ => False

/-- An operation on finite numbers tends to an infinite one. -/
def Tends (op : ℚ → ℚ → ℚ) (x y : Fl f) (t : Bool) : Prop :=
  ∀ B : ℚ, ∃ N : ℚ, 0 < N ∧ ∀ a b, x.Close N a → y.Close N b → (Fl.inf t : Fl f).Close B (op a b)

theorem Fl.close_self {x : Fl f} (hx : x ≠ .nan) (N M : ℚ) (hN : 0 < N) (hM : 0 < M) : ∃ a, x.Close N a ∧ x.Close M a := by
  rcases x with q | (_ | _) | _
  · exact ⟨q, by simp [Fl.Close], by simp [Fl.Close]⟩
  · exact ⟨N + M, by simp [Fl.Close]; linarith, by simp [Fl.Close]; linarith⟩
  · exact ⟨-(N + M), by simp [Fl.Close]; linarith, by simp [Fl.Close]; linarith⟩
  · exact absurd rfl hx

theorem Tends.unique {op : ℚ → ℚ → ℚ} {x y : Fl f} (hx : x ≠ .nan) (hy : y ≠ .nan) {t t' : Bool} (h : Tends op x y t)
    (h' : Tends op x y t') : t = t' := by
  obtain ⟨N, h1, h2⟩ := h 0
  obtain ⟨M, h3, h4⟩ := h' 0
  obtain ⟨a, a1, a2⟩ := Fl.close_self hx N M h1 h3
  obtain ⟨b, b1, b2⟩ := Fl.close_self hy N M h1 h3
  have e1 := h2 a b a1 b1
  have e2 := h4 a b a2 b2
  rcases t <;> rcases t' <;> simp only [Fl.Close] at e1 e2 <;> first | rfl | (simp at e1 e2; linarith)

theorem Fl.close_exists {x : Fl f} (hx : x ≠ .nan) (N : ℚ) (hN : 0 < N) : ∃ a, x.Close N a := by
  obtain ⟨a, h, -⟩ := Fl.close_self hx N N hN hN
  exact ⟨a, h⟩

/-- An operation gives infinity if finite numbers do in the limit, and NaN if they do not. -/
def Settled (op : Fl f → Fl f → Fl f) (g : ℚ → ℚ → ℚ) (x y : Fl f) : Prop :=
  (∃ t, op x y = .inf t ∧ Tends g x y t) ∨ (op x y = .nan ∧ ∀ t, ¬ Tends g x y t)

theorem sub_settled (x y : Fl f) (hx : x ≠ .nan) (hy : y ≠ .nan) (hi : (∃ s, x = .inf s) ∨ ∃ s, y = .inf s) :
    Settled Scalar.sub (· - ·) x y := by
  have key : ∀ (q a B : ℚ), |q - a| * (|B| + |a| + 1) < 1 → -1 < q - a ∧ q - a < 1 := by
    intro q a B h
    have h1 : |q - a| < 1 := by
      by_contra h'
      have := not_lt.1 h'
      nlinarith [abs_nonneg B, abs_nonneg a]
    exact abs_lt.1 h1
  have pos : ∀ a B : ℚ, 0 < |B| + |a| + 1 := fun a B => by linarith [abs_nonneg a, abs_nonneg B]
  rcases x with a | s | _
  · rcases y with b | t | _
    · rcases hi with ⟨s, h⟩ | ⟨s, h⟩ <;> cases h
    · refine .inl ⟨!t, rfl, fun B => ⟨|B| + |a| + 1, pos a B, fun q b hq hb => ?_⟩⟩
      obtain ⟨h1, h2⟩ := key q a B hq
      have h3 := le_abs_self a
      have h4 := neg_abs_le a
      have h5 := le_abs_self B
      cases t <;> simp [Fl.Close] at hb ⊢ <;> linarith
    · exact absurd rfl hy
  · rcases y with b | t | _
    · refine .inl ⟨s, rfl, fun B => ⟨|B| + |b| + 1, pos b B, fun a q ha hq => ?_⟩⟩
      obtain ⟨h1, h2⟩ := key q b B hq
      have h3 := le_abs_self b
      have h4 := neg_abs_le b
      have h5 := le_abs_self B
      cases s <;> simp [Fl.Close] at ha ⊢ <;> linarith
    · by_cases hst : s = t
      · subst hst
        refine .inr ⟨by show (if s = s then Fl.nan else Fl.inf s) = _; rw [if_pos rfl], fun t h => ?_⟩
        obtain ⟨N, hN, h⟩ := h 0
        obtain ⟨a, ha⟩ := Fl.close_exists hx N hN
        have := h a a ha ha
        cases t <;> simp [Fl.Close] at this
      · refine .inl ⟨s, by show (if s = t then Fl.nan else Fl.inf s) = _; rw [if_neg hst], fun B => ⟨|B| + 1, by linarith [abs_nonneg B], fun a b ha hb => ?_⟩⟩
        have h5 := le_abs_self B
        have h6 := abs_nonneg B
        cases s <;> cases t <;> simp [Fl.Close] at hst ha hb ⊢ <;> linarith
    · exact absurd rfl hy
  · exact absurd rfl hx

/-- A large number times one that is not zero. -/
theorem large_mul {a q b B : ℚ} (ha : a ≠ 0) (hq : |q - a| * (2 * (|B| + 1) / |a|) < 1) :
    (2 * (|B| + 1) / |a| < b → if a < 0 then q * b < -B else B < q * b) ∧
    (b < -(2 * (|B| + 1) / |a|) → if a < 0 then B < q * b else q * b < -B) := by
  have hpa := abs_pos.2 ha
  have hB := abs_nonneg B
  have hB' := le_abs_self B
  set N := 2 * (|B| + 1) / |a| with hN
  have hNa : N * |a| = 2 * (|B| + 1) := div_mul_cancel₀ _ hpa.ne'
  have hNpos : 0 < N := div_pos (by linarith) hpa
  have h1 : |q - a| * 2 < |a| := by
    by_contra h'
    have h' := not_lt.1 h'
    have : |a| * N ≤ |q - a| * 2 * N := mul_le_mul_of_nonneg_right h' hNpos.le
    nlinarith
  have h2 := abs_lt.1 (by linarith : |q - a| < |a| / 2)
  by_cases hneg : a < 0
  · rw [abs_of_neg hneg] at h2 hNa
    rw [if_pos hneg, if_pos hneg]
    constructor <;> intro hb <;> nlinarith
  · have hpos : 0 < a := lt_of_le_of_ne (not_lt.1 hneg) (Ne.symm ha)
    rw [abs_of_pos hpos] at h2 hNa
    rw [if_neg hneg, if_neg hneg]
    constructor <;> intro hb <;> nlinarith

theorem mul_settled (x y : Fl f) (hx : x ≠ .nan) (hy : y ≠ .nan) (hi : (∃ s, x = .inf s) ∨ ∃ s, y = .inf s) :
    Settled Scalar.mul (· * ·) x y := by
  have pos : ∀ a B : ℚ, a ≠ 0 → 0 < 2 * (|B| + 1) / |a| := fun a B h => div_pos (by linarith [abs_nonneg B]) (abs_pos.2 h)
  rcases x with a | s | _
  · rcases y with b | t | _
    · rcases hi with ⟨s, h⟩ | ⟨s, h⟩ <;> cases h
    · by_cases ha : a = 0
      · subst ha
        refine .inr ⟨by show (if (0 : ℚ) = 0 then Fl.nan else _) = _; rw [if_pos rfl], fun u h => ?_⟩
        obtain ⟨N, hN, h⟩ := h 0
        obtain ⟨b, hb⟩ := Fl.close_exists hy N hN
        have := h 0 b (by simp [Fl.Close]) hb
        cases u <;> simp [Fl.Close] at this
      · refine .inl ⟨t != decide (a < 0), by show (if a = 0 then Fl.nan else _) = _; rw [if_neg ha], fun B => ⟨_, pos a B ha, fun q b hq hb => ?_⟩⟩
        obtain ⟨h1, h2⟩ := large_mul (b := b) ha hq
        by_cases hneg : a < 0 <;> cases t <;> simp [Fl.Close, hneg] at hb h1 h2 ⊢ <;> first | exact h1 hb | exact h2 hb
    · exact absurd rfl hy
  · rcases y with b | t | _
    · by_cases hb : b = 0
      · subst hb
        refine .inr ⟨by show (if (0 : ℚ) = 0 then Fl.nan else _) = _; rw [if_pos rfl], fun u h => ?_⟩
        obtain ⟨N, hN, h⟩ := h 0
        obtain ⟨a, ha⟩ := Fl.close_exists hx N hN
        have := h a 0 ha (by simp [Fl.Close])
        cases u <;> simp [Fl.Close] at this
      · refine .inl ⟨s != decide (b < 0), by show (if b = 0 then Fl.nan else _) = _; rw [if_neg hb], fun B => ⟨_, pos b B hb, fun a q ha hq => ?_⟩⟩
        obtain ⟨h1, h2⟩ := large_mul (b := a) hb hq
        rw [mul_comm q a] at h1 h2
        by_cases hneg : b < 0 <;> cases s <;> simp [Fl.Close, hneg] at ha h1 h2 ⊢ <;> first | exact h1 ha | exact h2 ha
    · refine .inl ⟨s != t, rfl, fun B => ⟨|B| + 1, by linarith [abs_nonneg B], fun a b ha hb => ?_⟩⟩
      have h5 := le_abs_self B
      have h6 := abs_nonneg B
      cases s <;> cases t <;> simp [Fl.Close] at ha hb ⊢ <;> nlinarith
    · exact absurd rfl hy
  · exact absurd rfl hx

theorem cmp_lt_close {x y : Fl f} (h : Scalar.cmp x y = some .lt) : ∃ N > 0, ∀ a b, x.Close N a → y.Close N b → a < b := by
  have key : ∀ q a : ℚ, |q - a| * (|a| + 1) < 1 → -1 < q - a ∧ q - a < 1 := by
    intro q a h
    refine abs_lt.1 ?_
    by_contra h'
    have := not_lt.1 h'
    nlinarith [abs_nonneg a]
  have pos : ∀ a : ℚ, 0 < |a| + 1 := fun a => by linarith [abs_nonneg a]
  rcases x with a | s | _ <;> rcases y with b | t | _
  · have hab : a < b := by
      by_contra hab
      have h : some (if a < b then Ordering.lt else if a = b then .eq else .gt) = some .lt := h
      rw [if_neg hab] at h
      split at h <;> cases h
    refine ⟨2 / (b - a), div_pos (by norm_num) (by linarith), fun p q hp hq => ?_⟩
    have hd : 0 < b - a := by linarith
    have half : ∀ u v : ℚ, |u - v| * (2 / (b - a)) < 1 → |u - v| < (b - a) / 2 := by
      intro u v h
      have h1 : |u - v| * (2 / (b - a)) * (b - a) < 1 * (b - a) := mul_lt_mul_of_pos_right h hd
      rw [mul_assoc, div_mul_cancel₀ _ hd.ne'] at h1
      linarith
    have h1 := abs_lt.1 (half _ _ hp)
    have h2 := abs_lt.1 (half _ _ hq)
    linarith
  · have ht : t = false := by cases t <;> first | rfl | cases h
    subst ht
    refine ⟨|a| + 1, pos a, fun p q hp hq => ?_⟩
    have h1 := key p a hp
    have h2 := le_abs_self a
    simp [Fl.Close] at hq
    linarith
  · cases h
  · have hs : s = true := by cases s <;> first | rfl | cases h
    subst hs
    refine ⟨|b| + 1, pos b, fun p q hp hq => ?_⟩
    have h1 := key q b hq
    have h2 := neg_abs_le b
    simp [Fl.Close] at hp
    linarith
  · have hs : s = true ∧ t = false := by cases s <;> cases t <;> first | exact ⟨rfl, rfl⟩ | cases h
    obtain ⟨rfl, rfl⟩ := hs
    refine ⟨1, one_pos, fun p q hp hq => ?_⟩
    simp [Fl.Close] at hp hq
    linarith
  all_goals cases h

theorem cmp_cases {x y : Fl f} (hx : x ≠ .nan) (hy : y ≠ .nan) :
    (Scalar.cmp x y = some .lt ∧ Scalar.cmp y x = some .gt ∧ x ≠ y) ∨ (Scalar.cmp x y = some .eq ∧ Scalar.cmp y x = some .eq ∧ x = y) ∨
      (Scalar.cmp x y = some .gt ∧ Scalar.cmp y x = some .lt ∧ x ≠ y) := by
  rcases x with a | s | _ <;> rcases y with b | t | _
  · rcases lt_trichotomy a b with h | h | h
    · left
      show some (if a < b then Ordering.lt else if a = b then .eq else .gt) = some .lt ∧
        some (if b < a then Ordering.lt else if b = a then .eq else .gt) = some .gt ∧ _
      rw [if_pos h, if_neg h.not_gt, if_neg h.ne']
      exact ⟨rfl, rfl, fun e => h.ne (Fl.fin.inj e)⟩
    · subst h
      right; left
      show some (if a < a then Ordering.lt else if a = a then .eq else .gt) = some .eq ∧
        some (if a < a then Ordering.lt else if a = a then .eq else .gt) = some .eq ∧ _
      rw [if_neg (lt_irrefl a), if_pos rfl]
      exact ⟨rfl, rfl, rfl⟩
    · right; right
      show some (if a < b then Ordering.lt else if a = b then .eq else .gt) = some .gt ∧
        some (if b < a then Ordering.lt else if b = a then .eq else .gt) = some .lt ∧ _
      rw [if_pos h, if_neg h.not_gt, if_neg h.ne']
      exact ⟨rfl, rfl, fun e => h.ne' (Fl.fin.inj e)⟩
  · cases t
    · exact .inl ⟨rfl, rfl, by simp⟩
    · exact .inr (.inr ⟨rfl, rfl, by simp⟩)
  · exact absurd rfl hy
  · cases s
    · exact .inr (.inr ⟨rfl, rfl, by simp⟩)
    · exact .inl ⟨rfl, rfl, by simp⟩
  · cases s <;> cases t
    · exact .inr (.inl ⟨rfl, rfl, rfl⟩)
    · exact .inr (.inr ⟨rfl, rfl, by simp⟩)
    · exact .inl ⟨rfl, rfl, by simp⟩
    · exact .inr (.inl ⟨rfl, rfl, rfl⟩)
  · exact absurd rfl hy
  all_goals exact absurd rfl hx

theorem eq_lt_cmp (x y : Fl f) : (Scalar.eq x y = true ↔ Scalar.cmp x y = some .eq) ∧ (Scalar.lt x y = true ↔ Scalar.cmp x y = some .lt) := by
  rcases x with a | s | _ <;> rcases y with b | t | _
  · show (decide (a = b) = true ↔ some (if a < b then Ordering.lt else if a = b then .eq else .gt) = some .eq) ∧
      (decide (a < b) = true ↔ some (if a < b then Ordering.lt else if a = b then .eq else .gt) = some .lt)
    rcases lt_trichotomy a b with h | h | h
    · simp [h, h.ne]
    · simp [h]
    · simp [h.ne', h.not_gt]
  · cases t <;> constructor <;> constructor <;> intro h <;> first | rfl | cases h
  · constructor <;> constructor <;> intro h <;> cases h
  · cases s <;> constructor <;> constructor <;> intro h <;> first | rfl | cases h
  · cases s <;> cases t <;> constructor <;> constructor <;> intro h <;> first | rfl | cases h
  all_goals constructor <;> constructor <;> intro h <;> cases h

end Tri
