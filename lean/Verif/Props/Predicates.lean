import Mathlib.Tactic.Linarith
import Mathlib.Tactic.FieldSimp
import Verif.Proof.ExactLemmas

/-!
# C31, C32: the two predicates the library is built on
-/

namespace Tri

section
variable {K : Type} [Field K] [LinearOrder K] [IsStrictOrderedRing K]

attribute [local instance] exact

/-- **C31.**  For an edge from `a` up to `b` the side test of `c` is the exact
orientation test, except for a point at the level of a horizontal edge, where it compares with the
upper end.  In particular, between the levels of the ends it says whether `c` is strictly left of the
point of the edge at the level of `c`, and at the level of an end it compares the `x` coordinates. -/
theorem C31_side_test_exact (a b c : Coords K) :
    (a.y < b.y → (isLeftOfLine a b c = true ↔ 0 < orient a b c)) ∧
    (a.y = b.y → c.y ≠ b.y → (isLeftOfLine a b c = true ↔ 0 < orient a b c)) ∧
    (a.y = b.y → c.y = b.y → (isLeftOfLine a b c = true ↔ c.x < b.x)) ∧
    (a.y < c.y → c.y < b.y → (isLeftOfLine a b c = true ↔
      c.x < a.x + (c.y - a.y) / (b.y - a.y) * (b.x - a.x))) ∧
    (c.y = b.y → (isLeftOfLine a b c = true ↔ c.x < b.x)) ∧
    (c.y = a.y → a.y < b.y → (isLeftOfLine a b c = true ↔ c.x < a.x)) := by
  have gen : a.y < b.y → (isLeftOfLine a b c = true ↔ 0 < orient a b c) := by
    intro hy
    rw [isLeft_unfold, orient]
    have hp : 0 < b.y - a.y := by linarith
    split
    · rename_i h1
      rw [h1]
      constructor
      · intro hx; nlinarith
      · intro hx; nlinarith
    · split
      · rename_i h1 h2
        rw [h2]
        constructor
        · intro hx; nlinarith
        · intro hx; nlinarith
      · constructor
        · intro hx; nlinarith
        · intro hx; nlinarith
  refine ⟨gen, ?_, ?_, ?_, ?_, ?_⟩
  · intro h1 h2
    have hc : ¬ c.y = a.y := by rw [h1]; exact h2
    rw [isLeft_unfold, orient, if_neg h2, if_neg hc, h1]
    constructor
    · intro hx; nlinarith
    · intro hx; nlinarith
  · intro h1 h2
    rw [isLeft_unfold, if_pos h2]
  · intro h1 h2
    rw [gen (by linarith)]
    have hp : 0 < b.y - a.y := by linarith
    rw [orient, sub_pos, ← sub_lt_iff_lt_add', ← mul_div_right_comm, lt_div_iff₀ hp]
    constructor
    · intro h; linarith
    · intro h; linarith
  · intro h1
    rw [isLeft_unfold, if_pos h1]
  · intro h1 h2
    have : ¬ c.y = b.y := by rw [h1]; exact ne_of_lt h2
    rw [isLeft_unfold, if_neg this, if_pos h1]

/-- A point between the levels of the ends of an edge, left of it. -/
example : isLeftOfLine (⟨0, 0⟩ : Coords Int) ⟨4, 6⟩ ⟨1, 2⟩ = true ∧
    (0 : Int) < 2 ∧ (2 : Int) < 6 := by decide

/-- Comparison in a linear order obeys the laws. -/
theorem exact_lawful : LawfulCmp K where
  swap_lt a b := by rw [cmp_exact_lt, cmp_exact_gt]
  swap_eq a b := by rw [cmp_exact_eq, cmp_exact_eq]; exact eq_comm
  lt_lt a b c := by simp only [cmp_exact_lt]; exact lt_trans
  lt_eq a b c := by simp only [cmp_exact_lt, cmp_exact_eq]; rintro h rfl; exact h
  eq_lt a b c := by simp only [cmp_exact_lt, cmp_exact_eq]; rintro rfl h; exact h
  eq_eq a b c := by simp only [cmp_exact_eq]; exact Eq.trans

/-- **C32**, exact coordinates: `<` on points is `below`, a strict total order, and never undefined. -/
theorem C32_vertex_order_exact :
    (∀ a b : Coords K, (a.ltB b = true ↔ below a b) ∧ (a.gtB b = true ↔ below b a) ∧
      (a.leB b = true ↔ a = b ∨ below a b)) ∧
    (∀ a : Coords K, ¬ below a a) ∧
    (∀ a b c : Coords K, below a b → below b c → below a c) ∧
    (∀ a b : Coords K, a ≠ b → below a b ∨ below b a) := by
  refine ⟨?_, ?_, ?_, ?_⟩
  · intro a b
    exact ⟨ltB_exact, gtB_exact, leB_exact⟩
  · rintro a (h | ⟨_, h⟩) <;> exact lt_irrefl _ h
  · rintro a b c (h1 | ⟨h1, h1'⟩) (h2 | ⟨h2, h2'⟩)
    · exact .inl (h1.trans h2)
    · exact .inl (h2 ▸ h1)
    · exact .inl (h1 ▸ h2)
    · exact .inr ⟨h1.trans h2, h1'.trans h2'⟩
  · rintro ⟨ax, ay⟩ ⟨bx, by_⟩ hne
    simp only [below]
    rcases lt_trichotomy ay by_ with h | h | h
    · exact .inl (.inl h)
    · subst h
      rcases lt_trichotomy ax bx with h | h | h
      · exact .inl (.inr ⟨rfl, h⟩)
      · subst h; exact absurd rfl hne
      · exact .inr (.inr ⟨rfl, h⟩)
    · exact .inr (.inl h)

end

/-- **C32**, any lawful comparison (with incomparable values such as NaN): `<` on points is
irreflexive and transitive, it is undefined exactly when the comparison of the `y` coordinates is or,
for equal `y`, that of the `x` coordinates, and otherwise two points are in order or equal in both
coordinates. -/
theorem C32_vertex_order_partial_comparison {C : Type} [Scalar C] (hC : LawfulCmp C) :
    (∀ a : Coords C, a.ltB a = false) ∧
    (∀ a b c : Coords C, a.ltB b = true → b.ltB c = true → a.ltB c = true) ∧
    (∀ a b : Coords C, a.partialCmp b = none ↔ Scalar.cmp a.y b.y = none ∨
      (Scalar.cmp a.y b.y = some .eq ∧ Scalar.cmp a.x b.x = none)) ∧
    (∀ a b : Coords C, a.partialCmp b ≠ none → a.ltB b = true ∨ b.ltB a = true ∨
      (Scalar.cmp a.y b.y = some .eq ∧ Scalar.cmp a.x b.x = some .eq)) := by
  have lt_iff : ∀ a b : Coords C, a.ltB b = true ↔ Scalar.cmp a.y b.y = some .lt ∨
      (Scalar.cmp a.y b.y = some .eq ∧ Scalar.cmp a.x b.x = some .lt) := by
    intro a b
    simp only [Coords.ltB, Coords.partialCmp]
    rcases h : Scalar.cmp a.y b.y with _ | (_ | _ | _) <;> simp
  have irr : ∀ a : C, Scalar.cmp a a ≠ some .lt := by
    intro a h
    have := (hC.swap_lt a a).1 h
    rw [h] at this
    cases this
  refine ⟨?_, ?_, ?_, ?_⟩
  · intro a
    rw [Bool.eq_false_iff]
    intro h
    rcases (lt_iff a a).1 h with h | ⟨_, h⟩ <;> exact irr _ h
  · intro a b c h1 h2
    rw [lt_iff] at *
    rcases h1 with h1 | ⟨h1, h1'⟩ <;> rcases h2 with h2 | ⟨h2, h2'⟩
    · exact .inl (hC.lt_lt _ _ _ h1 h2)
    · exact .inl (hC.lt_eq _ _ _ h1 h2)
    · exact .inl (hC.eq_lt _ _ _ h1 h2)
    · exact .inr ⟨hC.eq_eq _ _ _ h1 h2, hC.lt_lt _ _ _ h1' h2'⟩
  · intro a b
    simp only [Coords.partialCmp]
    rcases h : Scalar.cmp a.y b.y with _ | (_ | _ | _) <;> simp
  · intro a b hne
    simp only [lt_iff]
    rcases h : Scalar.cmp a.y b.y with _ | (_ | _ | _)
    · simp [Coords.partialCmp, h] at hne
    · exact .inl (.inl rfl)
    · rcases h' : Scalar.cmp a.x b.x with _ | (_ | _ | _)
      · simp [Coords.partialCmp, h, h'] at hne
      · exact .inl (.inr ⟨rfl, rfl⟩)
      · exact .inr (.inr ⟨rfl, rfl⟩)
      · exact .inr (.inl (.inr ⟨(hC.swap_eq _ _).1 h, (hC.swap_lt _ _).2 h'⟩))
    · exact .inr (.inl (.inl ((hC.swap_lt _ _).2 h)))

/-- A lawful comparison with an incomparable value: integers with a NaN (`none`). -/
@[reducible] def nanInt : Scalar (Option Int) where
  eq a b := match a, b with
    | some a, some b => a == b
    | _, _ => false
  lt a b := match a, b with
    | some a, some b => decide (a < b)
    | _, _ => false
  cmp a b := match a, b with
    | some a, some b => some (if a < b then .lt else if a = b then .eq else .gt)
    | _, _ => none
  sub a b := match a, b with
    | some a, some b => some (a - b)
    | _, _ => none
  mul a b := match a, b with
    | some a, some b => some (a * b)
    | _, _ => none
  zero := some 0

attribute [local instance] nanInt in
example : LawfulCmp (Option Int) where
  swap_lt a b := by
    rcases a with _ | a <;> rcases b with _ | b <;> simp only [Scalar.cmp] <;> try simp
    grind
  swap_eq a b := by
    rcases a with _ | a <;> rcases b with _ | b <;> simp only [Scalar.cmp] <;> try simp
    grind
  lt_lt a b c := by
    rcases a with _ | a <;> rcases b with _ | b <;> rcases c with _ | c <;> simp only [Scalar.cmp] <;>
      try simp
    grind
  lt_eq a b c := by
    rcases a with _ | a <;> rcases b with _ | b <;> rcases c with _ | c <;> simp only [Scalar.cmp] <;>
      try simp
    grind
  eq_lt a b c := by
    rcases a with _ | a <;> rcases b with _ | b <;> rcases c with _ | c <;> simp only [Scalar.cmp] <;>
      try simp
    grind
  eq_eq a b c := by
    rcases a with _ | a <;> rcases b with _ | b <;> rcases c with _ | c <;> simp only [Scalar.cmp] <;>
      try simp
    grind

attribute [local instance] nanInt in
example : Coords.partialCmp (⟨none, some 1⟩ : Coords (Option Int)) ⟨some 2, some 1⟩ = none ∧
    Coords.ltB (⟨none, some 1⟩ : Coords (Option Int)) ⟨some 2, some 3⟩ = true := by decide

end Tri
