import Verif.Spec.Geometry

/-!
# The coordinate operations at exact coordinates, unfolded
-/

set_option linter.unusedSectionVars false

namespace Tri

variable {K : Type} [Field K] [LinearOrder K] [IsStrictOrderedRing K]

attribute [local instance] exact

theorem isLeft_unfold (a b c : Coords K) : isLeftOfLine a b c = true ↔
    if c.y = b.y then c.x < b.x else if c.y = a.y then c.x < a.x
    else (a.x - b.x) * (c.y - b.y) < (a.y - b.y) * (c.x - b.x) := by
  unfold isLeftOfLine
  simp only [Scalar.eq, Scalar.lt, Scalar.mul, Scalar.sub, decide_eq_true_eq]
  split
  · simp
  · split <;> simp

theorem cmp_exact_lt {a b : K} : Scalar.cmp a b = some .lt ↔ a < b := by
  simp only [Scalar.cmp, Option.some.injEq]
  split
  · simp_all
  · split <;> simp_all

theorem cmp_exact_eq {a b : K} : Scalar.cmp a b = some .eq ↔ a = b := by
  simp only [Scalar.cmp, Option.some.injEq]
  split
  · rename_i h; simp [ne_of_lt h]
  · split <;> simp_all

theorem cmp_exact_gt {a b : K} : Scalar.cmp a b = some .gt ↔ b < a := by
  simp only [Scalar.cmp, Option.some.injEq]
  split
  · rename_i h; simp [le_of_lt h]
  · split
    · simp_all
    · rename_i h1 h2
      simp [lt_of_le_of_ne (not_lt.1 h1) (Ne.symm h2)]

theorem ltB_exact {a b : Coords K} : a.ltB b = true ↔ below a b := by
  simp only [Coords.ltB, Coords.partialCmp, below]
  rcases lt_trichotomy a.y b.y with h | h | h
  · simp [cmp_exact_lt.2 h, h]
  · simp only [cmp_exact_eq.2 h]; simp [h, cmp_exact_lt]
  · simp [cmp_exact_gt.2 h, not_lt_of_gt h, ne_of_gt h]

theorem gtB_exact {a b : Coords K} : a.gtB b = true ↔ below b a := by
  simp only [Coords.gtB, Coords.partialCmp, below]
  rcases lt_trichotomy a.y b.y with h | h | h
  · simp [cmp_exact_lt.2 h, not_lt_of_gt h, ne_of_gt h]
  · simp only [cmp_exact_eq.2 h]; simp [h, cmp_exact_gt]
  · simp [cmp_exact_gt.2 h, h]

theorem leB_exact {a b : Coords K} : a.leB b = true ↔ a = b ∨ below a b := by
  obtain ⟨ax, ay⟩ := a
  obtain ⟨bx, b'⟩ := b
  simp only [Coords.leB, Coords.partialCmp, below, Coords.mk.injEq]
  rcases lt_trichotomy ay b' with h | h | h
  · simp [cmp_exact_lt.2 h, h]
  · rcases lt_trichotomy ax bx with h' | h' | h'
    · simp only [cmp_exact_eq.2 h, cmp_exact_lt.2 h']; simp [h, h']
    · simp only [cmp_exact_eq.2 h, cmp_exact_eq.2 h']; simp [h, h']
    · simp only [cmp_exact_eq.2 h, cmp_exact_gt.2 h']; simp [h, not_lt_of_gt h', ne_of_gt h']
  · simp [cmp_exact_gt.2 h, not_lt_of_gt h, ne_of_gt h]

end Tri
