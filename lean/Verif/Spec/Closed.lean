import Verif.Spec.Region

/-!
# Closed triangles
-/

namespace Tri

variable {K : Type} [Field K] [LinearOrder K] [IsStrictOrderedRing K]

/-- `q` is in the closed triangle `t`: it is a weighted mean of the corners. -/
def InHull (t : Coords K × Coords K × Coords K) (q : Coords K) : Prop :=
  ∃ u v w, 0 ≤ u ∧ 0 ≤ v ∧ 0 ≤ w ∧ u + v + w = 1 ∧ q.x = u * t.1.x + v * t.2.1.x + w * t.2.2.x ∧
    q.y = u * t.1.y + v * t.2.1.y + w * t.2.2.y

/-- No three vertices lie on one line. -/
def GeneralPosition (gs : List (List (Coords K))) : Prop :=
  ∀ a ∈ gs.flatten, ∀ b ∈ gs.flatten, ∀ c ∈ gs.flatten, a ≠ b → b ≠ c → c ≠ a → orient a b c ≠ 0

/-- `v` is a corner of the triangle `t`. -/
def Corner {α : Type} (t : α × α × α) (v : α) : Prop := v = t.1 ∨ v = t.2.1 ∨ v = t.2.2

/-- Two segments have the same direction, or opposite ones. -/
def Parallel (s s' : Coords K × Coords K) : Prop :=
  (s.2.x - s.1.x) * (s'.2.y - s'.1.y) = (s.2.y - s.1.y) * (s'.2.x - s'.1.x)

end Tri
