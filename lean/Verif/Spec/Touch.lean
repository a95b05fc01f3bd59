import Verif.Spec.Polygon

/-!
# Polygons some of whose edges are touched by others
-/

namespace Tri

variable {K : Type} [Field K] [LinearOrder K] [IsStrictOrderedRing K]

/-- `v` is strictly on the right of the edge `e`, on the side of larger `x`, whichever way `e` runs.  If `e` is horizontal: strictly
above it. -/
def RightOf (e : Coords K × Coords K) (v : Coords K) : Prop :=
  (e.1.y < e.2.y ∧ orient e.1 e.2 v < 0) ∨ (e.2.y < e.1.y ∧ orient e.2 e.1 v < 0) ∨ (e.1.y = e.2.y ∧ e.1.y < v.y)

instance (e : Coords K × Coords K) (v : Coords K) : Decidable (RightOf e v) := by unfold RightOf; infer_instance

/-- The edge `f` leans on the edge `e` from the right (from above, if `e` is horizontal): each end of `f` is strictly on that side of
`e` or in the middle of `e`. -/
def LeansOn (f e : Coords K × Coords K) : Prop :=
  ∀ v, v = f.1 ∨ v = f.2 → v ≠ e.1 ∧ v ≠ e.2 ∧ (RightOf e v ∨ OnSeg e v)

/-- Polygons of at least three vertices each, all distinct, such that any two different edges meet at most in a common end or one of
them leans on the other.  Polygons without any touching edges are a special case. -/
structure TouchingPolys (gs : List (List (Coords K))) : Prop where
  three : ∀ g ∈ gs, 3 ≤ g.length
  distinct : gs.flatten.Nodup
  meet : ∀ e ∈ gs.flatMap cycleEdges, ∀ f ∈ gs.flatMap cycleEdges, e ≠ f →
    (∀ q, OnSeg e q → OnSeg f q → (q = e.1 ∨ q = e.2) ∧ (q = f.1 ∨ q = f.2)) ∨ LeansOn f e ∨ LeansOn e f

theorem ValidPolys.touching {gs : List (List (Coords K))} (h : ValidPolys gs) : TouchingPolys gs :=
  ⟨h.three, h.distinct, fun e he f hf hne => .inl (h.meet e he f hf hne)⟩

end Tri
