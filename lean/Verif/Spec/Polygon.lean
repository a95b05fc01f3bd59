import Verif.Spec.Geometry
import Verif.Spec.Input
import Verif.Spec.Format

/-!
# Valid polygon sets over an ordered field
-/

namespace Tri

variable {I V K : Type} [Field K] [LinearOrder K] [IsStrictOrderedRing K]

/-- `q` lies on the closed segment between the two ends of `e`. -/
def OnSeg (e : Coords K × Coords K) (q : Coords K) : Prop :=
  ∃ t, 0 ≤ t ∧ t ≤ 1 ∧ q.x = e.1.x + t * (e.2.x - e.1.x) ∧ q.y = e.1.y + t * (e.2.y - e.1.y)

/-- A set of polygons the library is made for: every polygon has at least three vertices, no two
vertices coincide, and two different edges meet at most in a common end.  Holes, islands and any
nesting are allowed, the polygons may run either way round. -/
structure ValidPolys (gs : List (List (Coords K))) : Prop where
  three : ∀ g ∈ gs, 3 ≤ g.length
  distinct : gs.flatten.Nodup
  meet : ∀ e ∈ gs.flatMap cycleEdges, ∀ f ∈ gs.flatMap cycleEdges, e ≠ f → ∀ q, OnSeg e q → OnSeg f q →
    (q = e.1 ∨ q = e.2) ∧ (q = f.1 ∨ q = f.2)

/-- `p` yields the elements `es`, which name the polygons `gs` (indices with their coordinates). -/
structure Describes (p : PolyList I V) (xy : V → Coords K) (gs : List (List (I × Coords K))) : Prop where
  elems : ∃ es, p.elems = es.map some ∧ polygonsOf es = gs.map (List.map Prod.fst)
  coords : ∀ g ∈ gs, ∀ v ∈ g, (p.getVertex v.1).map xy = some v.2

end Tri
