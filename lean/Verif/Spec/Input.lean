import Verif.Model.Triangulate

/-!
# Specification vocabulary for polygon lists
-/

namespace Tri

variable {I V : Type}

/-- The polygons named by a sequence of elements, after the vertices `cur` of an unfinished one:
maximal runs of vertices, empty ones left out. -/
def polygonsFrom (cur : List I) : List (Elem I) → List (List I)
  | [] => if cur = [] then [] else [cur]
  | .cont i :: es => polygonsFrom (cur ++ [i]) es
  | .newPolygon :: es => if cur = [] then polygonsFrom [] es else cur :: polygonsFrom [] es

/-- The polygons named by a sequence of elements. -/
def polygonsOf (es : List (Elem I)) : List (List I) := polygonsFrom [] es

/-- `p` with another sequence of elements (the vertices stay the same). -/
def PolyList.withElems (p : PolyList I V) (es : List (Option (Elem I))) : PolyList I V :=
  { p with elems := es }

/-- The elements of the given polygons, each followed by a separator. -/
def elemsOf (gs : List (List I)) : List (Elem I) :=
  gs.flatMap fun g => g.map .cont ++ [.newPolygon]

/-- The sides of a closed polygon: every vertex with its successor, the last one with the first. -/
def cycleEdges {α : Type} (l : List α) : List (α × α) := l.zip (l.tail ++ l.head?.toList)

/-- The ends of an edge in the library's order. -/
def sortEnds {C : Type} [Scalar C] (e : (I × Coords C) × (I × Coords C)) :
    (I × Coords C) × (I × Coords C) :=
  if e.1.2.ltB e.2.2 then e else (e.2, e.1)

/-- Segment `s` of a trapezoidation with vertices `keys` joins the two vertices of `e`: its `min` end
is the smaller one, and its coordinates are theirs. -/
def Joins {C : Type} [Scalar C] (keys : List (I × Coords C)) (s : Segment C)
    (e : (I × Coords C) × (I × Coords C)) : Prop :=
  keys[s.niMin]? = some (sortEnds e).1 ∧ keys[s.niMax]? = some (sortEnds e).2 ∧
    s.cMin = (sortEnds e).1.2 ∧ s.cMax = (sortEnds e).2.2

end Tri
