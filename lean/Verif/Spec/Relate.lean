import Verif.Spec.Format
import Verif.Spec.Input

/-!
# Specification vocabulary for comparing two runs
-/

namespace Tri

variable {I J C D : Type}

/-- The format `F`, with every index renamed by `h` before `F` sees it. -/
abbrev FanFormat.renamed (h : I → J) (F : FanFormat J) : FanFormat I where
  B := F.B
  E := F.E
  O := F.O
  W := F.W
  winding := F.winding
  unused := F.unused
  start a b c := F.start (h a) (h b) (h c)
  newFan s a b c := F.newFan s (h a) (h b) (h c)
  extendFan s v := F.extendFan s (h v)
  build := F.build
  fail := F.fail
  drop := F.drop

/-- A call with its indices renamed. -/
def Call.renamed (h : I → J) : Call I → Call J
  | .newFan a b c => .newFan (h a) (h b) (h c)
  | .extend v => .extend (h v)

/-- The fault of `trapezoidize`, as `triangulate` reports it. -/
def trapFault {E : Type} : Fault TrapErr → Fault (TriErr E)
  | .err e => .err (.trapezoidation e)
  | .panic => .panic
  | .ub => .ub
  | .timeout => .timeout

/-- Two placements of the same indices give the same answer to every question the library asks:
which of two points comes first, on which side of two points a third one lies, and whether two points
have a coordinate in common. -/
structure SameAnswers [Scalar C] [Scalar D] (c : I → Option (Coords C)) (d : I → Option (Coords D)) :
    Prop where
  defined : ∀ i, (c i).isSome = (d i).isSome
  cmp : ∀ i j a b a' b', c i = some a → c j = some b → d i = some a' → d j = some b' →
    a.partialCmp b = a'.partialCmp b'
  side : ∀ i j k u v w u' v' w', c i = some u → c j = some v → c k = some w → d i = some u' →
    d j = some v' → d k = some w' → isLeftOfLine u v w = isLeftOfLine u' v' w'
  eqX : ∀ i j a b a' b', c i = some a → c j = some b → d i = some a' → d j = some b' →
    Scalar.eq a.x b.x = Scalar.eq a'.x b'.x
  eqY : ∀ i j a b a' b', c i = some a → c j = some b → d i = some a' → d j = some b' →
    Scalar.eq a.y b.y = Scalar.eq a'.y b'.y

/-- Two placements of the same indices give the same answers to the questions of the trapezoidation of the polygons `gs`: which of two
vertices comes first, and on which side of an edge a vertex is, where the lower end of the edge is given first. -/
structure SameEdgeAnswers [Scalar C] [Scalar D] (gs : List (List I)) (c : I → Option (Coords C)) (d : I → Option (Coords D)) :
    Prop where
  cmp : ∀ i j a b a' b', c i = some a → c j = some b → d i = some a' → d j = some b' →
    a.partialCmp b = a'.partialCmp b'
  side : ∀ i j k u v w u' v' w', (i, j) ∈ gs.flatMap cycleEdges ∨ (j, i) ∈ gs.flatMap cycleEdges → c i = some u → c j = some v →
    c k = some w → d i = some u' → d j = some v' → d k = some w' → u.partialCmp v = some .lt →
    isLeftOfLine u v w = isLeftOfLine u' v' w'

end Tri
