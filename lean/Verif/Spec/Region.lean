import Mathlib.Algebra.Order.Group.Abs
import Verif.Spec.Mesh
import Verif.Spec.Polygon

/-!
# The region described by polygons, and what a run returns
-/

namespace Tri

variable {I V K : Type} [Field K] [LinearOrder K] [IsStrictOrderedRing K]

/-- The ray from `q` to the left crosses the edge `e`: one end of `e` is higher than `q`, the other one is not,
and `q` is strictly right of `e`. -/
def Crosses (q : Coords K) (e : Coords K × Coords K) : Prop :=
  (e.1.y ≤ q.y ∧ q.y < e.2.y ∧ orient e.1 e.2 q < 0) ∨ (e.2.y ≤ q.y ∧ q.y < e.1.y ∧ orient e.2 e.1 q < 0)

instance (q : Coords K) (e : Coords K × Coords K) : Decidable (Crosses q e) := by
  unfold Crosses; infer_instance

/-- The even-odd rule. -/
def Inside (gs : List (List (Coords K))) (q : Coords K) : Prop :=
  ((gs.flatMap cycleEdges).filter fun e => Crosses q e).length % 2 = 1

instance (gs : List (List (Coords K))) (q : Coords K) : Decidable (Inside gs q) := by
  unfold Inside; infer_instance

/-- `q` is strictly inside the triangle `t`, which may run either way round. -/
def InTriangle (t : Coords K × Coords K × Coords K) (q : Coords K) : Prop :=
  (0 < orient t.1 t.2.1 q ∧ 0 < orient t.2.1 t.2.2 q ∧ 0 < orient t.2.2 t.1 q) ∨
    (orient t.1 t.2.1 q < 0 ∧ orient t.2.1 t.2.2 q < 0 ∧ orient t.2.2 t.1 q < 0)

instance (t : Coords K × Coords K × Coords K) (q : Coords K) : Decidable (InTriangle t q) := by
  unfold InTriangle; infer_instance

/-- The point at distance `t` from the middle of the edge from `u` to `v`, on the left of that edge: straight
up or down if the edge is horizontal, on the same height otherwise. -/
def leftOf (u v : Coords K) (t : K) : Coords K :=
  if u.y = v.y then ⟨(u.x + v.x) / 2, (u.y + v.y) / 2 + if u.x < v.x then t else -t⟩
  else ⟨(u.x + v.x) / 2 + (if u.y < v.y then -t else t), (u.y + v.y) / 2⟩

/-- The interior touches the edge from `u` to `v` on its left. -/
def InteriorLeft (gs : List (List (Coords K))) (u v : Coords K) : Prop :=
  ∃ δ > 0, ∀ t, 0 < t → t < δ → Inside gs (leftOf u v t)

/-- Twice the signed area of a polygon: positive if it runs counterclockwise. -/
def shoelace (g : List (Coords K)) : K := ((cycleEdges g).map fun e => e.1.x * e.2.y - e.2.x * e.1.y).sum

/-- The polygon number `i` is a hole: it starts (and so lies) in the interior described by the other polygons. -/
def isHole (gs : List (List (Coords K))) (i : Nat) : Bool :=
  match gs[i]?.bind List.head? with
  | some v => decide (Inside (gs.eraseIdx i) v)
  | none => false

/-- The number of polygons that are holes. -/
def holes (gs : List (List (Coords K))) : Nat := (List.range gs.length).countP (isHole gs)

/-- Twice the area of the interior: the areas of the polygons, those of holes taken away. -/
def regionArea (gs : List (List (Coords K))) : K :=
  ((List.range gs.length).map fun i => (if isHole gs i then -1 else 1) * |shoelace (gs.getD i [])|).sum

/-- `g'` goes through the vertices of `g` in the same cyclic order or in the opposite one, from any start. -/
def SameCycle {α : Type} (g g' : List α) : Prop := ∃ a b, g = a ++ b ∧ (g' = b ++ a ∨ g' = (b ++ a).reverse)

/-- `gs'` are the polygons `gs` in any order, each one with any start and in either direction. -/
def Rearranged {α : Type} (gs gs' : List (List α)) : Prop := ∃ hs, gs.Perm hs ∧ List.Forall₂ SameCycle hs gs'

/-- `gs` and `gs'` have the same edges, whichever way round these run. -/
def SameEdges {α : Type} (gs gs' : List (List α)) : Prop :=
  ∀ a b, ((a, b) ∈ gs.flatMap cycleEdges ∨ (b, a) ∈ gs.flatMap cycleEdges) ↔
    ((a, b) ∈ gs'.flatMap cycleEdges ∨ (b, a) ∈ gs'.flatMap cycleEdges)

/-- The position of vertex `i`. -/
def place (p : PolyList I V) (xy : V → Coords K) (i : I) : Coords K := ((p.getVertex i).map xy).getD ⟨0, 0⟩

/-- The positions of the corners of a triangle. -/
def placed (p : PolyList I V) (xy : V → Coords K) (t : I × I × I) : Coords K × Coords K × Coords K :=
  (place p xy t.1, place p xy t.2.1, place p xy t.2.2)

/-- However many steps it is given beyond some number, the run with winding `w` succeeds and hands over exactly
the fans `fans`. -/
def Returns {C : Type} [Scalar C] [DecidableEq I] (cfg : Cfg) (p : PolyList I V) (xy : V → Coords C) (w : Winding)
    (fans : List (List I)) : Prop :=
  (∀ f ∈ fans, 3 ≤ f.length) ∧
    ∃ N, ∀ fuel ≥ N, (triangulate cfg fuel p xy (recorder I w)).2 = .ok (fans.flatMap fanCalls)

/-- No operation of the format fails. -/
structure FanFormat.Infallible (F : FanFormat I) : Prop where
  start : ∀ a b c, ∃ s, F.start a b c = .ok s
  newFan : ∀ s a b c, (F.newFan s a b c).2 = .ok ()
  extendFan : ∀ s v, (F.extendFan s v).2 = .ok ()
  build : ∀ s, ∃ o, (F.build s).2 = .ok o

end Tri
