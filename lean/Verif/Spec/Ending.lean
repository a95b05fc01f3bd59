import Verif.Spec.Format
import Verif.Model.Triangulate

/-!
# How runs can end, for the properties C37 to C39
-/

namespace Tri

variable {I V C : Type}

/-- The endings that are not values: a panic, undefined behaviour, running forever. -/
inductive Grave where
  | panic
  | ub
  | timeout
deriving DecidableEq

/-- As the outcome of a run. -/
def Grave.fault {ε : Type} : Grave → Fault ε
  | .panic => .panic
  | .ub => .ub
  | .timeout => .timeout

/-- None of the format's own operations ends like this. -/
structure FanFormat.Never (F : FanFormat I) (g : Grave) : Prop where
  start : ∀ a b c w, F.start a b c ≠ .error (g.fault, w)
  newFan : ∀ s a b c, (F.newFan s a b c).2 ≠ .error g.fault
  extendFan : ∀ s v, (F.extendFan s v).2 ≠ .error g.fault
  build : ∀ s, (F.build s).2 ≠ .error g.fault

/-- The index iterator does not panic, and every index it yields has a vertex. -/
def PolyList.Resolves (p : PolyList I V) : Prop :=
  none ∉ p.elems ∧ ∀ i, some (.cont i) ∈ p.elems → (p.getVertex i).isSome

/-- Every vertex of the chain is one of the input: its index is yielded by the index iterator, and the
coordinates are those of its vertex. -/
def MonoB.FromInput (p : PolyList I V) (xy : V → Coords C) (b : MonoB I C) : Prop :=
  ∀ v ∈ b.first :: b.rest, some (.cont v.1) ∈ p.elems ∧ (p.getVertex v.1).map xy = some v.2

variable [Scalar C]

/-- `triangulate` as the triangulation of the chains `bs`, one after the other, ending with `r`. -/
def chainByChain (F : FanFormat I) (fuel : Nat) (bs : List (MonoB I C)) (r : Res IErr Unit) :
    F.W × Res (TriErr F.E) F.O :=
  let q := (do bs.forM (finishMonotone F.winding fuel); FanM.lift r : FBM F Unit) .uninit
  q.1.complete q.2

/-- The triangulation of the chain ends. -/
def MonoB.Ends (w : Winding) (b : MonoB I C) : Prop :=
  ∃ n, (finishMonotone (m := FBM (recorder I w)) w n b (.init [])).2 ≠ .error .timeout

end Tri
