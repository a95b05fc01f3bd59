import Verif.Spec.Format

/-!
# Specification vocabulary for containers written by users

The traits `Fan`, `Fans` and `List` (`outputs/fan.rs`, `outputs/list.rs`) can be implemented for any type.
-/

namespace Tri

variable {D F FS L : Type}

/-- `x` is what `Fan::new` makes of the first three vertices of `f` and `Fan::push` of each further one. -/
def MadeFrom [Fan F D] (f : List D) (x : F) : Prop :=
  ∃ a b c ext, f = a :: b :: c :: ext ∧ x = ext.foldl Fan.push (Fan.new a b c)

/-- `Fans::push` for each of the given fans. -/
def pushAll [Fans FS F] (fs : FS) (l : List F) : FS := l.foldl Fans.push fs

/-- `List::push` for each of the given triangles. -/
def pushTriangles [TriList L D] (l : L) (ts : List (D × D × D)) : L :=
  ts.foldl (fun l t => TriList.push l t.1 t.2.1 t.2.2) l

/-- What the documentation of `Fans::truncate` asks for: it removes what was added after the container had the given
length. -/
def FansUndo (FS : Type) {F : Type} [Fans FS F] : Prop :=
  ∀ (fs : FS) (l : List F), Fans.truncate (pushAll fs l) (Fans.len fs) = fs

/-- What the documentation of `List::truncate` asks for. -/
def ListUndo (L : Type) {D : Type} [TriList L D] : Prop :=
  ∀ (l : L) (ts : List (D × D × D)), TriList.truncate (pushTriangles l ts) (TriList.len l) = l

end Tri
