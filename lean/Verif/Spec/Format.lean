import Verif.Model.Triangulate

/-!
# Specification vocabulary for output formats

Instrumented formats used to observe which calls a run makes, and the relation between call
sequences, fans and triangles.
-/

namespace Tri

variable {I : Type}

/-- A call that hands triangles to a format: the first triangle of a new fan, or one more outer
vertex of the current fan. -/
inductive Call (I : Type) where
  | newFan (v0 v1 v2 : I)
  | extend (v : I)
deriving DecidableEq, Repr

/-- An infallible format with winding `w` that writes down the calls it receives; the calls are also
what is left in the caller's storage when the run fails. -/
abbrev recorder (I : Type) (w : Winding) : FanFormat I where
  B := List (Call I)
  E := Empty
  O := List (Call I)
  W := List (Call I)
  winding := w
  unused := []
  start a b c := .ok [.newFan a b c]
  newFan l a b c := (l ++ [.newFan a b c], .ok ())
  extendFan l v := (l ++ [.extend v], .ok ())
  build l := (l, .ok l)
  fail l _ := l
  drop l := l

/-- What happens to a format or its builder during a run, with the outcome (`none`: success). -/
inductive Ev (I E : Type) where
  | start (v0 v1 v2 : I) (r : Option (Fault E))
  | newFan (v0 v1 v2 : I) (r : Option (Fault E))
  | extend (v : I) (r : Option (Fault E))
  | build (r : Option (Fault E))
  | fail (e : TriErr E)
  | drop

/-- The error in an outcome. -/
def faultOf {E α : Type} : Res E α → Option (Fault E)
  | .ok _ => none
  | .error e => some e

/-- `F` with a log of everything that is done with it. -/
abbrev FanFormat.logged (F : FanFormat I) : FanFormat I where
  B := F.B × List (Ev I F.E)
  E := F.E
  O := F.O
  W := F.W × List (Ev I F.E)
  winding := F.winding
  unused := (F.unused, [])
  start a b c :=
    match F.start a b c with
    | .ok s => .ok (s, [.start a b c none])
    | .error (e, w) => .error (e, (w, [.start a b c (some e)]))
  newFan s a b c :=
    let r := F.newFan s.1 a b c
    ((r.1, s.2 ++ [.newFan a b c (faultOf r.2)]), r.2)
  extendFan s v :=
    let r := F.extendFan s.1 v
    ((r.1, s.2 ++ [.extend v (faultOf r.2)]), r.2)
  build s :=
    let r := F.build s.1
    ((r.1, s.2 ++ [.build (faultOf r.2)]), r.2)
  fail s e := (F.fail s.1 e, s.2 ++ [.fail e])
  drop s := (F.drop s.1, s.2 ++ [.drop])

namespace Ev
variable {E : Type}

/-- The call an event stands for. -/
def call? : Ev I E → Option (Call I)
  | .start a b c _ => some (.newFan a b c)
  | .newFan a b c _ => some (.newFan a b c)
  | .extend v _ => some (.extend v)
  | _ => none

/-- The error a call event reports. -/
def callError? : Ev I E → Option (Fault E)
  | .start _ _ _ r => r
  | .newFan _ _ _ r => r
  | .extend _ r => r
  | _ => none

/-- `initialize` events. -/
def isStart : Ev I E → Bool
  | .start _ _ _ _ => true
  | _ => false

/-- A `new_fan` or `extend_fan` call that succeeded. -/
def okLater : Ev I E → Prop
  | .newFan _ _ _ r => r = none
  | .extend _ r => r = none
  | _ => False

/-- A `new_fan` or `extend_fan` call that reported `e`. -/
def failsWith (e : Fault E) : Ev I E → Prop
  | .newFan _ _ _ r => r = some e
  | .extend _ r => r = some e
  | _ => False

end Ev

/-- The life of a format in a run that ends with outcome `r`. -/
inductive LifeCycle {E O : Type} : List (Ev I E) → Res (TriErr E) O → Prop where
  /-- never started, and the run did not succeed -/
  | unused {e : Fault (TriErr E)} : LifeCycle [] (.error e)
  /-- `initialize` failed: nothing else happens, its error is returned -/
  | startFailed {a b c : I} {e : Fault E} :
      LifeCycle [.start a b c (some e)] (.error (liftBuilderErr e))
  /-- all calls succeeded, then `build` once; its result is the result of the run -/
  | built {a b c : I} {l : List (Ev I E)} {o : O} : (∀ x ∈ l, x.okLater) →
      LifeCycle (.start a b c none :: l ++ [.build none]) (.ok o)
  | buildFailed {a b c : I} {l : List (Ev I E)} {e : Fault E} : (∀ x ∈ l, x.okLater) →
      LifeCycle (.start a b c none :: l ++ [.build (some e)]) (.error (liftBuilderErr e))
  /-- a call reported an error: no further call, `fail` once with the error that is returned -/
  | callFailed {a b c : I} {l : List (Ev I E)} {x : Ev I E} {e : E} : (∀ x ∈ l, x.okLater) →
      x.failsWith (.err e) →
      LifeCycle (.start a b c none :: l ++ [x, .fail (.fanBuilder e)]) (.error (.err (.fanBuilder e)))
  /-- the triangulation itself failed: `fail` once with the error that is returned -/
  | failed {a b c : I} {l : List (Ev I E)} {e : IErr} : (∀ x ∈ l, x.okLater) →
      LifeCycle (.start a b c none :: l ++ [.fail (.internal e)]) (.error (.err (.internal e)))
  /-- a call panicked: the builder is dropped -/
  | callPanicked {a b c : I} {l : List (Ev I E)} {x : Ev I E} {e : Fault E} :
      (∀ x ∈ l, x.okLater) → x.failsWith e → (∀ e', e ≠ .err e') →
      LifeCycle (.start a b c none :: l ++ [x, .drop]) (.error (liftBuilderErr e))
  /-- the triangulation panicked: the builder is dropped -/
  | panicked {a b c : I} {l : List (Ev I E)} {e : Fault (TriErr E)} : (∀ x ∈ l, x.okLater) →
      (∀ e', e ≠ .err e') → LifeCycle (.start a b c none :: l ++ [.drop]) (.error e)

/-- The indices a call names. -/
def Call.indices : Call I → List I
  | .newFan a b c => [a, b, c]
  | .extend v => [v]

/-- A format whose own operations are free of undefined behaviour. -/
structure FanFormat.NoUB (F : FanFormat I) : Prop where
  start : ∀ a b c w, F.start a b c ≠ .error (.ub, w)
  newFan : ∀ s a b c, (F.newFan s a b c).2 ≠ .error .ub
  extendFan : ∀ s v, (F.extendFan s v).2 ≠ .error .ub
  build : ∀ s, (F.build s).2 ≠ .error .ub

/-- The error of a run with an infallible format, as an error of a run with any format. -/
def castFault {E : Type} : Fault (TriErr Empty) → Fault (TriErr E)
  | .err (.trapezoidation e) => .err (.trapezoidation e)
  | .err .noVertices => .err .noVertices
  | .err (.internal e) => .err (.internal e)
  | .err (.fanBuilder e) => e.elim
  | .panic => .panic
  | .ub => .ub
  | .timeout => .timeout

/-- The calls that hand over one fan `[v0, v1, v2, …]`. -/
def fanCalls : List I → List (Call I)
  | a :: b :: c :: l => .newFan a b c :: l.map .extend
  | _ => []

/-- The triangles of a fan `[v0, v1, v2, …]`: `(v0, v1, v2)`, `(v0, v2, v3)`, … -/
def fanTriangles : List I → List (I × I × I)
  | [] => []
  | a :: l => (l.zip l.tail).map fun bc => (a, bc.1, bc.2)

/-- `cs` hands over exactly the fans `fans`, in order. -/
def HandsOver (cs : List (Call I)) (fans : List (List I)) : Prop :=
  (∀ f ∈ fans, 3 ≤ f.length) ∧ cs = fans.flatMap fanCalls

/-- A triangle handed to a list format, with the outcome (`none`: accepted). -/
structure Added (I E : Type) where
  triangle : I × I × I
  error : Option (Fault E)

/-- `L` with a log of the triangles handed to it. -/
abbrev ListFormat.logged (L : ListFormat I) : ListFormat I where
  B := L.B × List (Added I L.E)
  E := L.E
  O := L.O
  W := L.W × List (Added I L.E)
  winding := L.winding
  unused := (L.unused, [])
  start :=
    match L.start with
    | .ok b => .ok (b, [])
    | .error (e, w) => .error (e, (w, []))
  addTriangle b x y z :=
    let r := L.addTriangle b.1 x y z
    ((r.1, b.2 ++ [⟨(x, y, z), faultOf r.2⟩]), r.2)
  build b :=
    let r := L.build b.1
    ((r.1, b.2), r.2)
  fail b e := (L.fail b.1 e, b.2)
  drop b := (L.drop b.1, b.2)

end Tri
