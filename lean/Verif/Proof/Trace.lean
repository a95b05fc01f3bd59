import Verif.Spec.Format

/-!
# The format-free run of the triangulation code

`TrM` is the instance of `FanM` that records the calls instead of making them.  `interp` replays a
recorded run against a format; it is a morphism of `FanM`s, so every run against a format is the
replay of the recorded run.
-/

set_option linter.unusedSectionVars false

namespace Tri

variable {I V C : Type}

/-- Recording computations: the calls made, and how the run ended. -/
@[ext] structure TrM (I α : Type) where
  calls : List (Call I)
  res : Res IErr α

instance : FanM I (TrM I) where
  pure a := ⟨[], .ok a⟩
  bind x f :=
    match x.res with
    | .ok a => ⟨x.calls ++ (f a).calls, (f a).res⟩
    | .error e => ⟨x.calls, .error e⟩
  newFan a b c := ⟨[.newFan a b c], .ok ()⟩
  extendFan v := ⟨[.extend v], .ok ()⟩
  stop e := ⟨[], .error e⟩

/-- Makes recorded calls on a format's state, stopping at the first error. -/
def feed (F : FanFormat I) : List (Call I) → FBM F Unit
  | [] => fun s => (s, .ok ())
  | .newFan a b c :: cs => fun s =>
    match FBS.newFan F a b c s with
    | (s, .ok ()) => feed F cs s
    | (s, .error e) => (s, .error e)
  | .extend v :: cs => fun s =>
    match FBS.extendFan F v s with
    | (s, .ok ()) => feed F cs s
    | (s, .error e) => (s, .error e)

/-- Replays a recorded run. -/
def interp (F : FanFormat I) {α : Type} (x : TrM I α) : FBM F α := fun s =>
  match feed F x.calls s with
  | (s, .ok ()) =>
    match x.res with
    | .ok a => (s, .ok a)
    | .error e => (s, .error (liftInternal e))
  | (s, .error e) => (s, .error e)

/-- Morphisms between instances of `FanM`. -/
structure FanHom (m n : Type → Type) [FanM I m] [FanM I n] where
  /-- the map -/
  app : {α : Type} → m α → n α
  pure' : ∀ {α : Type} (a : α), app (pure a : m α) = pure a
  bind' : ∀ {α β : Type} (x : m α) (f : α → m β), app (x >>= f) = app x >>= fun a => app (f a)
  newFan' : ∀ a b c, app (FanM.newFan a b c : m Unit) = FanM.newFan a b c
  extendFan' : ∀ v, app (FanM.extendFan v : m Unit) = FanM.extendFan v
  stop' : ∀ {α : Type} (e : Fault IErr), app (FanM.stop e : m α) = FanM.stop e

theorem feed_append (F : FanFormat I) (a b : List (Call I)) (s : FBS F) :
    feed F (a ++ b) s = match feed F a s with
      | (s, .ok ()) => feed F b s
      | (s, .error e) => (s, .error e) := by
  induction a generalizing s with
  | nil => rfl
  | cons c cs ih =>
    cases c with
    | newFan x y z =>
      simp only [List.cons_append, feed]
      rcases FBS.newFan F x y z s with ⟨s', r⟩
      cases r with
      | ok u => exact ih s'
      | error e => rfl
    | extend v =>
      simp only [List.cons_append, feed]
      rcases FBS.extendFan F v s with ⟨s', r⟩
      cases r with
      | ok u => exact ih s'
      | error e => rfl

/-- Replaying is a morphism. -/
def interpHom (F : FanFormat I) : FanHom (I := I) (TrM I) (FBM F) where
  app := interp F
  pure' a := rfl
  bind' x f := by
    funext s
    rcases x with ⟨cs, r⟩
    cases r with
    | error e =>
      show interp F ⟨cs, .error e⟩ s = (match interp F ⟨cs, .error e⟩ s with
        | (s, .ok a) => interp F (f a) s
        | (s, .error e) => (s, .error e))
      simp only [interp]
      rcases feed F cs s with ⟨s', r⟩
      cases r <;> rfl
    | ok a =>
      show interp F ⟨cs ++ (f a).calls, (f a).res⟩ s = (match interp F ⟨cs, .ok a⟩ s with
        | (s, .ok a) => interp F (f a) s
        | (s, .error e) => (s, .error e))
      simp only [interp, feed_append]
      rcases feed F cs s with ⟨s', r⟩
      cases r <;> rfl
  newFan' a b c := by
    funext s
    show interp F ⟨[.newFan a b c], .ok ()⟩ s = FBS.newFan F a b c s
    simp only [interp, feed]
    rcases FBS.newFan F a b c s with ⟨s', r⟩
    cases r <;> rfl
  extendFan' v := by
    funext s
    show interp F ⟨[.extend v], .ok ()⟩ s = FBS.extendFan F v s
    simp only [interp, feed]
    rcases FBS.extendFan F v s with ⟨s', r⟩
    cases r <;> rfl
  stop' e := rfl

namespace FanHom

variable {m n : Type → Type} [FanM I m] [FanM I n] (φ : FanHom (I := I) m n) [Scalar C]

theorem lift' {α : Type} (r : Res IErr α) : φ.app (FanM.lift r : m α) = FanM.lift r := by
  cases r with
  | ok a => exact φ.pure' a
  | error e => exact φ.stop' e

theorem addTriangle (b : Mono.Bodt) (v : I) :
    φ.app (b.addTriangle v : m Mono.Bodt) = b.addTriangle v := by
  cases b <;> simp [Mono.Bodt.addTriangle, φ.pure', φ.bind', φ.extendFan']

theorem backLoop (fuel : Nat) (M : Mono I C) (b : Mono.Bodt) :
    φ.app (Mono.backLoop (m := m) fuel M b) = Mono.backLoop fuel M b := by
  induction fuel generalizing M b with
  | zero => exact φ.stop' _
  | succ k ih =>
    simp only [Mono.backLoop, φ.bind', φ.lift']
    congr 1; funext r
    cases r
    · simp [φ.pure']
    · simp [φ.bind', φ.lift', φ.addTriangle, ih]

theorem advLoop (fuel : Nat) (M : Mono I C) (b : Mono.Bodt) :
    φ.app (Mono.advLoop (m := m) fuel M b) = Mono.advLoop fuel M b := by
  induction fuel generalizing M b with
  | zero => exact φ.stop' _
  | succ k ih =>
    simp only [Mono.advLoop, φ.bind', φ.lift']
    congr 1; funext r
    cases r
    · simp [φ.pure']
    · simp [φ.bind', φ.lift', φ.addTriangle, ih]

theorem extendDeferred (M : Mono I C) (bt : Bool) (i n' : Nat) :
    φ.app (Mono.extendDeferred (m := m) M bt i n') = Mono.extendDeferred M bt i n' := by
  induction n' generalizing i with
  | zero => exact φ.pure' _
  | succ k ih => simp [Mono.extendDeferred, φ.bind', φ.lift', φ.extendFan', ih]

theorem emitDeferred (M : Mono I C) (bt : Bool) (dt : Nat) :
    φ.app (Mono.emitDeferred (m := m) M bt dt) = Mono.emitDeferred M bt dt := by
  simp [Mono.emitDeferred, φ.bind', φ.lift', φ.newFan', φ.extendDeferred]

theorem startFan (w : Winding) (a b : Bool) (v0 v1 v2 : I) :
    φ.app (Mono.startFan (m := m) w a b v0 v1 v2) = Mono.startFan w a b v0 v1 v2 := by
  simp only [Mono.startFan]
  split
  · simp [φ.bind', φ.pure', φ.newFan']
  · exact φ.pure' _

theorem growFan (bt : Bool) (M : Mono I C) (b : Mono.Bodt) :
    φ.app (Mono.growFan (m := m) bt M b) = Mono.growFan bt M b := by
  cases bt
  · simp [Mono.growFan, φ.bind', φ.lift', φ.advLoop]
  · simp [Mono.growFan, φ.bind', φ.lift', φ.backLoop, φ.addTriangle]

theorem finishFan (bt : Bool) (M : Mono I C) (b : Mono.Bodt) :
    φ.app (Mono.finishFan (m := m) bt M b) = Mono.finishFan bt M b := by
  cases b with
  | builder => exact φ.pure' _
  | deferred dt => exact φ.emitDeferred ..

theorem fanStep (w : Winding) (M : Mono I C) :
    φ.app (Mono.fanStep (m := m) w M) = Mono.fanStep w M := by
  simp only [Mono.fanStep, φ.bind', φ.lift', φ.startFan, φ.growFan, φ.finishFan, φ.pure']

theorem maybeFan (w : Winding) (M : Mono I C) :
    φ.app (Mono.maybeFan (m := m) w M) = Mono.maybeFan w M := by
  simp only [Mono.maybeFan, φ.bind', φ.lift']
  congr 1; funext b
  cases b
  · exact φ.pure' _
  · exact φ.fanStep ..

theorem buildFans (w : Winding) (fuel : Nat) (M : Mono I C) :
    φ.app (Mono.buildFans (m := m) w fuel M) = Mono.buildFans w fuel M := by
  induction fuel generalizing M with
  | zero => exact φ.stop' _
  | succ k ih =>
    simp only [Mono.buildFans, φ.bind', φ.lift']
    congr 1; funext r
    split
    · simp only [φ.bind', φ.lift', φ.maybeFan, ih]
    · split
      · exact φ.pure' _
      · exact φ.stop' _

theorem finishMonotone (w : Winding) (fuel : Nat) (b : MonoB I C) :
    φ.app (Tri.finishMonotone (m := m) w fuel b) = Tri.finishMonotone w fuel b := by
  simp only [Tri.finishMonotone, φ.bind', φ.lift']
  congr 1; funext r
  cases r <;> simp [φ.pure', φ.buildFans]

theorem advanceMonotones (w : Winding) (fuel : Nat) (p : PolyList I V) (xy : V → Coords C)
    (st : St I C) (t : Trapezoid) (niDown : Nat) (nDown : Nexus I C) (ms : Ot (MonoB I C)) :
    φ.app (Tri.advanceMonotones (m := m) w fuel p xy st t niDown nDown ms) =
      Tri.advanceMonotones w fuel p xy st t niDown nDown ms := by
  simp only [Tri.advanceMonotones, φ.bind', φ.lift']
  congr 1; funext sl
  congr 1; funext sr
  congr 1; funext nu
  split
  · exact φ.pure' _
  · simp only [φ.bind', φ.finishMonotone]
    congr 1; funext _
    exact φ.lift' _

theorem forM {α : Type} (l : List α) (f : α → m Unit) :
    φ.app (l.forM f) = l.forM (fun a => φ.app (f a)) := by
  induction l with
  | nil => exact φ.pure' _
  | cons a l ih =>
    show φ.app (f a >>= fun _ => l.forM f) = _
    rw [φ.bind', ih]; rfl

theorem joinV (w : Winding) (fuel : Nat) (x : TI I C) (a b c : Nat) :
    φ.app (Tri.joinV (m := m) w fuel x a b c) = Tri.joinV w fuel x a b c := by
  simp only [Tri.joinV]
  split
  · exact φ.pure' _
  · split
    · simp [φ.bind', φ.lift', φ.pure']
    · split
      · simp only [φ.bind', φ.pure']
        congr 1
        have h := φ.forM (Ot.toList ‹_›) (Tri.finishMonotone (C := C) w fuel)
        simp only [φ.finishMonotone] at h
        exact h
      · split
        · split
          · exact φ.stop' _
          · simp [φ.bind', φ.lift', φ.pure']
        · exact φ.stop' _

theorem updateMonotones (w : Winding) (fuel : Nat) (p : PolyList I V) (xy : V → Coords C)
    (st : St I C) (x : TI I C) (t : Trapezoid) (niDown : Nat) (nDown : Nexus I C) :
    φ.app (Tri.updateMonotones (m := m) w fuel p xy st x t niDown nDown) =
      Tri.updateMonotones w fuel p xy st x t niDown nDown := by
  simp only [Tri.updateMonotones]
  split
  · exact φ.pure' _
  · simp [φ.bind', φ.advanceMonotones, φ.pure']

theorem descend (w : Winding) (fuel : Nat) (st : St I C) (x : TI I C) (t : Trapezoid)
    (nDown : Nexus I C) (ft : FinalType) :
    φ.app (Tri.descend (m := m) w fuel st x t nDown ft) = Tri.descend w fuel st x t nDown ft := by
  cases ft with
  | V => simp [Tri.descend, Tri.descendV, φ.bind', φ.joinV, φ.lift']
  | I =>
    simp only [Tri.descend, Tri.descendI]
    split
    · exact φ.pure' _
    · split
      · exact φ.pure' _
      · exact φ.stop' _
  | A =>
    simp only [Tri.descend, Tri.descendA]
    split
    · simp [φ.bind', φ.lift', φ.pure']
    · exact φ.pure' _

theorem triStep (w : Winding) (fuel : Nat) (p : PolyList I V) (xy : V → Coords C)
    (st : St I C) (x : TI I C) (t : Trapezoid) (niDown : Nat) :
    φ.app (Tri.triStep (m := m) w fuel p xy st x t niDown) =
      Tri.triStep w fuel p xy st x t niDown := by
  simp only [Tri.triStep, φ.bind', φ.lift', φ.updateMonotones, φ.descend]

theorem triLoop (w : Winding) (fuel : Nat) (p : PolyList I V) (xy : V → Coords C)
    (st : St I C) (k : Nat) (x : TI I C) :
    φ.app (Tri.triLoop (m := m) w fuel p xy st k x) = Tri.triLoop w fuel p xy st k x := by
  induction k generalizing x with
  | zero => exact φ.stop' _
  | succ k ih =>
    simp only [Tri.triLoop, φ.bind', φ.lift']
    congr 1; funext t
    split
    · simp [φ.bind', φ.triStep, ih]
    · split
      · exact φ.stop' _
      · split
        · exact φ.stop' _
        · split
          · exact φ.stop' _
          · exact φ.pure' _

theorem triangulateInner (w : Winding) (fuel : Nat) (p : PolyList I V) (xy : V → Coords C)
    (st : St I C) :
    φ.app (Tri.triangulateInner (m := m) w fuel p xy st) = Tri.triangulateInner w fuel p xy st := by
  simp only [Tri.triangulateInner, φ.bind', φ.lift', φ.triLoop]

end FanHom

/-- The recorded run of `triangulate_inner`. -/
def innerTrace [Scalar C] (w : Winding) (fuel : Nat) (p : PolyList I V) (xy : V → Coords C)
    (st : St I C) : TrM I Unit :=
  triangulateInner (m := TrM I) w fuel p xy st

/-- Every run against a format is the replay of the recorded run. -/
theorem triangulate_eq_interp [Scalar C] (fuel : Nat) (p : PolyList I V) (xy : V → Coords C)
    (st : St I C) (F : FanFormat I) :
    st.triangulate fuel p xy F =
      let r := interp F (innerTrace F.winding fuel p xy st) .uninit
      r.1.complete r.2 := by
  have h := (interpHom F).triangulateInner F.winding fuel p xy st
  simp only [St.triangulate]
  rw [← h]
  rfl

end Tri
