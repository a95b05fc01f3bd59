import Verif.Model.CostTri
import Verif.Proof.Traverse

/-!
# The counting version of the triangulation step

`TrE` records the calls and the ticks of a counted run.  Replayed against a format, the recorded events give the counted run;
without the ticks, they give the recorded run of `Proof/Trace.lean`.
-/

set_option linter.unusedSectionVars false

namespace Tri

variable {I V C : Type}

/-! ## Morphisms -/

namespace FanHom

variable {m n : Type → Type} [FanM I m] [FanM I n] (φ : FanHom (I := I) m n) [Scalar C] (tk : m Unit)

theorem backLoopC (fuel : Nat) (M : Mono I C) (b : Mono.Bodt) :
    φ.app (Mono.backLoopC tk fuel M b) = Mono.backLoopC (φ.app tk) fuel M b := by
  induction fuel generalizing M b with
  | zero => exact φ.stop' _
  | succ k ih =>
    simp only [Mono.backLoopC, φ.bind', φ.lift']
    congr 1; funext u
    congr 1; funext r
    cases r
    · simp [φ.pure']
    · simp [φ.bind', φ.lift', φ.addTriangle, ih]

theorem advLoopC (fuel : Nat) (M : Mono I C) (b : Mono.Bodt) :
    φ.app (Mono.advLoopC tk fuel M b) = Mono.advLoopC (φ.app tk) fuel M b := by
  induction fuel generalizing M b with
  | zero => exact φ.stop' _
  | succ k ih =>
    simp only [Mono.advLoopC, φ.bind', φ.lift']
    congr 1; funext u
    congr 1; funext r
    cases r
    · simp [φ.pure']
    · simp [φ.bind', φ.lift', φ.addTriangle, ih]

theorem extendDeferredC (M : Mono I C) (bt : Bool) (i n' : Nat) :
    φ.app (Mono.extendDeferredC tk M bt i n') = Mono.extendDeferredC (φ.app tk) M bt i n' := by
  induction n' generalizing i with
  | zero => rfl
  | succ k ih => simp [Mono.extendDeferredC, φ.bind', φ.lift', φ.extendFan', ih]

theorem emitDeferredC (M : Mono I C) (bt : Bool) (dt : Nat) :
    φ.app (Mono.emitDeferredC tk M bt dt) = Mono.emitDeferredC (φ.app tk) M bt dt := by
  simp [Mono.emitDeferredC, φ.bind', φ.lift', φ.newFan', φ.extendDeferredC]

theorem growFanC (bt : Bool) (M : Mono I C) (b : Mono.Bodt) :
    φ.app (Mono.growFanC tk bt M b) = Mono.growFanC (φ.app tk) bt M b := by
  cases bt
  · simp [Mono.growFanC, φ.bind', φ.lift', φ.advLoopC]
  · simp [Mono.growFanC, φ.bind', φ.lift', φ.backLoopC, φ.addTriangle]

theorem finishFanC (bt : Bool) (M : Mono I C) (b : Mono.Bodt) :
    φ.app (Mono.finishFanC tk bt M b) = Mono.finishFanC (φ.app tk) bt M b := by
  cases b with
  | builder => exact φ.pure' _
  | deferred dt => exact φ.emitDeferredC ..

theorem fanStepC (w : Winding) (M : Mono I C) :
    φ.app (Mono.fanStepC tk w M) = Mono.fanStepC (φ.app tk) w M := by
  simp only [Mono.fanStepC, φ.bind', φ.lift', φ.startFan, φ.growFanC, φ.finishFanC, φ.pure']

theorem maybeFanC (w : Winding) (M : Mono I C) :
    φ.app (Mono.maybeFanC tk w M) = Mono.maybeFanC (φ.app tk) w M := by
  simp only [Mono.maybeFanC, φ.bind', φ.lift']
  congr 1; funext b
  cases b
  · exact φ.pure' _
  · exact φ.fanStepC ..

theorem buildFansC (w : Winding) (fuel : Nat) (M : Mono I C) :
    φ.app (Mono.buildFansC tk w fuel M) = Mono.buildFansC (φ.app tk) w fuel M := by
  induction fuel generalizing M with
  | zero => exact φ.stop' _
  | succ k ih =>
    simp only [Mono.buildFansC, φ.bind', φ.lift']
    congr 1; funext u
    congr 1; funext r
    split
    · simp only [φ.bind', φ.lift', φ.maybeFanC, ih]
    · split
      · exact φ.pure' _
      · exact φ.stop' _

theorem topTrapezoidC (qs : List (QueryNode C)) (fuel q : Nat) :
    φ.app (Tri.topTrapezoidC tk qs fuel q) = Tri.topTrapezoidC (φ.app tk) qs fuel q := by
  induction fuel generalizing q with
  | zero => exact φ.stop' _
  | succ k ih =>
    simp only [Tri.topTrapezoidC, φ.bind', φ.lift']
    congr 1; funext u
    congr 1; funext r
    rcases r with ⟨_, r, _ | _⟩ | t
    · exact φ.stop' _
    · exact ih r
    · exact φ.pure' _

theorem finishMonotoneC (w : Winding) (fuel : Nat) (b : MonoB I C) :
    φ.app (Tri.finishMonotoneC tk w fuel b) = Tri.finishMonotoneC (φ.app tk) w fuel b := by
  simp only [Tri.finishMonotoneC, φ.bind', φ.lift']
  congr 1; funext r
  cases r <;> simp [φ.pure', φ.buildFansC]

theorem advanceMonotonesC (w : Winding) (fuel : Nat) (p : PolyList I V) (xy : V → Coords C)
    (st : St I C) (t : Trapezoid) (niDown : Nat) (nDown : Nexus I C) (ms : Ot (MonoB I C)) :
    φ.app (Tri.advanceMonotonesC tk w fuel p xy st t niDown nDown ms) =
      Tri.advanceMonotonesC (φ.app tk) w fuel p xy st t niDown nDown ms := by
  simp only [Tri.advanceMonotonesC, φ.bind', φ.lift']
  congr 1; funext sl
  congr 1; funext sr
  congr 1; funext nu
  split
  · exact φ.pure' _
  · simp only [φ.bind', φ.finishMonotoneC]
    congr 1; funext _
    exact φ.lift' _

theorem joinVC (w : Winding) (fuel : Nat) (x : TI I C) (a b c : Nat) :
    φ.app (Tri.joinVC tk w fuel x a b c) = Tri.joinVC (φ.app tk) w fuel x a b c := by
  simp only [Tri.joinVC]
  split
  · exact φ.pure' _
  · split
    · simp [φ.bind', φ.lift', φ.pure']
    · split
      · simp only [φ.bind', φ.pure']
        congr 1
        have h := φ.forM (Ot.toList ‹_›) (Tri.finishMonotoneC (C := C) tk w fuel)
        simp only [φ.finishMonotoneC] at h
        exact h
      · split
        · split
          · exact φ.stop' _
          · simp [φ.bind', φ.lift', φ.pure']
        · exact φ.stop' _

theorem updateMonotonesC (w : Winding) (fuel : Nat) (p : PolyList I V) (xy : V → Coords C)
    (st : St I C) (x : TI I C) (t : Trapezoid) (niDown : Nat) (nDown : Nexus I C) :
    φ.app (Tri.updateMonotonesC tk w fuel p xy st x t niDown nDown) =
      Tri.updateMonotonesC (φ.app tk) w fuel p xy st x t niDown nDown := by
  simp only [Tri.updateMonotonesC]
  split
  · exact φ.pure' _
  · simp [φ.bind', φ.advanceMonotonesC, φ.pure']

theorem descendC (w : Winding) (fuel : Nat) (st : St I C) (x : TI I C) (t : Trapezoid)
    (nDown : Nexus I C) (ft : FinalType) :
    φ.app (Tri.descendC tk w fuel st x t nDown ft) = Tri.descendC (φ.app tk) w fuel st x t nDown ft := by
  cases ft with
  | V => simp [Tri.descendC, Tri.descendVC, φ.bind', φ.joinVC, φ.lift']
  | I =>
    simp only [Tri.descendC, Tri.descendI]
    split
    · exact φ.pure' _
    · split
      · exact φ.pure' _
      · exact φ.stop' _
  | A =>
    simp only [Tri.descendC, Tri.descendA]
    split
    · simp [φ.bind', φ.lift', φ.pure']
    · exact φ.pure' _

theorem triStepC (w : Winding) (fuel : Nat) (p : PolyList I V) (xy : V → Coords C)
    (st : St I C) (x : TI I C) (t : Trapezoid) (niDown : Nat) :
    φ.app (Tri.triStepC tk w fuel p xy st x t niDown) =
      Tri.triStepC (φ.app tk) w fuel p xy st x t niDown := by
  simp only [Tri.triStepC, φ.bind', φ.lift', φ.updateMonotonesC, φ.descendC]

theorem triLoopC (w : Winding) (fuel : Nat) (p : PolyList I V) (xy : V → Coords C)
    (st : St I C) (k : Nat) (x : TI I C) :
    φ.app (Tri.triLoopC tk w fuel p xy st k x) = Tri.triLoopC (φ.app tk) w fuel p xy st k x := by
  induction k generalizing x with
  | zero => exact φ.stop' _
  | succ k ih =>
    simp only [Tri.triLoopC, φ.bind', φ.lift']
    congr 1; funext u
    congr 1; funext t
    split
    · simp [φ.bind', φ.triStepC, ih]
    · split
      · exact φ.stop' _
      · split
        · exact φ.stop' _
        · split
          · exact φ.stop' _
          · exact φ.pure' _

theorem triangulateInnerC (w : Winding) (fuel : Nat) (p : PolyList I V) (xy : V → Coords C)
    (st : St I C) :
    φ.app (Tri.triangulateInnerC tk w fuel p xy st) = Tri.triangulateInnerC (φ.app tk) w fuel p xy st := by
  simp only [Tri.triangulateInnerC, φ.bind', φ.triLoopC, φ.topTrapezoidC]

end FanHom

/-! ## Without the ticks -/

namespace TrM
variable [Scalar C]

/-- No tick. -/
abbrev skip : TrM I Unit := pure ()

theorem skip_bind {α : Type} (x : Unit → TrM I α) : (skip >>= x) = x () := TrM.pure_bind' () x

theorem backLoopC (fuel : Nat) (M : Mono I C) (b : Mono.Bodt) :
    Mono.backLoopC (skip (I := I)) fuel M b = Mono.backLoop fuel M b := by
  induction fuel generalizing M b with
  | zero => rfl
  | succ k ih => simp only [Mono.backLoopC, Mono.backLoop, skip_bind, ih]

theorem advLoopC (fuel : Nat) (M : Mono I C) (b : Mono.Bodt) :
    Mono.advLoopC (skip (I := I)) fuel M b = Mono.advLoop fuel M b := by
  induction fuel generalizing M b with
  | zero => rfl
  | succ k ih => simp only [Mono.advLoopC, Mono.advLoop, skip_bind, ih]

theorem extendDeferredC (M : Mono I C) (bt : Bool) (i n : Nat) :
    Mono.extendDeferredC (skip (I := I)) M bt i n = Mono.extendDeferred M bt i n := by
  induction n generalizing i with
  | zero => rfl
  | succ k ih => simp only [Mono.extendDeferredC, Mono.extendDeferred, skip_bind, ih]

theorem finishFanC (bt : Bool) (M : Mono I C) (b : Mono.Bodt) :
    Mono.finishFanC (skip (I := I)) bt M b = Mono.finishFan bt M b := by
  cases b with
  | builder => rfl
  | deferred dt => simp only [Mono.finishFanC, Mono.finishFan, Mono.emitDeferredC, Mono.emitDeferred, extendDeferredC]

theorem maybeFanC (w : Winding) (M : Mono I C) :
    Mono.maybeFanC (skip (I := I)) w M = Mono.maybeFan w M := by
  simp only [Mono.maybeFanC, Mono.maybeFan, Mono.fanStepC, Mono.fanStep, Mono.growFanC, Mono.growFan, backLoopC, advLoopC,
    finishFanC]

theorem buildFansC (w : Winding) (fuel : Nat) (M : Mono I C) :
    Mono.buildFansC (skip (I := I)) w fuel M = Mono.buildFans w fuel M := by
  induction fuel generalizing M with
  | zero => rfl
  | succ k ih => simp only [Mono.buildFansC, Mono.buildFans, skip_bind, maybeFanC, ih]

theorem topTrapezoidC (qs : List (QueryNode C)) (fuel q : Nat) :
    Tri.topTrapezoidC (skip (I := I)) qs fuel q = FanM.lift (topTrapezoid qs fuel q) := by
  induction fuel generalizing q with
  | zero => rfl
  | succ k ih =>
    simp only [Tri.topTrapezoidC, topTrapezoid, skip_bind]
    rcases getP (ε := IErr) qs q with e | r
    · rfl
    · rcases r with ⟨_, r, _ | _⟩ | t
      · rfl
      · exact (TrM.pure_bind' _ _).trans (ih r)
      · rfl

theorem finishMonotoneC (w : Winding) (fuel : Nat) (b : MonoB I C) :
    Tri.finishMonotoneC (skip (I := I)) w fuel b = finishMonotone w fuel b := by
  simp only [Tri.finishMonotoneC, finishMonotone, buildFansC]
  rfl

theorem triStepC (w : Winding) (fuel : Nat) (p : PolyList I V) (xy : V → Coords C)
    (st : St I C) (x : TI I C) (t : Trapezoid) (niDown : Nat) :
    Tri.triStepC (skip (I := I)) w fuel p xy st x t niDown = triStep w fuel p xy st x t niDown := by
  have h : ∀ (nDown : Nexus I C) (ft : FinalType) (x : TI I C),
      descendC (skip (I := I)) w fuel st x t nDown ft = descend w fuel st x t nDown ft := by
    intro nDown ft x
    cases ft with
    | V =>
      have e : Tri.finishMonotoneC (skip (I := I)) (C := C) w fuel = finishMonotone w fuel := funext (finishMonotoneC w fuel)
      simp only [descendC, descend, descendVC, descendV, joinVC, joinV, e]
      rfl
    | I => rfl
    | A => rfl
  simp only [Tri.triStepC, triStep, updateMonotonesC, updateMonotones, advanceMonotonesC, advanceMonotones, finishMonotoneC, h]
  rfl

theorem triLoopC (w : Winding) (fuel : Nat) (p : PolyList I V) (xy : V → Coords C)
    (st : St I C) (k : Nat) (x : TI I C) :
    Tri.triLoopC (skip (I := I)) w fuel p xy st k x = triLoop w fuel p xy st k x := by
  induction k generalizing x with
  | zero => rfl
  | succ k ih =>
    simp only [Tri.triLoopC, triLoop, skip_bind, triStepC, ih]
    rfl

theorem triangulateInnerC (w : Winding) (fuel : Nat) (p : PolyList I V) (xy : V → Coords C) (st : St I C) :
    Tri.triangulateInnerC (skip (I := I)) w fuel p xy st = innerTrace w fuel p xy st := by
  simp only [Tri.triangulateInnerC, innerTrace, triangulateInner, topTrapezoidC, triLoopC]

end TrM

/-! ## Recording calls and ticks -/

/-- Recording computations: the calls made (`some`) and the ticks (`none`), and how the run ended. -/
@[ext] structure TrE (I α : Type) where
  evs : List (Option (Call I))
  res : Res IErr α

instance : FanM I (TrE I) where
  pure a := ⟨[], .ok a⟩
  bind x f :=
    match x.res with
    | .ok a => ⟨x.evs ++ (f a).evs, (f a).res⟩
    | .error e => ⟨x.evs, .error e⟩
  newFan a b c := ⟨[some (.newFan a b c)], .ok ()⟩
  extendFan v := ⟨[some (.extend v)], .ok ()⟩
  stop e := ⟨[], .error e⟩

namespace TrE

/-- One tick. -/
def tick : TrE I Unit := ⟨[none], .ok ()⟩

/-- The number of events. -/
def len {α : Type} (x : TrE I α) : Nat := x.evs.length

/-- The number of calls. -/
def calls {α : Type} (x : TrE I α) : Nat := (x.evs.filterMap id).length

theorem pure_def {α : Type} (a : α) : (pure a : TrE I α) = ⟨[], .ok a⟩ := rfl

theorem ok_bind {α β : Type} (l : List (Option (Call I))) (a : α) (f : α → TrE I β) :
    (⟨l, .ok a⟩ : TrE I α) >>= f = ⟨l ++ (f a).evs, (f a).res⟩ := rfl

theorem error_bind {α β : Type} (l : List (Option (Call I))) (e : Fault IErr) (f : α → TrE I β) :
    (⟨l, .error e⟩ : TrE I α) >>= f = ⟨l, .error e⟩ := rfl

theorem lift_ok {α β : Type} (a : α) (f : α → TrE I β) :
    (FanM.lift (.ok a) : TrE I α) >>= f = f a := by
  show (⟨[] ++ (f a).evs, (f a).res⟩ : TrE I β) = f a
  simp

theorem pure_bind {α β : Type} (a : α) (f : α → TrE I β) : (pure a : TrE I α) >>= f = f a := lift_ok a f

theorem lift_error {α β : Type} (e : Fault IErr) (f : α → TrE I β) :
    (FanM.lift (.error e) : TrE I α) >>= f = ⟨[], .error e⟩ := rfl

theorem tick_bind {β : Type} (f : Unit → TrE I β) : (tick : TrE I Unit) >>= f = ⟨none :: (f ()).evs, (f ()).res⟩ := rfl

/-- A sequence that ended well: both parts did. -/
theorem bind_ok {α β : Type} {x : TrE I α} {f : α → TrE I β} {b : β} (h : (x >>= f).res = .ok b) :
    ∃ a, x.res = .ok a ∧ (f a).res = .ok b ∧ (x >>= f).len = x.len + (f a).len ∧
      (x >>= f).calls = x.calls + (f a).calls := by
  rcases x with ⟨l, e | a⟩
  · cases h
  · refine ⟨a, rfl, h, ?_, ?_⟩
    · simp [ok_bind, len]
    · simp [ok_bind, calls]

/-- The recorded run without the ticks. -/
def erase : FanHom (I := I) (TrE I) (TrM I) where
  app x := ⟨x.evs.filterMap id, x.res⟩
  pure' _ := rfl
  bind' x f := by
    rcases x with ⟨l, e | a⟩
    · rfl
    · simp only [ok_bind]
      show _ = (⟨_, .ok a⟩ : TrM I _) >>= _
      rw [TrM.mk_ok_bind]
      simp
  newFan' _ _ _ := rfl
  extendFan' _ := rfl
  stop' _ := rfl

/-- Replays recorded events on a format's state. -/
def feed (F : FanFormat I) : List (Option (Call I)) → CtM F Unit
  | [] => fun s => (s, .ok ())
  | none :: es => fun s => feed F es (s.1, s.2 + 1)
  | some (.newFan a b c) :: es => fun s =>
    match CtM.call (FBS.newFan F a b c) s with
    | (s, .ok ()) => feed F es s
    | (s, .error e) => (s, .error e)
  | some (.extend v) :: es => fun s =>
    match CtM.call (FBS.extendFan F v) s with
    | (s, .ok ()) => feed F es s
    | (s, .error e) => (s, .error e)

theorem feed_append (F : FanFormat I) (a b : List (Option (Call I))) (s : FBS F × Nat) :
    feed F (a ++ b) s = match feed F a s with
      | (s, .ok ()) => feed F b s
      | (s, .error e) => (s, .error e) := by
  induction a generalizing s with
  | nil => rfl
  | cons c cs ih =>
    rcases c with _ | ⟨x, y, z⟩ | v
    · exact ih _
    · simp only [List.cons_append, feed]
      rcases CtM.call (FBS.newFan F x y z) s with ⟨s', r⟩
      cases r with
      | ok u => exact ih s'
      | error e => rfl
    · simp only [List.cons_append, feed]
      rcases CtM.call (FBS.extendFan F v) s with ⟨s', r⟩
      cases r with
      | ok u => exact ih s'
      | error e => rfl

/-- Replays a recorded run. -/
def replay (F : FanFormat I) {α : Type} (x : TrE I α) : CtM F α := fun s =>
  match feed F x.evs s with
  | (s, .ok ()) =>
    match x.res with
    | .ok a => (s, .ok a)
    | .error e => (s, .error (liftInternal e))
  | (s, .error e) => (s, .error e)

/-- Replaying is a morphism. -/
def replayHom (F : FanFormat I) : FanHom (I := I) (TrE I) (CtM F) where
  app := replay F
  pure' a := rfl
  bind' x f := by
    funext s
    rcases x with ⟨cs, r⟩
    cases r with
    | error e =>
      show replay F ⟨cs, .error e⟩ s = (match replay F ⟨cs, .error e⟩ s with
        | (s, .ok a) => replay F (f a) s
        | (s, .error e) => (s, .error e))
      simp only [replay]
      rcases feed F cs s with ⟨s', r⟩
      cases r <;> rfl
    | ok a =>
      show replay F ⟨cs ++ (f a).evs, (f a).res⟩ s = (match replay F ⟨cs, .ok a⟩ s with
        | (s, .ok a) => replay F (f a) s
        | (s, .error e) => (s, .error e))
      simp only [replay, feed_append]
      rcases feed F cs s with ⟨s', r⟩
      cases r <;> rfl
  newFan' a b c := by
    funext s
    show replay F ⟨[some (.newFan a b c)], .ok ()⟩ s = CtM.call (FBS.newFan F a b c) s
    simp only [replay, feed]
    rcases CtM.call (FBS.newFan F a b c) s with ⟨s', r⟩
    cases r <;> rfl
  extendFan' v := by
    funext s
    show replay F ⟨[some (.extend v)], .ok ()⟩ s = CtM.call (FBS.extendFan F v) s
    simp only [replay, feed]
    rcases CtM.call (FBS.extendFan F v) s with ⟨s', r⟩
    cases r <;> rfl
  stop' e := rfl

theorem feed_erase (F : FanFormat I) (es : List (Option (Call I))) (s : FBS F) (n : Nat) :
    ∃ k ≤ es.length, feed F es (s, n) = (((Tri.feed F (es.filterMap id) s).1, n + k), (Tri.feed F (es.filterMap id) s).2) ∧
      ((Tri.feed F (es.filterMap id) s).2 = .ok () → k = es.length) := by
  induction es generalizing s n with
  | nil => exact ⟨0, by simp, rfl, fun _ => rfl⟩
  | cons c cs ih =>
    rcases c with _ | ⟨x, y, z⟩ | v
    · obtain ⟨k, h1, h2, h3⟩ := ih s (n + 1)
      refine ⟨k + 1, by simpa using h1, ?_, fun h => by simp [h3 (by simpa using h)]⟩
      simp only [feed, h2, List.filterMap_cons, id, Prod.mk.injEq, true_and, and_true]
      omega
    · simp only [List.filterMap_cons, id, feed, CtM.call, Tri.feed]
      rcases FBS.newFan F x y z s with ⟨s', e | u⟩
      · exact ⟨1, by simp, rfl, fun h => by cases h⟩
      · obtain ⟨k, h1, h2, h3⟩ := ih s' (n + 1)
        refine ⟨k + 1, by simpa using h1, ?_, fun h => by simp [h3 (by simpa using h)]⟩
        simp only [h2, Prod.mk.injEq, true_and, and_true]
        omega
    · simp only [List.filterMap_cons, id, feed, CtM.call, Tri.feed]
      rcases FBS.extendFan F v s with ⟨s', e | u⟩
      · exact ⟨1, by simp, rfl, fun h => by cases h⟩
      · obtain ⟨k, h1, h2, h3⟩ := ih s' (n + 1)
        refine ⟨k + 1, by simpa using h1, ?_, fun h => by simp [h3 (by simpa using h)]⟩
        simp only [h2, Prod.mk.injEq, true_and, and_true]
        omega

/-- The replay against a format, apart from the counter, is the replay without the ticks. -/
theorem replay_erase (F : FanFormat I) {α : Type} (x : TrE I α) (s : FBS F) (n : Nat) :
    ∃ k ≤ x.len, replay F x (s, n) = (((interp F (erase.app x) s).1, n + k), (interp F (erase.app x) s).2) ∧
      (∀ a, (interp F (erase.app x) s).2 = .ok a → k = x.len) := by
  obtain ⟨k, h1, h2, h3⟩ := feed_erase F x.evs s n
  refine ⟨k, h1, ?_, ?_⟩
  · simp only [replay, h2, interp, erase]
    rcases Tri.feed F (x.evs.filterMap id) s with ⟨s', e | u⟩
    · rfl
    · rcases x.res with e | a <;> rfl
  · intro a h
    refine h3 ?_
    simp only [interp, erase] at h
    revert h
    rcases Tri.feed F (x.evs.filterMap id) s with ⟨s', e | u⟩
    · intro h; cases h
    · intro _; rfl

end TrE

/-- The recorded events of `triangulate_inner`. -/
def innerEvents [Scalar C] (w : Winding) (fuel : Nat) (p : PolyList I V) (xy : V → Coords C)
    (st : St I C) : TrE I Unit :=
  triangulateInnerC (m := TrE I) TrE.tick w fuel p xy st

theorem innerEvents_erase [Scalar C] (w : Winding) (fuel : Nat) (p : PolyList I V) (xy : V → Coords C) (st : St I C) :
    TrE.erase.app (innerEvents w fuel p xy st) = innerTrace w fuel p xy st := by
  unfold innerEvents
  rw [TrE.erase.triangulateInnerC]
  exact TrM.triangulateInnerC ..

/-- The counted run: it returns what the run returns, and counts at most the recorded events; all of them if it
succeeds. -/
theorem triangulateC_eq [Scalar C] (fuel : Nat) (p : PolyList I V) (xy : V → Coords C) (st : St I C) (F : FanFormat I) :
    (st.triangulateC fuel p xy F).1 = st.triangulate fuel p xy F ∧
      (st.triangulateC fuel p xy F).2 ≤ (innerEvents F.winding fuel p xy st).len ∧
      (∀ o, (st.triangulate fuel p xy F).2 = .ok o →
        (st.triangulateC fuel p xy F).2 = (innerEvents F.winding fuel p xy st).len) := by
  have h : triangulateInnerC (m := CtM F) CtM.tick F.winding fuel p xy st =
      TrE.replay F (innerEvents F.winding fuel p xy st) :=
    ((TrE.replayHom F).triangulateInnerC TrE.tick F.winding fuel p xy st).symm
  obtain ⟨k, h1, h2, h3⟩ := TrE.replay_erase F (innerEvents F.winding fuel p xy st) .uninit 0
  have h' := triangulate_eq_interp fuel p xy st F
  rw [innerEvents_erase] at h2 h3
  refine ⟨?_, ?_, ?_⟩
  · rw [h']
    simp only [St.triangulateC, h, h2]
  · simp only [St.triangulateC, h, h2]; omega
  · intro o ho
    simp only [St.triangulateC, h, h2]
    rw [h'] at ho
    simp only at ho
    rw [Nat.zero_add]
    rcases hr : (interp F (innerTrace F.winding fuel p xy st) .uninit).2 with e | u
    · rw [hr] at ho
      generalize (interp F (innerTrace F.winding fuel p xy st) .uninit).1 = s at ho
      rcases s with _ | b | b | w <;> rcases e with e | _ | _ | _ <;> cases ho
    · exact h3 u hr

end Tri
