import Verif.Proof.Trace

/-!
# Runs against a format, in terms of the format's operations only
-/

set_option linter.unusedSectionVars false

namespace Tri

variable {I V C : Type}

/-! ## Recorded runs start with a new fan -/

/-- `cs` is empty or starts with a new fan. -/
def StartsNew (cs : List (Call I)) : Prop := ∀ v l, cs ≠ .extend v :: l

theorem StartsNew.nil : StartsNew ([] : List (Call I)) := by simp [StartsNew]

theorem StartsNew.append {a b : List (Call I)} (ha : StartsNew a) (hb : StartsNew b) :
    StartsNew (a ++ b) := by
  cases a with
  | nil => simpa using hb
  | cons c l =>
    intro v l' h
    simp only [List.cons_append, List.cons.injEq] at h
    exact ha v l (by rw [h.1])

/-- The recorded calls of a run do not start with an extension. -/
def Good {α : Type} (x : TrM I α) : Prop := StartsNew x.calls

namespace TrM

theorem lift_ok {α β : Type} (a : α) (f : α → TrM I β) :
    ((FanM.lift (.ok a) : TrM I α) >>= f : TrM I β) = f a := rfl

theorem lift_error {α β : Type} (e : Fault IErr) (f : α → TrM I β) :
    ((FanM.lift (.error e) : TrM I α) >>= f : TrM I β) = ⟨[], .error e⟩ := rfl

theorem pure_def {α : Type} (a : α) : (pure a : TrM I α) = ⟨[], .ok a⟩ := rfl

theorem pure_bind {α β : Type} (a : α) (f : α → TrM I β) :
    ((pure a : TrM I α) >>= f : TrM I β) = f a := rfl

theorem mk_ok_bind {α β : Type} (cs : List (Call I)) (a : α) (f : α → TrM I β) :
    ((⟨cs, .ok a⟩ : TrM I α) >>= f : TrM I β) = ⟨cs ++ (f a).calls, (f a).res⟩ := rfl

theorem mk_error_bind {α β : Type} (cs : List (Call I)) (e : Fault IErr) (f : α → TrM I β) :
    ((⟨cs, .error e⟩ : TrM I α) >>= f : TrM I β) = ⟨cs, .error e⟩ := rfl

theorem newFan_bind {β : Type} (a b c : I) (f : Unit → TrM I β) :
    ((FanM.newFan a b c : TrM I Unit) >>= f : TrM I β) =
      ⟨.newFan a b c :: (f ()).calls, (f ()).res⟩ := rfl

theorem extendFan_bind {β : Type} (v : I) (f : Unit → TrM I β) :
    ((FanM.extendFan v : TrM I Unit) >>= f : TrM I β) =
      ⟨.extend v :: (f ()).calls, (f ()).res⟩ := rfl

theorem calls_bind {α β : Type} (x : TrM I α) (f : α → TrM I β) :
    (x >>= f : TrM I β).calls = x.calls ++ match x.res with
      | .ok a => (f a).calls
      | .error _ => [] := by
  rcases x with ⟨cs, e | a⟩
  · exact (List.append_nil _).symm
  · rfl

theorem res_bind {α β : Type} (x : TrM I α) (f : α → TrM I β) :
    (x >>= f : TrM I β).res = match x.res with
      | .ok a => (f a).res
      | .error e => .error e := by
  rcases x with ⟨cs, e | a⟩ <;> rfl

theorem bind_assoc {α β γ : Type} (x : TrM I α) (f : α → TrM I β) (g : β → TrM I γ) :
    ((x >>= f) >>= g) = (x >>= fun u => f u >>= g) := by
  rcases x with ⟨cs, e | a⟩
  · rfl
  · simp only [mk_ok_bind]
    rcases f a with ⟨cs', e | b⟩
    · rfl
    · simp [mk_ok_bind]

end TrM

namespace Good
variable {α β : Type}

theorem pure (a : α) : Good (Pure.pure a : TrM I α) := StartsNew.nil

theorem stop (e : Fault IErr) : Good (FanM.stop e : TrM I α) := StartsNew.nil

theorem lift (r : Res IErr α) : Good (FanM.lift r : TrM I α) := by
  cases r <;> exact StartsNew.nil

theorem bind {x : TrM I α} {f : α → TrM I β} (hx : Good x) (hf : ∀ a, Good (f a)) :
    Good (x >>= f) := by
  simp only [Good, TrM.calls_bind] at *
  refine hx.append ?_
  split
  · exact hf _
  · exact StartsNew.nil

theorem newFan_bind (a b c : I) (f : Unit → TrM I β) : Good (FanM.newFan a b c >>= f) := by
  simp only [Good, TrM.calls_bind]
  intro v l h
  cases h

theorem forM {l : List α} {f : α → TrM I Unit} (hf : ∀ a, Good (f a)) : Good (l.forM f) := by
  induction l with
  | nil => exact pure _
  | cons a l ih => exact bind (hf a) fun _ => ih

variable [Scalar C]

/-- Deferred fans emit nothing before they are finished. -/
theorem backLoop_deferred (fuel : Nat) (M : Mono I C) (dt : Nat) :
    (Mono.backLoop (m := TrM I) fuel M (.deferred dt)).calls = [] ∧
      ∀ M' b, (Mono.backLoop (m := TrM I) fuel M (.deferred dt)).res = .ok (M', b) →
        ∃ dt', b = .deferred dt' := by
  induction fuel generalizing M dt with
  | zero => exact ⟨rfl, fun _ _ h => by cases h⟩
  | succ k ih =>
    simp only [Mono.backLoop]
    cases h1 : M.canTriangulate with
    | error e => exact ⟨rfl, fun _ _ h => by cases h⟩
    | ok g =>
      rw [TrM.lift_ok]
      cases g with
      | false => exact ⟨rfl, fun M' b h => ⟨dt, by cases h; rfl⟩⟩
      | true =>
        simp only [if_true]
        cases h2 : M.skippedPop with
        | error e => exact ⟨rfl, fun _ _ h => by cases h⟩
        | ok r =>
          rw [TrM.lift_ok]
          obtain ⟨a, M1⟩ := r
          simp only
          cases h3 : M1.skippedPeek with
          | error e => exact ⟨rfl, fun _ _ h => by cases h⟩
          | ok v =>
            rw [TrM.lift_ok]
            simp only [Mono.Bodt.addTriangle]
            rw [TrM.pure_bind]
            exact ih M1 (dt + 1)

theorem advLoop_deferred (fuel : Nat) (M : Mono I C) (dt : Nat) :
    (Mono.advLoop (m := TrM I) fuel M (.deferred dt)).calls = [] ∧
      ∀ M' b, (Mono.advLoop (m := TrM I) fuel M (.deferred dt)).res = .ok (M', b) →
        ∃ dt', b = .deferred dt' := by
  induction fuel generalizing M dt with
  | zero => exact ⟨rfl, fun _ _ h => by cases h⟩
  | succ k ih =>
    simp only [Mono.advLoop]
    cases h1 : M.canTriangulate with
    | error e => exact ⟨rfl, fun _ _ h => by cases h⟩
    | ok g =>
      rw [TrM.lift_ok]
      cases g with
      | false => exact ⟨rfl, fun M' b h => ⟨dt, by cases h; rfl⟩⟩
      | true =>
        simp only [if_true]
        cases h2 : M.skippedPop with
        | error e => exact ⟨rfl, fun _ _ h => by cases h⟩
        | ok r =>
          rw [TrM.lift_ok]
          obtain ⟨a, M1⟩ := r
          simp only
          cases h3 : M1.pendingPeek with
          | error e => exact ⟨rfl, fun _ _ h => by cases h⟩
          | ok v =>
            rw [TrM.lift_ok]
            simp only [Mono.Bodt.addTriangle]
            rw [TrM.pure_bind]
            cases h4 : M1.transferPending with
            | error e => exact ⟨rfl, fun _ _ h => by cases h⟩
            | ok M2 =>
              rw [TrM.lift_ok]
              exact ih M2 (dt + 1)

theorem growFan_deferred (bt : Bool) (M : Mono I C) (dt : Nat) :
    (Mono.growFan (m := TrM I) bt M (.deferred dt)).calls = [] ∧
      ∀ M' b, (Mono.growFan (m := TrM I) bt M (.deferred dt)).res = .ok (M', b) →
        ∃ dt', b = .deferred dt' := by
  cases bt with
  | true =>
    simp only [Mono.growFan, if_true]
    cases h2 : M.skippedPop with
    | error e => exact ⟨rfl, fun _ _ h => by cases h⟩
    | ok r =>
      rw [TrM.lift_ok]
      obtain ⟨a, M1⟩ := r
      simp only
      cases h3 : M1.skippedPeek with
      | error e => exact ⟨rfl, fun _ _ h => by cases h⟩
      | ok v =>
        rw [TrM.lift_ok]
        simp only [Mono.Bodt.addTriangle]
        rw [TrM.pure_bind]
        exact backLoop_deferred ..
  | false =>
    simp only [Mono.growFan, Bool.false_eq_true, if_false]
    cases h2 : M.transferPending with
    | error e => exact ⟨rfl, fun _ _ h => by cases h⟩
    | ok M1 =>
      rw [TrM.lift_ok]
      exact advLoop_deferred ..

theorem fanStep (w : Winding) (M : Mono I C) : Good (Mono.fanStep (m := TrM I) w M) := by
  simp only [Mono.fanStep]
  refine bind (lift _) fun ⟨v1, M1⟩ => ?_
  refine bind (lift _) fun v0 => ?_
  refine bind (lift _) fun v2 => ?_
  refine bind (lift _) fun bt => ?_
  simp only [Mono.startFan]
  split
  · rw [TrM.bind_assoc]
    exact newFan_bind _ _ _ _
  · rw [TrM.pure_bind]
    have h := growFan_deferred bt M1 1 (C := C)
    cases hx : (Mono.growFan (m := TrM I) bt M1 (.deferred 1)).res with
    | error e =>
      simp only [Good, TrM.calls_bind, h.1, hx]
      exact StartsNew.nil
    | ok r =>
      obtain ⟨M', b⟩ := r
      obtain ⟨dt', rfl⟩ := h.2 M' b hx
      simp only [Good, TrM.calls_bind, h.1, hx, List.nil_append]
      have : Good (Mono.finishFan (m := TrM I) bt M' (.deferred dt')) := by
        simp only [Mono.finishFan, Mono.emitDeferred]
        refine bind (lift _) fun _ => bind (lift _) fun _ => ?_
        exact newFan_bind _ _ _ _
      refine StartsNew.append this ?_
      split <;> exact StartsNew.nil

theorem buildFans (w : Winding) (fuel : Nat) (M : Mono I C) :
    Good (Mono.buildFans (m := TrM I) w fuel M) := by
  induction fuel generalizing M with
  | zero => exact stop _
  | succ k ih =>
    simp only [Mono.buildFans]
    refine bind (lift _) fun r => ?_
    split
    · refine bind ?_ fun M1 => bind (lift _) fun M2 => ih M2
      simp only [Mono.maybeFan]
      refine bind (lift _) fun b => ?_
      split
      · exact fanStep w M
      · exact pure _
    · split
      · exact pure _
      · exact stop _

theorem finishMonotone (w : Winding) (fuel : Nat) (b : MonoB I C) :
    Good (Tri.finishMonotone (m := TrM I) w fuel b) := by
  simp only [Tri.finishMonotone]
  refine bind (lift _) fun r => ?_
  split
  · exact buildFans _ _ _
  · exact pure _

theorem triStep (w : Winding) (fuel : Nat) (p : PolyList I V) (xy : V → Coords C) (st : St I C)
    (x : TI I C) (t : Trapezoid) (niDown : Nat) :
    Good (Tri.triStep (m := TrM I) w fuel p xy st x t niDown) := by
  simp only [Tri.triStep]
  refine bind (lift _) fun nDown => bind ?_ fun x => bind (lift _) fun ft => ?_
  · simp only [Tri.updateMonotones]
    split
    · exact pure _
    · refine bind ?_ fun _ => pure _
      simp only [Tri.advanceMonotones]
      refine bind (lift _) fun _ => bind (lift _) fun _ => bind (lift _) fun _ => ?_
      split
      · exact pure _
      · exact bind (finishMonotone _ _ _) fun _ => lift _
  · cases ft with
    | V =>
      simp only [Tri.descend, Tri.descendV]
      refine bind ?_ fun _ => lift _
      simp only [Tri.joinV]
      split
      · exact pure _
      · split
        · exact bind (lift _) fun _ => pure _
        · split
          · exact bind (forM fun _ => finishMonotone _ _ _) fun _ => pure _
          · split
            · split
              · exact stop _
              · exact bind (lift _) fun _ => pure _
            · exact stop _
    | I =>
      simp only [Tri.descend, Tri.descendI]
      split
      · exact pure _
      · split
        · exact pure _
        · exact stop _
    | A =>
      simp only [Tri.descend, Tri.descendA]
      split
      · exact bind (lift _) fun _ => pure _
      · exact pure _

theorem innerTrace (w : Winding) (fuel : Nat) (p : PolyList I V) (xy : V → Coords C)
    (st : St I C) : StartsNew (Tri.innerTrace w fuel p xy st).calls := by
  show Good (triangulateInner (m := TrM I) w fuel p xy st)
  simp only [triangulateInner]
  refine bind (lift _) fun ti => ?_
  generalize (⟨ti, none, [], []⟩ : TI I C) = x
  generalize hk : fuel = k
  conv => arg 1; arg 2; rw [← hk]
  clear hk
  induction k generalizing x with
  | zero => exact stop _
  | succ k ih =>
    simp only [triLoop]
    refine bind (lift _) fun t => ?_
    split
    · exact bind (triStep _ _ _ _ _ _ _ _) fun x => ih x
    · split
      · exact stop _
      · split
        · exact stop _
        · split
          · exact stop _
          · exact pure _

end Good

/-! ## Playing a recorded run against a format -/

/-- Makes calls on a builder, stopping at the first error. -/
def feedB (F : FanFormat I) : List (Call I) → F.B → F.B × Res F.E Unit
  | [], b => (b, .ok ())
  | .newFan v0 v1 v2 :: cs, b =>
    match F.newFan b v0 v1 v2 with
    | (b, .ok ()) => feedB F cs b
    | (b, .error e) => (b, .error e)
  | .extend v :: cs, b =>
    match F.extendFan b v with
    | (b, .ok ()) => feedB F cs b
    | (b, .error e) => (b, .error e)

/-- The end of a run whose builder is `b`. -/
def finishB (F : FanFormat I) (b : F.B) : Res (TriErr F.E) Unit → F.W × Res (TriErr F.E) F.O
  | .ok () =>
    match F.build b with
    | (w, .ok o) => (w, .ok o)
    | (w, .error e) => (w, .error (liftBuilderErr e))
  | .error (.err e) => (F.fail b e, .error (.err e))
  | .error .panic => (F.drop b, .error .panic)
  | .error .ub => (F.drop b, .error .ub)
  | .error .timeout => (F.drop b, .error .timeout)

/-- The outcome of the triangulation code, as seen by a format's caller. -/
def liftInner {E : Type} : Res IErr Unit → Res (TriErr E) Unit
  | .ok () => .ok ()
  | .error e => .error (liftInternal e)

/-- A run with recorded calls `cs` and own outcome `r` against the format `F`. -/
def play (F : FanFormat I) (cs : List (Call I)) (r : Res IErr Unit) :
    F.W × Res (TriErr F.E) F.O :=
  match cs with
  | .newFan v0 v1 v2 :: cs =>
    match F.start v0 v1 v2 with
    | .error (e, w) => (w, .error (liftBuilderErr e))
    | .ok b =>
      match feedB F cs b with
      | (b, .ok ()) => finishB F b (liftInner r)
      | (b, .error e) => finishB F b (.error (liftBuilderErr e))
  | _ =>
    match r with
    | .ok () => (F.unused, .error (.err .noVertices))
    | .error e => (F.unused, .error (liftInternal e))

theorem complete_init {F : FanFormat I} (b : F.B) (r : Res (TriErr F.E) Unit) :
    (FBS.init b : FBS F).complete r = finishB F b r := by
  rcases r with e | u
  · cases e <;> rfl
  · rfl

theorem feed_init (F : FanFormat I) (cs : List (Call I)) (b : F.B) (r : Res IErr Unit) :
    (let q := interp F ⟨cs, r⟩ (.init b); q.1.complete q.2) =
      match feedB F cs b with
      | (b, .ok ()) => finishB F b (liftInner r)
      | (b, .error e) => finishB F b (.error (liftBuilderErr e)) := by
  induction cs generalizing b with
  | nil =>
    rcases r with e | u
    · exact complete_init b _
    · exact complete_init b _
  | cons c cs ih =>
    cases c with
    | newFan x y z =>
      have e1 : interp F ⟨.newFan x y z :: cs, r⟩ (.init b) =
          match F.newFan b x y z with
          | (b, .ok ()) => interp F ⟨cs, r⟩ (.init b)
          | (b, .error e) => (.error b, .error (liftBuilderErr e)) := by
        simp only [interp, feed, FBS.newFan]
        rcases F.newFan b x y z with ⟨b', e | u⟩ <;> rfl
      simp only [e1, feedB]
      rcases F.newFan b x y z with ⟨b', e | u⟩
      · cases e <;> rfl
      · exact ih b'
    | extend v =>
      have e1 : interp F ⟨.extend v :: cs, r⟩ (.init b) =
          match F.extendFan b v with
          | (b, .ok ()) => interp F ⟨cs, r⟩ (.init b)
          | (b, .error e) => (.init b, .error (liftBuilderErr e)) := by
        simp only [interp, feed, FBS.extendFan]
        rcases F.extendFan b v with ⟨b', e | u⟩ <;> rfl
      simp only [e1, feedB]
      rcases F.extendFan b v with ⟨b', e | u⟩
      · cases e <;> rfl
      · exact ih b'

theorem interp_eq_play (F : FanFormat I) (cs : List (Call I)) (hcs : StartsNew cs)
    (r : Res IErr Unit) :
    (let q := interp F ⟨cs, r⟩ .uninit; q.1.complete q.2) = play F cs r := by
  cases cs with
  | nil =>
    rcases r with e | u
    · cases e <;> rfl
    · rfl
  | cons c cs =>
    cases c with
    | extend v => exact absurd rfl (hcs v cs)
    | newFan x y z =>
      have e1 : interp F ⟨.newFan x y z :: cs, r⟩ .uninit =
          match F.start x y z with
          | .ok b => interp F ⟨cs, r⟩ (.init b)
          | .error (e, w) => (.dead w, .error (liftBuilderErr e)) := by
        simp only [interp, feed, FBS.newFan]
        rcases F.start x y z with e | u <;> rfl
      simp only [e1, play]
      rcases hs : F.start x y z with e | b
      · rcases e with ⟨e, w⟩
        cases e <;> rfl
      · exact feed_init F cs b r

/-- A run against a format is the recorded run played against the format. -/
theorem triangulate_eq_play [Scalar C] (fuel : Nat) (p : PolyList I V) (xy : V → Coords C)
    (st : St I C) (F : FanFormat I) :
    st.triangulate fuel p xy F =
      play F (innerTrace F.winding fuel p xy st).calls (innerTrace F.winding fuel p xy st).res := by
  rw [triangulate_eq_interp]
  exact interp_eq_play F _ (Good.innerTrace _ _ _ _ _) _

end Tri
