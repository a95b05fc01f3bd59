import Verif.Proof.Play

/-!
# Lemmas about instrumented formats
-/

namespace Tri

variable {I V C : Type}

theorem feedB_recorder (w : Winding) (cs l : List (Call I)) :
    feedB (recorder I w) cs l = (l ++ cs, .ok ()) := by
  induction cs generalizing l with
  | nil => simp [feedB]
  | cons c cs ih =>
    cases c with
    | newFan x y z =>
      show feedB (recorder I w) cs (l ++ [.newFan x y z]) = _
      rw [ih]; simp
    | extend v =>
      show feedB (recorder I w) cs (l ++ [.extend v]) = _
      rw [ih]; simp

/-- Outcome of a recording run. -/
def recOutcome (cs : List (Call I)) : Res IErr Unit → Res (TriErr Empty) (List (Call I))
  | .ok () => match cs with
    | [] => .error (.err .noVertices)
    | _ => .ok cs
  | .error e => .error (liftInternal e)

theorem play_recorder (w : Winding) (cs : List (Call I)) (hcs : StartsNew cs) (r : Res IErr Unit) :
    play (recorder I w) cs r = (cs, recOutcome cs r) := by
  cases cs with
  | nil => rcases r with e | u <;> rfl
  | cons c cs =>
    cases c with
    | extend v => exact absurd rfl (hcs v cs)
    | newFan x y z =>
      have h := feedB_recorder w cs [.newFan x y z]
      simp only [play, h]
      rcases r with e | u
      · cases e <;> rfl
      · rfl

/-- The events of making calls on a builder. -/
def evs (F : FanFormat I) : List (Call I) → F.B → List (Ev I F.E)
  | [], _ => []
  | .newFan v0 v1 v2 :: cs, b =>
    match F.newFan b v0 v1 v2 with
    | (b, .ok ()) => .newFan v0 v1 v2 none :: evs F cs b
    | (_, .error e) => [.newFan v0 v1 v2 (some e)]
  | .extend v :: cs, b =>
    match F.extendFan b v with
    | (b, .ok ()) => .extend v none :: evs F cs b
    | (_, .error e) => [.extend v (some e)]

theorem feedB_logged (F : FanFormat I) (cs : List (Call I)) (b : F.B) (l : List (Ev I F.E)) :
    feedB F.logged cs (b, l) = (((feedB F cs b).1, l ++ evs F cs b), (feedB F cs b).2) := by
  induction cs generalizing b l with
  | nil => simp [feedB, evs]
  | cons c cs ih =>
    cases c with
    | newFan x y z =>
      simp only [feedB, evs]
      rcases h : F.newFan b x y z with ⟨b', e | u⟩
      · rfl
      · refine (ih b' (l ++ [.newFan x y z none])).trans ?_
        simp
    | extend v =>
      simp only [feedB, evs]
      rcases h : F.extendFan b v with ⟨b', e | u⟩
      · rfl
      · refine (ih b' (l ++ [.extend v none])).trans ?_
        simp

/-- Either every call succeeds and all were made, or the calls up to and including the failing one
were made. -/
theorem evs_spec (F : FanFormat I) (cs : List (Call I)) (b : F.B) :
    (∃ b', feedB F cs b = (b', .ok ()) ∧ (∀ x ∈ evs F cs b, x.okLater) ∧
        (evs F cs b).filterMap Ev.call? = cs) ∨
      (∃ b' e pre x c, feedB F cs b = (b', .error e) ∧ evs F cs b = pre ++ [x] ∧
        (∀ x ∈ pre, x.okLater) ∧ x.failsWith e ∧ x.call? = some c ∧
        pre.filterMap Ev.call? ++ [c] <+: cs) := by
  induction cs generalizing b with
  | nil => exact .inl ⟨b, rfl, by simp [evs], rfl⟩
  | cons c cs ih =>
    cases c with
    | newFan x y z =>
      simp only [feedB, evs]
      rcases h : F.newFan b x y z with ⟨b', e | u⟩
      · exact .inr ⟨b', e, [], _, _, rfl, rfl, by simp, rfl, rfl, by simp⟩
      · rcases ih b' with ⟨b2, h1, h2, h3⟩ | ⟨b2, e, pre, x', c', h1, h2, h3, h4, h5, h6⟩
        · refine .inl ⟨b2, h1, ?_, ?_⟩
          · intro x hx
            rcases List.mem_cons.1 hx with rfl | hx
            · rfl
            · exact h2 x hx
          · simp [Ev.call?, h3]
        · refine .inr ⟨b2, e, .newFan x y z none :: pre, x', c', h1, by simp [h2], ?_, h4, h5, ?_⟩
          · intro x hx
            rcases List.mem_cons.1 hx with rfl | hx
            · rfl
            · exact h3 x hx
          · simpa [Ev.call?] using h6
    | extend v =>
      simp only [feedB, evs]
      rcases h : F.extendFan b v with ⟨b', e | u⟩
      · exact .inr ⟨b', e, [], _, _, rfl, rfl, by simp, rfl, rfl, by simp⟩
      · rcases ih b' with ⟨b2, h1, h2, h3⟩ | ⟨b2, e, pre, x', c', h1, h2, h3, h4, h5, h6⟩
        · refine .inl ⟨b2, h1, ?_, ?_⟩
          · intro x hx
            rcases List.mem_cons.1 hx with rfl | hx
            · rfl
            · exact h2 x hx
          · simp [Ev.call?, h3]
        · refine .inr ⟨b2, e, .extend v none :: pre, x', c', h1, by simp [h2], ?_, h4, h5, ?_⟩
          · intro x hx
            rcases List.mem_cons.1 hx with rfl | hx
            · rfl
            · exact h3 x hx
          · simpa [Ev.call?] using h6

/-- The last event of a run whose builder was started. -/
def closing (F : FanFormat I) (q : F.B × Res F.E Unit) (r : Res IErr Unit) : Ev I F.E :=
  match q.2 with
  | .error (.err e) => .fail (.fanBuilder e)
  | .error _ => .drop
  | .ok () =>
    match r with
    | .ok () => .build (faultOf (F.build q.1).2)
    | .error (.err e) => .fail (.internal e)
    | .error _ => .drop

/-- The log of a run. -/
def logOf (F : FanFormat I) (cs : List (Call I)) (r : Res IErr Unit) : List (Ev I F.E) :=
  match cs with
  | .newFan x y z :: cs =>
    match F.start x y z with
    | .error (e, _) => [.start x y z (some e)]
    | .ok b => .start x y z none :: evs F cs b ++ [closing F (feedB F cs b) r]
  | _ => []

/-- Logging changes neither the outcome nor the storage. -/
theorem play_logged (F : FanFormat I) (cs : List (Call I)) (r : Res IErr Unit) :
    play F.logged cs r = (((play F cs r).1, logOf F cs r), (play F cs r).2) := by
  rcases cs with _ | ⟨c, cs⟩
  · rcases r with e | u <;> rfl
  · cases c with
    | extend v => rcases r with e | u <;> rfl
    | newFan x y z =>
      simp only [play, logOf]
      rcases h : F.start x y z with ⟨e, w⟩ | b
      · rfl
      · simp only [feedB_logged]
        rcases h2 : feedB F cs b with ⟨b', e | u⟩
        · cases e <;> rfl
        · rcases r with e | u
          · cases e <;> rfl
          · simp only [liftInner, finishB, closing]
            rcases F.build b' with ⟨w', e | o⟩ <;> rfl

theorem logOf_life (F : FanFormat I) (cs : List (Call I)) (hcs : StartsNew cs)
    (r : Res IErr Unit) : LifeCycle (logOf F cs r) (play F cs r).2 := by
  rcases cs with _ | ⟨c, cs⟩
  · rcases r with e | u <;> exact .unused
  · cases c with
    | extend v => exact absurd rfl (hcs v cs)
    | newFan x y z =>
      simp only [play, logOf]
      rcases h : F.start x y z with ⟨e, w⟩ | b
      · exact .startFailed
      · rcases evs_spec F cs b with ⟨b2, h1, h2, h3⟩ | ⟨b2, e, pre, x', c', h1, h2, h3, h4, h5, h6⟩
        · simp only [h1]
          rcases r with e | u
          · cases e with
            | err e => exact .failed h2
            | panic => exact .panicked h2 (by simp)
            | ub => exact .panicked h2 (by simp)
            | timeout => exact .panicked h2 (by simp)
          · simp only [liftInner, finishB, closing]
            rcases F.build b2 with ⟨w', e | o⟩
            · exact .buildFailed h2
            · exact .built h2
        · simp only [h1, h2]
          cases e with
          | err e =>
            have := LifeCycle.callFailed (O := F.O) (a := x) (b := y) (c := z) h3 h4
            simpa [finishB, liftBuilderErr, closing] using this
          | panic =>
            have := LifeCycle.callPanicked (O := F.O) (a := x) (b := y) (c := z) h3 h4 (by simp)
            simpa [finishB, liftBuilderErr, closing] using this
          | ub =>
            have := LifeCycle.callPanicked (O := F.O) (a := x) (b := y) (c := z) h3 h4 (by simp)
            simpa [finishB, liftBuilderErr, closing] using this
          | timeout =>
            have := LifeCycle.callPanicked (O := F.O) (a := x) (b := y) (c := z) h3 h4 (by simp)
            simpa [finishB, liftBuilderErr, closing] using this

theorem okLater_callError {E : Type} {x : Ev I E} (h : x.okLater) : x.callError? = none := by
  cases x <;> simp_all [Ev.okLater, Ev.callError?]

theorem failsWith_callError {E : Type} {x : Ev I E} {e : Fault E} (h : x.failsWith e) :
    x.callError? = some e := by
  cases x <;> simp_all [Ev.failsWith, Ev.callError?]

theorem closing_call (F : FanFormat I) (q : F.B × Res F.E Unit) (r : Res IErr Unit) :
    (closing F q r).call? = none ∧ (closing F q r).callError? = none := by
  unfold closing
  split
  · exact ⟨rfl, rfl⟩
  · exact ⟨rfl, rfl⟩
  · split <;> exact ⟨rfl, rfl⟩

/-- The three possible shapes of a log, with the relation to the recorded calls. -/
theorem logOf_shape (F : FanFormat I) (cs : List (Call I)) (hcs : StartsNew cs)
    (r : Res IErr Unit) :
    (cs = [] ∧ logOf F cs r = []) ∨
    (∃ pre post, logOf F cs r = pre ++ [post] ∧ (∀ x ∈ pre, x.callError? = none) ∧
      post.call? = none ∧ post.callError? = none ∧ pre.filterMap Ev.call? = cs ∧
      ∀ e, r = .error e → (play F cs r).2 = .error (liftInternal e)) ∨
    (∃ pre x post e c, logOf F cs r = pre ++ [x] ++ post ∧
      (∀ x ∈ pre, x.callError? = none) ∧ (∀ x ∈ post, x.call? = none ∧ x.callError? = none) ∧
      x.call? = some c ∧ x.callError? = some e ∧ pre.filterMap Ev.call? ++ [c] <+: cs ∧
      (play F cs r).2 = .error (liftBuilderErr e)) := by
  rcases cs with _ | ⟨c, cs⟩
  · left; rcases r with e | u <;> exact ⟨rfl, rfl⟩
  · right
    cases c with
    | extend v => exact absurd rfl (hcs v cs)
    | newFan x y z =>
      simp only [play, logOf]
      rcases h : F.start x y z with ⟨e, w⟩ | b
      · exact .inr ⟨[], _, [], e, _, rfl, by simp, by simp, rfl, rfl, by simp, rfl⟩
      · rcases evs_spec F cs b with ⟨b2, h1, h2, h3⟩ | ⟨b2, e, pre, x', c', h1, h2, h3, h4, h5, h6⟩
        · left
          have hp : ∀ q ∈ (Ev.start x y z none :: evs F cs b), q.callError? = none := by
            intro q hq
            rcases List.mem_cons.1 hq with rfl | hq
            · rfl
            · exact okLater_callError (h2 q hq)
          have hc : (Ev.start x y z none :: evs F cs b).filterMap Ev.call? = .newFan x y z :: cs := by
            simp [Ev.call?, h3]
          refine ⟨_, _, rfl, hp, (closing_call F _ r).1, (closing_call F _ r).2, hc, ?_⟩
          intro e he
          subst he
          simp only [h1]
          cases e <;> rfl
        · right
          have hp : ∀ q ∈ (Ev.start x y z none :: pre), q.callError? = none := by
            intro q hq
            rcases List.mem_cons.1 hq with rfl | hq
            · rfl
            · exact okLater_callError (h3 q hq)
          have hc : (Ev.start x y z none :: pre : List (Ev I F.E)).filterMap Ev.call? ++ [c'] <+:
              .newFan x y z :: cs := by
            simpa [Ev.call?] using h6
          refine ⟨.start x y z none :: pre, x', [closing F (feedB F cs b) r], e, c', ?_, hp, ?_, h5,
            failsWith_callError h4, hc, ?_⟩
          · simp [h2]
          · intro q hq
            rw [List.mem_singleton.1 hq]
            exact closing_call F _ r
          · simp only [h1]
            cases e <;> rfl

variable [Scalar C] [DecidableEq I]

/-- A run either fails in `trapezoidize` or is the play of a recorded run. -/
theorem triangulate_cases (cfg : Cfg) (fuel : Nat) (p : PolyList I V) (xy : V → Coords C) (w : Winding) :
    (∃ e : Fault TrapErr, ∀ F : FanFormat I, triangulate cfg fuel p xy F = (F.unused,
      .error (match e with
        | .err e => .err (.trapezoidation e)
        | .panic => .panic | .ub => .ub | .timeout => .timeout))) ∨
    (∃ cs r, StartsNew cs ∧ ∀ F : FanFormat I, F.winding = w →
      triangulate cfg fuel p xy F = play F cs r) := by
  unfold triangulate
  rcases trapezoidize cfg fuel p xy with e | st
  · left
    refine ⟨e, fun F => ?_⟩
    cases e <;> rfl
  · right
    refine ⟨(innerTrace w fuel p xy st).calls, (innerTrace w fuel p xy st).res,
      Good.innerTrace _ _ _ _ _, fun F hF => ?_⟩
    subst hF
    exact triangulate_eq_play fuel p xy st F

end Tri
