import Verif.Proof.Logged
import Verif.Spec.Exact

/-!
# C11, C12, C13, C30, C35: what a format gets to see
-/

namespace Tri

variable {I V C : Type} [Scalar C] [DecidableEq I]

/-- **C11.**  The calls made on any format `F` are determined by the polygons and `F`'s winding: `rec`
is the run with an infallible format that only writes its calls down.  The log of the run with `F` is
faithful (logging changes nothing), its calls are a prefix of `rec`'s calls; without a failing call
they are all of them and the run of the library ends as it does for `rec`; a failing call is the last
call made and its error is what the caller gets. -/
theorem C11_format_cannot_influence (cfg : Cfg) (fuel : Nat) (p : PolyList I V) (xy : V → Coords C)
    (F : FanFormat I) :
    let rec_ := triangulate cfg fuel p xy (recorder I F.winding)
    let run := triangulate cfg fuel p xy F.logged
    let log := run.1.2
    let calls := log.filterMap Ev.call?
    (run.1.1, run.2) = triangulate cfg fuel p xy F ∧
    calls <+: rec_.1 ∧
    ((∀ x ∈ log, x.callError? = none) →
      calls = rec_.1 ∧ ∀ e, rec_.2 = .error e → run.2 = .error (castFault e)) ∧
    (∀ x ∈ log, ∀ e, x.callError? = some e →
      run.2 = .error (liftBuilderErr e) ∧ calls.getLast? = x.call?) := by
  rcases triangulate_cases cfg fuel p xy F.winding with ⟨e, h⟩ | ⟨cs, r, hcs, h⟩
  · simp only [h]
    refine ⟨trivial, by simp, fun _ => ⟨by simp, ?_⟩, by simp⟩
    intro e' he'
    cases e <;> cases he' <;> rfl
  · have h1 := h F rfl
    have h2 := h F.logged rfl
    have h3 := h (recorder I F.winding) rfl
    rw [play_logged] at h2
    rw [play_recorder _ _ hcs] at h3
    simp only [h1, h2, h3]
    refine ⟨trivial, ?_⟩
    rcases logOf_shape F cs hcs r with ⟨hc, hl⟩ | ⟨pre, post, hl, hp, hq, hq', hc, ho⟩ |
        ⟨pre, x, post, e, c, hl, hp, hq, hx, hx', hc, ho⟩
    · subst hc
      simp only [hl]
      refine ⟨by simp, fun _ => ⟨by simp, ?_⟩, by simp⟩
      intro e he
      rcases r with e' | u
      · cases e' <;> cases he <;> rfl
      · cases he; rfl
    · have hcalls : (logOf F cs r).filterMap Ev.call? = cs := by
        rw [hl]; simp [hq, hc]
      rw [hcalls]
      refine ⟨List.prefix_refl _, fun _ => ⟨rfl, ?_⟩, ?_⟩
      · intro e he
        rcases r with e' | u
        · have := ho e' rfl
          rw [this]
          cases e' <;> cases he <;> rfl
        · rcases cs with _ | ⟨c, cs⟩
          · cases he; rfl
          · cases he
      · intro x hx e hxe
        rw [hl] at hx
        rcases List.mem_append.1 hx with hx | hx
        · rw [hp x hx] at hxe; cases hxe
        · rw [List.mem_singleton.1 hx, hq'] at hxe; cases hxe
    · have hpost : post.filterMap Ev.call? = [] := by
        rw [List.filterMap_eq_nil_iff]
        intro a ha; exact (hq a ha).1
      have hcalls : (logOf F cs r).filterMap Ev.call? = pre.filterMap Ev.call? ++ [c] := by
        rw [hl]; simp [hx, hpost]
      rw [hcalls]
      refine ⟨hc, fun hall => ?_, ?_⟩
      · have := hall x (by rw [hl]; simp)
        rw [this] at hx'; cases hx'
      · intro y hy e' hye
        rw [hl] at hy
        simp only [List.append_assoc, List.mem_append, List.mem_singleton] at hy
        rcases hy with hy | rfl | hy
        · rw [hp y hy] at hye; cases hye
        · rw [hx'] at hye
          cases hye
          exact ⟨ho, by simp [hx]⟩
        · rw [(hq y hy).2] at hye; cases hye

/-- **C12.**  Whatever the polygons and the format, the log of the run is a proper life of a format
(see `LifeCycle`): `build` exactly once and only in a run whose calls all succeeded, otherwise `fail`
exactly once with the error that is returned, no call after a failed one, nothing at all on a format
that was not started. -/
theorem C12_life_cycle (cfg : Cfg) (fuel : Nat) (p : PolyList I V) (xy : V → Coords C)
    (F : FanFormat I) :
    let run := triangulate cfg fuel p xy F.logged
    LifeCycle run.1.2 run.2 := by
  rcases triangulate_cases cfg fuel p xy F.winding with ⟨e, h⟩ | ⟨cs, r, hcs, h⟩
  · rw [h]
    exact .unused
  · have h2 := h F.logged rfl
    rw [play_logged] at h2
    simp only [h2]
    exact logOf_life F cs hcs r

/-- **C13.**  If anything reaches a format at all, the first thing is `initialize` with the first
triangle, and `initialize` is not called again; so `new_fan` and `extend_fan` only happen on a builder
that already has a current fan. -/
theorem C13_initialize_first (cfg : Cfg) (fuel : Nat) (p : PolyList I V) (xy : V → Coords C)
    (F : FanFormat I) :
    let log := (triangulate cfg fuel p xy F.logged).1.2
    log = [] ∨ ∃ a b c r l, log = .start a b c r :: l ∧ (∀ x ∈ l, x.isStart = false) ∧
      (r ≠ none → l = []) := by
  have hok : ∀ {x : Ev I F.E}, x.okLater → x.isStart = false := by
    intro x h; cases x <;> simp_all [Ev.okLater, Ev.isStart]
  have hf : ∀ {x : Ev I F.E} {e}, x.failsWith e → x.isStart = false := by
    intro x e h; cases x <;> simp_all [Ev.failsWith, Ev.isStart]
  have key : ∀ (a b c : I) (l tail : List (Ev I F.E)), (∀ x ∈ l, x.okLater) →
      (∀ x ∈ tail, x.isStart = false) → ∃ a' b' c' r l',
        (Ev.start a b c none :: l ++ tail) = Ev.start a' b' c' r :: l' ∧
          (∀ x ∈ l', x.isStart = false) ∧ (r ≠ none → l' = []) := by
    intro a b c l tail h1 h2
    refine ⟨a, b, c, none, l ++ tail, rfl, fun x hx => ?_, by simp⟩
    rcases List.mem_append.1 hx with hx | hx
    · exact hok (h1 x hx)
    · exact h2 x hx
  intro log
  have h := C12_life_cycle cfg fuel p xy F
  simp only at h
  change LifeCycle log _ at h
  generalize log = log at h ⊢
  generalize (triangulate cfg fuel p xy F.logged).2 = out at h
  cases h with
  | unused => exact .inl rfl
  | startFailed => exact .inr ⟨_, _, _, _, _, rfl, by simp, by simp⟩
  | built h => exact .inr (key _ _ _ _ _ h (by simp [Ev.isStart]))
  | buildFailed h => exact .inr (key _ _ _ _ _ h (by simp [Ev.isStart]))
  | callFailed h h' => exact .inr (key _ _ _ _ _ h (by simp only [List.mem_cons, List.not_mem_nil, or_false]; rintro x (rfl | rfl); exacts [hf h', rfl]))
  | failed h => exact .inr (key _ _ _ _ _ h (by simp [Ev.isStart]))
  | callPanicked h h' => exact .inr (key _ _ _ _ _ h (by simp only [List.mem_cons, List.not_mem_nil, or_false]; rintro x (rfl | rfl); exacts [hf h', rfl]))
  | panicked h => exact .inr (key _ _ _ _ _ h (by simp [Ev.isStart]))

/-- **C30.**  `triangulate` is `trapezoidize` followed by `Trapezoidation::triangulate` (with the
error of the former wrapped).  `Trapezoidation::triangulate` takes `&self` and is a function of the
trapezoidation, the polygons and the format, so repeating it gives the same result. -/
theorem C30_trapezoidize_then_triangulate (cfg : Cfg) (fuel : Nat) (p : PolyList I V)
    (xy : V → Coords C) (F : FanFormat I) :
    (∀ st, trapezoidize cfg fuel p xy = .ok st →
      triangulate cfg fuel p xy F = st.triangulate fuel p xy F) ∧
    (∀ e, trapezoidize cfg fuel p xy = .error (.err e) →
      triangulate cfg fuel p xy F = (F.unused, .error (.err (.trapezoidation e)))) ∧
    (trapezoidize cfg fuel p xy = .error .panic →
      triangulate cfg fuel p xy F = (F.unused, .error .panic)) := by
  refine ⟨fun st h => ?_, fun e h => ?_, fun h => ?_⟩ <;> simp [triangulate, h, Res.mapErr]

/-- **C35.**  Reversing a winding twice gives it back, reversing it once never does, and a format
reversed twice behaves as the original in every run. -/
theorem C35_reverse_twice :
    (∀ w : Winding, w.reverse.reverse = w ∧ w.reverse ≠ w) ∧
    ∀ (cfg : Cfg) (fuel : Nat) (p : PolyList I V) (xy : V → Coords C) (F : FanFormat I),
      F.reverseWinding.reverseWinding.winding = F.winding ∧
      triangulate cfg fuel p xy F.reverseWinding.reverseWinding = triangulate cfg fuel p xy F := by
  have h : ∀ w : Winding, w.reverse.reverse = w ∧ w.reverse ≠ w := by
    intro w; cases w <;> decide
  refine ⟨h, fun cfg fuel p xy F => ⟨(h _).1, ?_⟩⟩
  have : F.reverseWinding.reverseWinding = F := by
    cases F
    simp [FanFormat.reverseWinding, (h _).1]
  have key : ∀ G : FanFormat I, ∀ hG : G = F, HEq (triangulate cfg fuel p xy G)
      (triangulate cfg fuel p xy F) := by
    intro G hG; subst hG; rfl
  exact eq_of_heq (key _ this)

section Examples

attribute [local instance] exact

/-- A format that rejects every extension. -/
abbrev noExtend : FanFormat Nat :=
  { indexedFan (FS := List (List Nat)) [] with
    E := String
    start := fun a b c => .ok (GenericFans.new [] a b c)
    newFan := fun b a c d => (b.newFan a c d, .ok ())
    extendFan := fun b _ => (b, .error (.err "no"))
    build := fun b => (b.build, .ok b.build)
    fail := fun b _ => b.fail }

/-- The calls for the dart, and what a format sees that rejects the second one. -/
example :
    (triangulate (Cfg.plain (fun _ _ => 1) true) 40 (PolyList.single dart) id
      (recorder Nat .counterclockwise)).1 = [.newFan 0 1 2, .extend 3] := by
  decide +kernel

example :
    ((triangulate (Cfg.plain (fun _ _ => 1) true) 40 (PolyList.single dart) id
      noExtend.logged).1.2.filterMap Ev.call?) = [.newFan 0 1 2, .extend 3] := by
  decide +kernel

example :
    (triangulate (Cfg.plain (fun _ _ => 1) true) 40 (PolyList.single dart) id noExtend).2 =
      .error (.err (.fanBuilder "no")) := by
  decide +kernel

end Examples

end Tri
