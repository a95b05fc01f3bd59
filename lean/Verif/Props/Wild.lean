import Verif.Proof.Ending
import Verif.Proof.WildBuild
import Verif.Proof.WildRefine
import Verif.Proof.WildTriRefine
import Verif.Proof.WildTriSafe
import Verif.Spec.Ending
import Verif.Spec.Format
import Verif.Spec.Exact

/-!
# C48, C49: user code that answers anything

`Wild.trapezoidize` is `trapezoidize` with every call of user code (`get_vertex`, `x`, `y`, comparisons and arithmetic
on coordinates, `==` and `clone` of indices, `zero`) replaced by an arbitrary result, chosen anew at each call.
`Wild.triangulate` is `triangulate` in the same way; the results of the format (`new`, `new_fan`, `extend_fan`, `build`,
`fail`) are arbitrary too.
-/

namespace Tri

section
variable {I C : Type}

/-- **C48.**  Safe code of the user cannot make trapezoidation read out of bounds or run forever, nor make it panic in
a release build, except by panicking itself: whatever the index iterator yields and whatever each call of user code
answers, independently of earlier answers. -/
theorem C48_user_code_cannot_break_trapezoidation (up : Bool) (cfg : Cfg) (hcfg : cfg.Valid) (fuel : Nat)
    (es : List (Option (Elem I))) (r : Res TrapErr (St I C)) (h : Wild.trapezoidize up cfg fuel es r) :
    r ≠ .error .ub ∧
    (2 * es.length + 3 ≤ fuel → r ≠ .error .timeout) ∧
    (r = .error .panic → cfg.debug = true ∨ up = true ∨ none ∈ es) := by
  refine ⟨?_, fun hf => ?_, ?_⟩
  · have := trapezoidize_W (C := C) (up := up) (E := (· ≠ .ub)) (fun e => by simp) (fun _ => by simp) cfg hcfg
      (fun _ => by simp) es (fuel := fuel) (.inl (by simp)) (fun _ => by simp) r h
    rintro rfl
    exact this rfl
  · have := trapezoidize_W (C := C) (up := up) (E := (· ≠ .timeout)) (fun e => by simp) (fun _ => by simp) cfg hcfg
      (fun _ => by simp) es (fuel := fuel) (.inr (by
        classical
        have h1 := conts_le es
        unfold enough
        omega)) (fun _ => by simp) r h
    rintro rfl
    exact this rfl
  · have := trapezoidize_W (C := C) (up := up)
      (E := fun e => e = .panic → cfg.debug = true ∨ up = true ∨ none ∈ es) (fun e => by simp) (fun h _ => .inr (.inl h))
      cfg hcfg (fun h _ => .inl h) es (fuel := fuel) (.inl (by simp)) (fun h _ => .inr (.inr h)) r h
    rintro rfl
    exact this rfl

/-- C48 speaks about all runs of the other properties: a coordinate type, an index type and a `PolygonList` that answer
consistently are a special case. -/
theorem C48_covers_consistent_code {V : Type} [Scalar C] [DecidableEq I] (cfg : Cfg) (fuel : Nat) (p : PolyList I V)
    (xy : V → Coords C) : Wild.trapezoidize true cfg fuel p.elems (trapezoidize cfg fuel p xy) :=
  trapezoidize_mem cfg fuel p xy

/-- **C49.**  Neither can safe code of the user, including the output format, make the whole triangulation read out of
bounds, nor make it panic in a release build except by panicking itself.  (It can make it run forever: C40.) -/
theorem C49_user_code_cannot_break_triangulation {E O : Type} (up : Bool) (cfg : Cfg) (hcfg : cfg.Valid) (w : Winding)
    (fuel : Nat) (es : List (Option (Elem I))) (r : Res (TriErr E) O)
    (h : Wild.triangulate C up cfg w fuel es r) :
    r ≠ .error .ub ∧ (r = .error .panic → cfg.debug = true ∨ up = true ∨ none ∈ es) := by
  obtain ⟨t, ht, h⟩ := h
  obtain ⟨h1, -, h3⟩ := C48_user_code_cannot_break_trapezoidation up cfg hcfg fuel es t ht
  rcases t with (e | _ | _ | _) | st
  · cases h
    exact ⟨by simp, by simp⟩
  · cases h
    exact ⟨by simp, fun _ => h3 rfl⟩
  · exact absurd rfl h1
  · cases h
    exact ⟨by simp, by simp⟩
  · have hwf := (trapezoidize_W (C := C) (up := up) (E := fun _ => True) (fun _ => trivial) (fun _ => trivial) cfg hcfg
      (fun _ => trivial) es (fuel := fuel) (.inl trivial) (fun _ => trivial) _ ht).1
    have hf : ∀ e, r = .error e → WildFault up e := fun e he => stTriangulate_fault w fuel hwf h he
    constructor
    · intro he
      rcases hf _ he with h | ⟨_, h⟩ | ⟨_, h⟩ <;> cases h
    · intro he
      rcases hf _ he with h | ⟨_, h⟩ | ⟨h, _⟩
      · cases h
      · cases h
      · exact .inr (.inl h)

/-- C49 speaks about all runs of the other properties, for every format that has no undefined behaviour and no endless
loop of its own. -/
theorem C49_covers_consistent_code {V : Type} [Scalar C] [DecidableEq I] (cfg : Cfg) (fuel : Nat) (p : PolyList I V)
    (xy : V → Coords C) (F : FanFormat I) (hu : F.Never .ub) (ht : F.Never .timeout) :
    Wild.triangulate C true cfg F.winding fuel p.elems (triangulate cfg fuel p xy F).2 := by
  refine ⟨_, trapezoidize_mem cfg fuel p xy, ?_⟩
  unfold triangulate
  rcases trapezoidize cfg fuel p xy with e | st
  · cases e <;> rfl
  · exact stTriangulate_mem hu ht fuel p xy st

/-- The first call of user code panics. -/
example (cfg : Cfg) (fuel : Nat) (i : I) (es : List (Option (Elem I))) :
    Wild.trapezoidize true cfg fuel (some (.cont i) :: es) (.error .panic : Res TrapErr (St I C)) :=
  ⟨.error .panic, ⟨_, ⟨_, .inr ⟨rfl, rfl⟩, rfl⟩, rfl⟩, rfl⟩

end

section
attribute [local instance] exact

/-- A run that succeeds. -/
example : ∃ st : St Nat Int,
    Wild.trapezoidize true (.plain (fun _ _ => 1) true) 60 (PolyList.single dart).elems (.ok st) ∧
      st.ns.length = 4 ∧ st.ss.length = 4 := by
  have h : ((trapezoidize (.plain (fun _ _ => 1) true) 60 (PolyList.single dart) id).toOption.map
      fun st => (st.ns.length, st.ss.length)) = some (4, 4) := by decide +kernel
  rcases hr : trapezoidize (.plain (fun _ _ => 1) true) 60 (PolyList.single dart) id with e | st
  · rw [hr] at h
    cases h
  · refine ⟨st, hr ▸ C48_covers_consistent_code _ _ _ _, ?_⟩
    rw [hr] at h
    have : (st.ns.length, st.ss.length) = (4, 4) := Option.some.inj h
    exact ⟨congrArg Prod.fst this, congrArg Prod.snd this⟩

/-- A whole run that succeeds: the two fans of a dart. -/
example : Wild.triangulate Int true (.plain (fun _ _ => 1) true) .counterclockwise 60 (PolyList.single dart).elems
    (triangulate (.plain (fun _ _ => 1) true) 60 (PolyList.single dart) id (recorder Nat .counterclockwise)).2 ∧
    (triangulate (.plain (fun _ _ => 1) true) 60 (PolyList.single dart) id
      (recorder Nat .counterclockwise)).2.toOption.isSome := by
  refine ⟨C49_covers_consistent_code _ _ _ _ (recorder Nat .counterclockwise) ?_ ?_, by decide +kernel⟩ <;>
    exact ⟨fun _ _ _ _ h => (by cases h), fun _ _ _ _ h => (by cases h), fun _ _ h => (by cases h), fun _ h => (by cases h)⟩

/-- The format panics at the first triangle. -/
example : ∃ r : Res (TriErr Empty) Unit,
    Wild.triangulate Int true (.plain (fun _ _ => 1) false) .counterclockwise 60 (PolyList.single dart).elems r ∧
      r = .error .panic := by
  let F : FanFormat Nat := {
    B := Unit, W := Unit, E := Empty, O := Unit, winding := .counterclockwise,
    start := fun _ _ _ => .error (.panic, ()), newFan := fun _ _ _ _ => ((), .ok ()), extendFan := fun _ _ => ((), .ok ()),
    build := fun _ => ((), .ok ()), fail := fun _ _ => (), drop := fun _ => (), unused := () }
  refine ⟨_, C49_covers_consistent_code _ _ _ id F ?_ ?_, by decide +kernel⟩ <;>
    exact ⟨fun _ _ _ _ h => (by cases h), fun _ _ _ _ h => (by cases h), fun _ _ h => (by cases h), fun _ h => (by cases h)⟩

end
end Tri
