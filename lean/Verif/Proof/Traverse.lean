import Verif.Proof.Play

/-!
# The traversal without the triangulation of chains

`BM` runs record the chains that are finished; replaying them with `finishMonotone` gives the recorded
run of `triangulate_inner`.
-/

set_option linter.unusedSectionVars false

namespace Tri

variable {I V C : Type}

/-- Runs that list the finished chains. -/
@[ext] structure BM (I C α : Type) where
  done : List (MonoB I C)
  res : Res IErr α

instance : Monad (BM I C) where
  pure a := ⟨[], .ok a⟩
  bind x f :=
    match x.res with
    | .ok a => ⟨x.done ++ (f a).done, (f a).res⟩
    | .error e => ⟨x.done, .error e⟩

namespace BM

/-- A run that finishes no chain. -/
def lift {α : Type} (r : Res IErr α) : BM I C α := ⟨[], r⟩

/-- Finishing one chain. -/
def finish (b : MonoB I C) : BM I C Unit := ⟨[b], .ok ()⟩

theorem pure_def {α : Type} (a : α) : (pure a : BM I C α) = ⟨[], .ok a⟩ := rfl

theorem mk_ok_bind {α β : Type} (bs : List (MonoB I C)) (a : α) (f : α → BM I C β) :
    (⟨bs, .ok a⟩ : BM I C α) >>= f = ⟨bs ++ (f a).done, (f a).res⟩ := rfl

theorem mk_error_bind {α β : Type} (bs : List (MonoB I C)) (e : Fault IErr) (f : α → BM I C β) :
    (⟨bs, .error e⟩ : BM I C α) >>= f = ⟨bs, .error e⟩ := rfl

theorem lift_ok_bind {α β : Type} (a : α) (f : α → BM I C β) :
    (lift (.ok a) : BM I C α) >>= f = f a := by
  simp only [lift, mk_ok_bind, List.nil_append]

end BM

section defs
variable [Scalar C]

/-- `advanceMonotones` without the triangulation. -/
def advanceMonotonesB (p : PolyList I V) (xy : V → Coords C) (st : St I C)
    (t : Trapezoid) (niDown : Nat) (nDown : Nexus I C) (ms : Ot (MonoB I C)) :
    BM I C (Option (Ot (MonoB I C))) := do
  let ms := addToAll ms nDown.vi nDown.c
  let sLeft ← BM.lift (okInner t.left >>= getP st.ss)
  let sRight ← BM.lift (okInner t.right >>= getP st.ss)
  let niUp ← BM.lift (okInner t.up)
  match splitCompleted ms niDown niUp sLeft sRight with
  | (none, ms) => pure ms
  | (some done, ms) => do
    BM.finish done
    BM.lift (restartMonotone p xy st niUp nDown ms)

/-- `joinV` without the triangulation. -/
def joinVB (x : TI I C) (upleft upcenter upright : Nat) : BM I C (TI I C) :=
  match x.monotones with
  | none => pure x
  | some ms =>
    if x.ti = upleft then do
      let mo ← BM.lift ms.okOne
      pure { x with monotones := none, monotoneStack := mo :: x.monotoneStack }
    else if x.ti = upcenter then do
      ms.toList.forM BM.finish
      pure { x with monotones := none }
    else if x.ti = upright then
      match x.monotoneStack with
      | [] => BM.lift (.error (.err .emptyBranchStack))
      | l :: rest => do
        let r ← BM.lift ms.okOne
        pure { x with monotones := some (.two l r), monotoneStack := rest }
    else BM.lift (.error (.err .invalidTrapezoidation))

/-- `updateMonotones` without the triangulation. -/
def updateMonotonesB (p : PolyList I V) (xy : V → Coords C) (st : St I C)
    (x : TI I C) (t : Trapezoid) (niDown : Nat) (nDown : Nexus I C) : BM I C (TI I C) :=
  match x.monotones with
  | none => pure x
  | some ms => do
    let ms ← advanceMonotonesB p xy st t niDown nDown ms
    pure { x with monotones := ms }

/-- `descendI` without the triangulation. -/
def descendIB (x : TI I C) (upleft upright downleft downright : Nat) : BM I C (TI I C) :=
  if x.ti = upleft then pure { x with ti := downleft }
  else if x.ti = upright then pure { x with ti := downright }
  else BM.lift (.error (.err .invalidI))

/-- `descendA` without the triangulation. -/
def descendAB (st : St I C) (t : Trapezoid) (nDown : Nexus I C) (x : TI I C)
    (downleft downcenter downright : Nat) : BM I C (TI I C) :=
  match x.monotones with
  | some ms => do
    let (l, r) ← BM.lift (splitMonotones st t nDown ms)
    pure { x with
      ti := downleft
      monotones := some (.one l)
      branchStack := (downcenter, none) :: (downright, some (.one r)) :: x.branchStack }
  | none =>
    pure { x with
      ti := downleft
      monotones := none
      branchStack := (downcenter, some (.one (MonoB.new nDown.vi nDown.c))) ::
        (downright, none) :: x.branchStack }

/-- `descend` without the triangulation. -/
def descendB (st : St I C) (x : TI I C) (t : Trapezoid) (nDown : Nexus I C) :
    FinalType → BM I C (TI I C)
  | .V upleft upcenter upright down => do
    let x ← joinVB x upleft upcenter upright
    BM.lift (leaveV x upright down)
  | .I upleft upright downleft downright => descendIB x upleft upright downleft downright
  | .A _ downleft downcenter downright => descendAB st t nDown x downleft downcenter downright

/-- `triStep` without the triangulation. -/
def triStepB (p : PolyList I V) (xy : V → Coords C) (st : St I C)
    (x : TI I C) (t : Trapezoid) (niDown : Nat) : BM I C (TI I C) := do
  let nDown ← BM.lift (getP st.ns niDown)
  let x ← updateMonotonesB p xy st x t niDown nDown
  let ft ← BM.lift nDown.finalType
  descendB st x t nDown ft

/-- `triLoop` without the triangulation. -/
def triLoopB (p : PolyList I V) (xy : V → Coords C) (st : St I C) : Nat → TI I C → BM I C Unit
  | 0, _ => BM.lift (.error .timeout)
  | k + 1, x => do
    let t ← BM.lift (getP st.ts x.ti)
    match t.down with
    | some niDown => do
      let x ← triStepB p xy st x t niDown
      triLoopB p xy st k x
    | none =>
      if x.monotoneStack ≠ [] then BM.lift (.error (.err .mismatchedMonotone))
      else if x.branchStack ≠ [] then BM.lift (.error (.err .mismatchedBranch))
      else if x.monotones.isSome then BM.lift (.error (.err .partialMonotones))
      else pure ()

/-- `triangulateInner` without the triangulation. -/
def triangulateInnerB (fuel : Nat) (p : PolyList I V) (xy : V → Coords C) (st : St I C) :
    BM I C Unit := do
  let ti ← BM.lift (topTrapezoid st.qs fuel 0)
  triLoopB p xy st fuel ⟨ti, none, [], []⟩

/-- Finishes chains one after the other. -/
def finishAll (w : Winding) (fuel : Nat) : List (MonoB I C) → TrM I Unit
  | [] => ⟨[], .ok ()⟩
  | b :: bs => finishMonotone w fuel b >>= fun _ => finishAll w fuel bs

/-- Replays a run over its finished chains. -/
def BM.run {α : Type} (w : Winding) (fuel : Nat) (x : BM I C α) : TrM I α :=
  finishAll w fuel x.done >>= fun _ => FanM.lift x.res

end defs

namespace TrM

theorem bind_assoc' {α β γ : Type} (x : TrM I α) (f : α → TrM I β) (g : β → TrM I γ) :
    x >>= f >>= g = x >>= fun a => f a >>= g := by
  rcases x with ⟨cs, e | a⟩
  · rfl
  · show (⟨cs ++ (f a).calls, (f a).res⟩ : TrM I β) >>= g = ⟨cs ++ (f a >>= g).calls, (f a >>= g).res⟩
    rcases hf : f a with ⟨ds, e | b⟩
    · rfl
    · show (⟨(cs ++ ds) ++ (g b).calls, (g b).res⟩ : TrM I γ) = ⟨cs ++ (ds ++ (g b).calls), (g b).res⟩
      rw [List.append_assoc]

theorem pure_bind' {α β : Type} (a : α) (f : α → TrM I β) : (⟨[], .ok a⟩ : TrM I α) >>= f = f a := by
  show (⟨[] ++ (f a).calls, (f a).res⟩ : TrM I β) = f a
  simp

end TrM

namespace BM
variable [Scalar C] (w : Winding) (fuel : Nat)

theorem finishAll_append (a b : List (MonoB I C)) :
    finishAll w fuel (a ++ b) = finishAll w fuel a >>= fun _ => finishAll w fuel b := by
  induction a with
  | nil => exact (TrM.pure_bind' () fun _ => finishAll w fuel b).symm
  | cons x a ih =>
    show finishMonotone w fuel x >>= (fun _ => finishAll w fuel (a ++ b)) =
      (finishMonotone w fuel x >>= fun _ => finishAll w fuel a) >>= fun _ => finishAll w fuel b
    rw [TrM.bind_assoc', ih]

theorem run_lift {α : Type} (r : Res IErr α) :
    (lift r : BM I C α).run w fuel = FanM.lift r := TrM.pure_bind' () _

theorem run_pure {α : Type} (a : α) : (pure a : BM I C α).run w fuel = pure a := run_lift w fuel (.ok a)

theorem run_bind {α β : Type} (x : BM I C α) (f : α → BM I C β) :
    (x >>= f).run w fuel = x.run w fuel >>= fun a => (f a).run w fuel := by
  rcases x with ⟨bs, e | a⟩
  · rw [mk_error_bind]
    simp only [run]
    rw [TrM.bind_assoc']
    rfl
  · rw [mk_ok_bind]
    simp only [run]
    rw [finishAll_append, TrM.bind_assoc', TrM.bind_assoc']
    congr 1

theorem run_finish (b : MonoB I C) : (finish b).run w fuel = finishMonotone (m := TrM I) w fuel b := by
  show (finishMonotone w fuel b >>= fun _ => (⟨[], .ok ()⟩ : TrM I Unit)) >>= (fun _ => FanM.lift (.ok ())) = _
  rcases finishMonotone (m := TrM I) w fuel b with ⟨cs, e | a⟩
  · rfl
  · show (⟨cs ++ [] ++ [], .ok ()⟩ : TrM I Unit) = ⟨cs, .ok a⟩
    simp

theorem run_forM (bs : List (MonoB I C)) :
    (bs.forM finish).run w fuel = bs.forM (finishMonotone (m := TrM I) w fuel) := by
  induction bs with
  | nil => exact run_pure w fuel ()
  | cons b bs ih =>
    show (finish b >>= fun _ => bs.forM finish).run w fuel = _
    rw [run_bind, run_finish, ih]; rfl

theorem run_advance (p : PolyList I V) (xy : V → Coords C) (st : St I C)
    (t : Trapezoid) (niDown : Nat) (nDown : Nexus I C) (ms : Ot (MonoB I C)) :
    (advanceMonotonesB p xy st t niDown nDown ms).run w fuel =
      advanceMonotones w fuel p xy st t niDown nDown ms := by
  simp only [advanceMonotonesB, advanceMonotones, run_bind, run_lift]
  congr 1; funext sl
  congr 1; funext sr
  congr 1; funext nu
  rcases hs : splitCompleted (addToAll ms nDown.vi nDown.c) niDown nu sl sr with ⟨_ | d, ms'⟩
  · exact run_pure w fuel _
  · simp only [run_bind, run_finish, run_lift]

theorem run_join (x : TI I C) (a b c : Nat) :
    (joinVB x a b c).run w fuel = joinV w fuel x a b c := by
  unfold joinVB joinV
  rcases hm : x.monotones with _ | ms
  · exact run_pure w fuel _
  · simp only []
    by_cases h1 : x.ti = a
    · simp only [if_pos h1, run_bind, run_lift, run_pure]
    · by_cases h2 : x.ti = b
      · simp only [if_neg h1, if_pos h2, run_bind, run_forM, run_pure]
      · by_cases h3 : x.ti = c
        · simp only [if_neg h1, if_neg h2, if_pos h3]
          rcases hs : x.monotoneStack with _ | ⟨l, rest⟩
          · exact run_lift w fuel _
          · simp only [run_bind, run_lift, run_pure]
        · simp only [if_neg h1, if_neg h2, if_neg h3]
          exact run_lift w fuel _

theorem run_update (p : PolyList I V) (xy : V → Coords C) (st : St I C) (x : TI I C) (t : Trapezoid)
    (niDown : Nat) (nDown : Nexus I C) :
    (updateMonotonesB p xy st x t niDown nDown).run w fuel =
      updateMonotones w fuel p xy st x t niDown nDown := by
  unfold updateMonotonesB updateMonotones
  rcases hm : x.monotones with _ | ms
  · exact run_pure w fuel _
  · simp only [run_bind, run_advance, run_pure]

theorem run_descend (st : St I C) (x : TI I C) (t : Trapezoid) (nDown : Nexus I C) (ft : FinalType) :
    (descendB st x t nDown ft).run w fuel = descend w fuel st x t nDown ft := by
  cases ft with
  | V => simp only [descendB, descend, descendV, run_bind, run_join, run_lift]
  | I a b c d =>
    simp only [descendB, descend]
    unfold descendIB descendI
    by_cases h1 : x.ti = a
    · simp only [if_pos h1, run_pure]
    · by_cases h2 : x.ti = b
      · simp only [if_neg h1, if_pos h2, run_pure]
      · simp only [if_neg h1, if_neg h2]
        exact run_lift w fuel _
  | A a b c d =>
    simp only [descendB, descend]
    unfold descendAB descendA
    rcases hm : x.monotones with _ | ms
    · exact run_pure w fuel _
    · simp only [run_bind, run_lift]
      congr 1

theorem run_step (p : PolyList I V) (xy : V → Coords C) (st : St I C) (x : TI I C) (t : Trapezoid)
    (niDown : Nat) :
    (triStepB p xy st x t niDown).run w fuel = triStep w fuel p xy st x t niDown := by
  simp only [triStepB, triStep, run_bind, run_lift, run_update, run_descend]

theorem run_loop (p : PolyList I V) (xy : V → Coords C) (st : St I C) (k : Nat) (x : TI I C) :
    (triLoopB p xy st k x).run w fuel = triLoop w fuel p xy st k x := by
  induction k generalizing x with
  | zero => exact run_lift w fuel _
  | succ k ih =>
    simp only [triLoopB, triLoop, run_bind, run_lift]
    congr 1; funext t
    rcases t.down with _ | nd
    · simp only []
      by_cases h1 : x.monotoneStack ≠ []
      · simp only [if_pos h1]; exact run_lift w fuel _
      · simp only [if_neg h1]
        by_cases h2 : x.branchStack ≠ []
        · simp only [if_pos h2]; exact run_lift w fuel _
        · simp only [if_neg h2]
          by_cases h3 : x.monotones.isSome
          · simp only [if_pos h3]; exact run_lift w fuel _
          · simp only [if_neg h3]; exact run_pure w fuel _
    · simp only [run_bind, run_step, ih]

/-- The recorded run of `triangulate_inner` replays the finished chains of the traversal. -/
theorem run_inner (p : PolyList I V) (xy : V → Coords C) (st : St I C) :
    (triangulateInnerB fuel p xy st).run w fuel = innerTrace w fuel p xy st := by
  simp only [triangulateInnerB, innerTrace, triangulateInner, run_bind, run_lift, run_loop]

end BM

end Tri
