import Verif.Proof.WordsTri
import Verif.Proof.WordsRoom
import Verif.Proof.Output

/-!
# Room for the triangulation step

For a valid input the descent takes as many steps as there are trapezoids.  Each step makes a chain longer by one vertex at most, and the stacks by two entries and one entry.
-/

namespace Tri

open Machine

section
variable {I V C : Type} {F : FanFormat I} {mc : Machine} {debug : Bool}

theorem SameR.bind_ok {α β : Type} {P : α → Prop} {Q : β → Prop} {x : Res IErr α} {a : α} {f : α → Res IErr β} {y : Res IErr β}
    (h : SameR P x (.ok a)) (hf : P a → SameR Q (f a) y) : SameR Q (x >>= f) y := by
  obtain ⟨rfl, h⟩ := h
  exact hf (h a rfl)

theorem Same.bind_ok {α β : Type} {P : α → Prop} {Q : β → Prop} {x : Res IErr α} {a : α} {f : α → FBM F β} {y : FBM F β}
    (h : SameR P x (.ok a)) (hf : P a → Same Q (f a) y) : Same Q (FanM.lift x >>= f) y := by
  obtain ⟨rfl, h⟩ := h
  exact hf (h a rfl)

/-- A chain of at most `c` vertices. -/
def MonoB.Short (c : Nat) (b : MonoB I C) : Prop := b.rest.length + 1 ≤ c

/-- One or two such chains. -/
def Ot.Short (c : Nat) (ms : Ot (MonoB I C)) : Prop := ∀ b ∈ ms.toList, b.Short c

/-- None, one or two such chains. -/
def AllShort (c : Nat) (ms : Option (Ot (MonoB I C))) : Prop := ∀ o, ms = some o → o.Short c

/-- Only such chains, and stacks that are not higher than `b` and `s`. -/
structure TI.Short (c b s : Nat) (x : TI I C) : Prop where
  now : AllShort c x.monotones
  branch : ∀ e ∈ x.branchStack, AllShort c e.2
  wait : ∀ b ∈ x.monotoneStack, b.Short c
  branches : x.branchStack.length ≤ b
  waits : x.monotoneStack.length ≤ s

theorem MonoB.Short.mono {c c' : Nat} {b : MonoB I C} (h : b.Short c) (hc : c ≤ c') : b.Short c' := Nat.le_trans h hc

theorem Ot.Short.mono {c c' : Nat} {ms : Ot (MonoB I C)} (h : ms.Short c) (hc : c ≤ c') : ms.Short c' := fun b hb => (h b hb).mono hc

theorem AllShort.mono {c c' : Nat} {ms : Option (Ot (MonoB I C))} (h : AllShort c ms) (hc : c ≤ c') : AllShort c' ms :=
  fun o ho => (h o ho).mono hc

theorem TI.Short.mono {c c' b b' s s' : Nat} {x : TI I C} (h : x.Short c b s) (hc : c ≤ c') (hb : b ≤ b') (hs : s ≤ s') : x.Short c' b' s' :=
  ⟨h.now.mono hc, fun e he => (h.branch e he).mono hc, fun b hb => (h.wait b hb).mono hc, Nat.le_trans h.branches hb, Nat.le_trans h.waits hs⟩

theorem Ot.Short.one {c : Nat} {b : MonoB I C} (h : b.Short c) : (Ot.one b).Short c := by
  intro b' hb'
  simp only [Ot.toList, List.mem_singleton] at hb'
  subst hb'
  exact h

theorem Ot.Short.two {c : Nat} {a b : MonoB I C} (ha : a.Short c) (hb : b.Short c) : (Ot.two a b).Short c := by
  intro b' hb'
  simp only [Ot.toList, List.mem_cons, List.not_mem_nil, or_false] at hb'
  rcases hb' with rfl | rfl
  · exact ha
  · exact hb

theorem AllShort.some {c : Nat} {o : Ot (MonoB I C)} (h : o.Short c) : AllShort c (some o) := fun _ e => by cases e; exact h

theorem AllShort.none {c : Nat} : AllShort c (none : Option (Ot (MonoB I C))) := fun _ e => by cases e

variable [Scalar C]

theorem addVertex_room {c : Nat} (b : MonoB I C) (vi : I) (xy : Coords C) (hb : b.Short c) (hc : c + 1 ≤ mc.chain) :
    SameR (MonoB.Short (c + 1)) (b.addVertexW mc vi xy) (.ok (b.addVertex vi xy)) := by
  unfold MonoB.addVertexW Machine.push
  unfold MonoB.Short at hb
  rw [if_pos (by simp only [List.length_cons]; omega)]
  refine SameR.ok ?_
  show (b.rest ++ [(vi, xy)]).length + 1 ≤ c + 1
  rw [List.length_append, List.length_singleton]
  omega

theorem new_short {c : Nat} (hc : 1 ≤ c) (vi : I) (xy : Coords C) : (MonoB.new vi xy).Short c := hc

theorem Short.inWords {c : Nat} (hM : mc.Valid) (hc : c ≤ mc.chain) {b : MonoB I C} (h : b.Short c) : b.InWords mc := by
  have h1 := hM.fits (room := mc.chain) (by simp) (Nat.le_trans h hc)
  unfold MonoB.InWords
  omega

theorem addToAll_room {c : Nat} (ms : Ot (MonoB I C)) (vi : I) (xy : Coords C) (hm : ms.Short c) (hc : c + 1 ≤ mc.chain) :
    SameR (Ot.Short (c + 1)) (addToAllW mc ms vi xy) (.ok (addToAll ms vi xy)) := by
  cases ms with
  | one a => exact SameR.bind_ok (addVertex_room a vi xy (hm a (by simp [Ot.toList])) hc) fun h => SameR.ok (Ot.Short.one h)
  | two a b =>
    exact SameR.bind_ok (addVertex_room a vi xy (hm a (by simp [Ot.toList])) hc) fun ha =>
      SameR.bind_ok (addVertex_room b vi xy (hm b (by simp [Ot.toList])) hc) fun hb => SameR.ok (Ot.Short.two ha hb)

theorem restart_room {c : Nat} (hc1 : 1 ≤ c) (hc : c + 1 ≤ mc.chain) (p : PolyList I V) (xy : V → Coords C) (st : St I C) (niUp : Nat) (nDown : Nexus I C)
    {ms : Option (Ot (MonoB I C))} (h : AllShort (c + 1) ms) :
    SameR (AllShort (c + 1)) (restartMonotoneW mc p xy st niUp nDown ms) (restartMonotone p xy st niUp nDown ms) := by
  cases ms with
  | some ms => exact SameR.ok h
  | none =>
    refine SameR.bind (SameR.refl _) fun nUp _ => SameR.bind (SameR.refl _) fun c _ => ?_
    exact SameR.bind_ok (addVertex_room _ _ _ (new_short hc1 _ _) hc) fun h => SameR.ok (AllShort.some (Ot.Short.one h))

theorem advanceMonotones_room {c : Nat} (hM : mc.Valid) (hc1 : 1 ≤ c) (hc : c + 1 ≤ mc.chain) (w : Winding) (fuel : Nat) (p : PolyList I V)
    (xy : V → Coords C) (st : St I C) (t : Trapezoid) (niDown : Nat) (nDown : Nexus I C) (ms : Ot (MonoB I C)) (hm : ms.Short c) :
    Same (AllShort (c + 1)) (advanceMonotonesW mc debug w fuel p xy st t niDown nDown ms : FBM F _)
      (advanceMonotones w fuel p xy st t niDown nDown ms) := by
  unfold advanceMonotonesW advanceMonotones
  refine Same.bind_ok (addToAll_room ms _ _ hm hc) fun hms => ?_
  generalize addToAll ms nDown.vi nDown.c = ms at hms
  refine Same.bind (Same.lift (SameR.refl _)) fun sLeft _ => Same.bind (Same.lift (SameR.refl _)) fun sRight _ =>
    Same.bind (Same.lift (SameR.refl _)) fun niUp _ => ?_
  have hs : (∀ b, (splitCompleted ms niDown niUp sLeft sRight).1 = some b → b.Short (c + 1)) ∧
      AllShort (c + 1) (splitCompleted ms niDown niUp sLeft sRight).2 := by
    unfold splitCompleted
    unfold Ot.Short at hms
    split
    · cases ms with
      | one a => exact ⟨fun b e => by cases e; exact hms _ (by simp [Ot.toList]), AllShort.none⟩
      | two a b =>
        exact ⟨fun b e => by cases e; exact hms _ (by simp [Ot.toList]), AllShort.some (Ot.Short.one (hms _ (by simp [Ot.toList])))⟩
    · split
      · cases ms with
        | one a => exact ⟨fun b e => by cases e; exact hms _ (by simp [Ot.toList]), AllShort.none⟩
        | two a b =>
          exact ⟨fun b e => by cases e; exact hms _ (by simp [Ot.toList]), AllShort.some (Ot.Short.one (hms _ (by simp [Ot.toList])))⟩
      · exact ⟨fun b e => (by cases e), AllShort.some hms⟩
  generalize splitCompleted ms niDown niUp sLeft sRight = r at hs
  rcases r with ⟨_ | done, ms'⟩
  · exact Same.pure hs.2
  · exact Same.bind (finishMonotone_same w fuel (Short.inWords hM hc (hs.1 done rfl))) fun _ _ =>
      Same.lift (restart_room hc1 hc p xy st niUp nDown hs.2)

theorem pushTop_room {α : Type} {room : Nat} {xs : List α} {x : α} (h : xs.length < room) :
    SameR (fun _ => True) (pushTop room xs x) (.ok (x :: xs)) := by
  unfold pushTop Machine.push
  rw [if_pos h]
  exact SameR.ok trivial

omit [Scalar C] in
theorem okOne_short {c : Nat} {ms : Ot (MonoB I C)} (h : ms.Short c) : SameR (MonoB.Short c) ms.okOne ms.okOne := by
  cases ms with
  | one a => exact SameR.ok (h a (by simp [Ot.toList]))
  | two a b => exact ⟨rfl, fun _ e => by cases e⟩

theorem joinV_room {c b s : Nat} (hM : mc.Valid) (hc : c ≤ mc.chain) (hs : s + 1 ≤ mc.chains) (w : Winding) (fuel : Nat) (x : TI I C)
    (hx : x.Short c b s) (i j k : Nat) :
    Same (TI.Short c b (s + 1)) (joinVW mc debug w fuel x i j k : FBM F _) (joinV w fuel x i j k) := by
  unfold joinVW joinV
  have h4 := hx.waits
  rcases hms : x.monotones with _ | ms
  · exact Same.pure (hx.mono (by omega) (by omega) (by omega))
  · have hm := hx.now ms hms
    refine Same.ite (fun _ => ?_) fun _ => Same.ite (fun _ => ?_) fun _ => Same.ite (fun _ => ?_) fun _ => Same.stop
    · refine Same.bind (Same.lift (okOne_short hm)) fun mo hmo => ?_
      refine Same.bind_ok (pushTop_room (by omega)) fun _ => Same.pure ⟨AllShort.none, hx.branch, ?_, hx.branches, ?_⟩
      · intro b hb
        rcases List.mem_cons.1 hb with rfl | hb
        · exact hmo
        · exact hx.wait b hb
      · show (mo :: x.monotoneStack).length ≤ _
        rw [List.length_cons]
        omega
    · exact Same.bind (finishAll_same w fuel fun b hb => Short.inWords hM hc (hm b hb)) fun _ _ =>
        Same.pure ⟨AllShort.none, hx.branch, hx.wait, hx.branches, by show x.monotoneStack.length ≤ _; omega⟩
    · rcases hl : x.monotoneStack with _ | ⟨l, rest⟩
      · exact Same.stop
      · have hw := hx.wait
        rw [hl] at hw h4
        rw [List.length_cons] at h4
        refine Same.bind (Same.lift (okOne_short hm)) fun r hr => Same.pure ⟨?_, hx.branch, fun b hb => hw b (by simp [hb]), hx.branches, ?_⟩
        · exact AllShort.some (Ot.Short.two (hw l (by simp)) hr)
        · show rest.length ≤ _
          omega

omit [Scalar C] in
theorem leaveV_short {c b s : Nat} (x : TI I C) (hx : x.Short c b s) (i j : Nat) : SameR (TI.Short c b s) (leaveV x i j) (leaveV x i j) := by
  unfold leaveV
  refine SameR.ite (fun _ => SameR.ok ⟨hx.now, hx.branch, hx.wait, hx.branches, hx.waits⟩) fun _ => ?_
  split
  · exact ⟨rfl, fun _ e => by cases e⟩
  · rename_i ti ms rest hl
    have hb := hx.branch
    have hn := hx.branches
    rw [hl] at hb hn
    rw [List.length_cons] at hn
    exact SameR.ok ⟨hb (ti, ms) (by simp), fun e he => hb e (by simp [he]), hx.wait, by show rest.length ≤ _; omega, hx.waits⟩

theorem splitMonotones_room {c c' : Nat} (hcc : c + 1 ≤ c') (hc1 : 1 ≤ c) (hc : c' ≤ mc.chain) (st : St I C) (t : Trapezoid) (nDown : Nexus I C)
    (ms : Ot (MonoB I C)) (hm : ms.Short c') :
    SameR (fun r => r.1.Short c' ∧ r.2.Short c') (splitMonotonesW mc st t nDown ms) (splitMonotones st t nDown ms) := by
  cases ms with
  | two a b => exact SameR.ok ⟨hm a (by simp [Ot.toList]), hm b (by simp [Ot.toList])⟩
  | one mo =>
    have hmo := hm mo (by simp [Ot.toList])
    unfold splitMonotonesW splitMonotones
    refine SameR.bind (SameR.refl _) fun niUp _ => SameR.bind (SameR.refl _) fun n _ => ?_
    refine SameR.bind_ok (addVertex_room _ _ _ (new_short hc1 _ _) (Nat.le_trans hcc hc)) fun hnew => ?_
    have hnew := hnew.mono hcc
    refine SameR.bind (SameR.refl _) fun sl _ => SameR.ite (fun _ => SameR.ok ⟨hnew, hmo⟩) fun _ => ?_
    exact SameR.bind (SameR.refl _) fun sr _ => SameR.ite (fun _ => SameR.ok ⟨hmo, hnew⟩) fun _ => ⟨rfl, fun _ e => by cases e⟩

theorem descendA_room {c c' b s : Nat} (hcc : c + 1 ≤ c') (hc1 : 1 ≤ c) (hc : c' ≤ mc.chain) (hb : b + 2 ≤ mc.branches) (st : St I C)
    (t : Trapezoid) (nDown : Nexus I C) (x : TI I C) (hx : x.Short c' b s) (i j k : Nat) :
    Same (TI.Short c' (b + 2) s) (descendAW mc st t nDown x i j k : FBM F _) (descendA st t nDown x i j k) := by
  unfold descendAW descendA
  have hn := hx.branches
  rcases hms : x.monotones with _ | ms
  · refine Same.bind_ok (pushTop_room (by omega)) fun _ => Same.bind_ok (pushTop_room (by simp only [List.length_cons]; omega)) fun _ =>
      Same.pure ⟨AllShort.none, ?_, hx.wait, ?_, hx.waits⟩
    · intro e he
      rcases List.mem_cons.1 he with rfl | he
      · exact AllShort.some (Ot.Short.one (new_short (by omega) _ _))
      · rcases List.mem_cons.1 he with rfl | he
        · exact AllShort.none
        · exact hx.branch e he
    · simp only [List.length_cons]
      omega
  · refine Same.bind (Same.lift (splitMonotones_room hcc hc1 hc st t nDown ms (hx.now ms hms))) ?_
    rintro ⟨l, r⟩ ⟨hl, hr⟩
    refine Same.bind_ok (pushTop_room (by omega)) fun _ => Same.bind_ok (pushTop_room (by simp only [List.length_cons]; omega)) fun _ =>
      Same.pure ⟨AllShort.some (Ot.Short.one hl), ?_, hx.wait, ?_, hx.waits⟩
    · intro e he
      rcases List.mem_cons.1 he with rfl | he
      · exact AllShort.none
      · rcases List.mem_cons.1 he with rfl | he
        · exact AllShort.some (Ot.Short.one hr)
        · exact hx.branch e he
    · simp only [List.length_cons]
      omega

theorem triStep_room {c b s : Nat} (hM : mc.Valid) (hc1 : 1 ≤ c) (hc : c + 1 ≤ mc.chain) (hb : b + 2 ≤ mc.branches) (hs : s + 1 ≤ mc.chains)
    (w : Winding) (fuel : Nat) (p : PolyList I V) (xy : V → Coords C) (st : St I C) (x : TI I C) (hx : x.Short c b s) (t : Trapezoid) (niDown : Nat) :
    Same (TI.Short (c + 1) (b + 2) (s + 1)) (triStepW mc debug w fuel p xy st x t niDown : FBM F _) (triStep w fuel p xy st x t niDown) := by
  unfold triStepW triStep
  refine Same.bind (Same.lift (SameR.refl _)) fun nDown _ => Same.bind (P := TI.Short (c + 1) b s) ?_ fun x hx =>
    Same.bind (Same.lift (SameR.refl _)) fun ft _ => ?_
  · unfold updateMonotonesW updateMonotones
    rcases hms : x.monotones with _ | ms
    · exact Same.pure (hx.mono (by omega) (by omega) (by omega))
    · refine Same.bind (advanceMonotones_room hM hc1 hc w fuel p xy st t niDown nDown ms (hx.now ms hms)) fun ms' hms' => Same.pure ?_
      exact ⟨hms', fun e he => (hx.branch e he).mono (by omega), fun b hb => (hx.wait b hb).mono (by omega), hx.branches, hx.waits⟩
  · cases ft with
    | V i j k l =>
      refine Same.bind (joinV_room hM hc hs w fuel x hx i j k) fun x hx => ?_
      exact (Same.lift (leaveV_short x hx k l)).imp fun x hx => hx.mono (by omega) (by omega) (by omega)
    | I i j k l =>
      unfold descendW descend descendI
      have : ∀ ti, TI.Short (c + 1) (b + 2) (s + 1) { x with ti := ti } := fun ti =>
        ⟨hx.now, hx.branch, hx.wait, Nat.le_trans hx.branches (by omega), Nat.le_trans hx.waits (by omega)⟩
      exact Same.ite (fun _ => Same.pure (this k)) fun _ => Same.ite (fun _ => Same.pure (this l)) fun _ => Same.stop
    | A _ i j k =>
      exact (descendA_room (Nat.le_refl _) hc1 hc hb st t nDown x hx i j k).imp fun x hx => hx.mono (by omega) (by omega) (by omega)

/-- A step against a format is the step of the descent. -/
theorem triStep_ok {w : Winding} {fuel : Nat} {p : PolyList I V} {xy : V → Coords C} {st : St I C} {x x' : TI I C} {t : Trapezoid} {niDown : Nat}
    {s : FBS F} (h : (triStep (m := FBM F) w fuel p xy st x t niDown s).2 = .ok x') : (triStepB p xy st x t niDown).res = .ok x' := by
  rw [← (interpHom F).triStep, ← BM.run_step] at h
  have h2 : ((triStepB p xy st x t niDown).run w fuel).res = .ok x' := by
    generalize (triStepB p xy st x t niDown).run w fuel = y at h
    have h : (interp F y s).2 = .ok x' := h
    unfold interp at h
    rcases hfd : feed F y.calls s with ⟨s', e | ⟨⟩⟩
    · rw [hfd] at h
      cases h
    · rw [hfd] at h
      rcases hr : y.res with e | a
      · rw [hr] at h
        cases h
      · rw [hr] at h
        cases h
        rfl
  unfold BM.run at h2
  rcases hfa : finishAll w fuel (triStepB p xy st x t niDown).done with ⟨cs, e | u⟩
  · rw [hfa] at h2
    cases h2
  · rw [hfa, TrM.mk_ok_bind] at h2
    rcases hr : (triStepB p xy st x t niDown).res with e | a
    · rw [hr] at h2
      cases h2
    · rw [hr] at h2
      exact h2

theorem triLoop_room (hM : mc.Valid) (w : Winding) (fuel : Nat) (p : PolyList I V) (xy : V → Coords C) (st : St I C) (j : Nat) (c b s k : Nat)
    (x : TI I C) (hx : x.Short c b s) (hc1 : 1 ≤ c) (hc : c + j ≤ mc.chain) (hb : b + 2 * j ≤ mc.branches) (hs : s + j ≤ mc.chains)
    (hj : (triLoopB p xy st j x).res ≠ .error .timeout) :
    Same (fun _ => True) (triLoopW mc debug w fuel p xy st k x : FBM F Unit) (triLoop w fuel p xy st k x) := by
  induction j generalizing c b s k x with
  | zero => exact absurd rfl hj
  | succ j ih =>
    cases k with
    | zero => exact Same.stop
    | succ k =>
      unfold triLoopW triLoop
      unfold triLoopB at hj
      refine Same.bind (Same.lift (SameR.refl _)) fun t ht => ?_
      rw [ht, BM.lift_ok_bind] at hj
      rcases hd : t.down with _ | niDown
      · exact Same.ite (fun _ => Same.stop) fun _ => Same.ite (fun _ => Same.stop) fun _ => Same.ite (fun _ => Same.stop) fun _ =>
          Same.pure trivial
      · rw [hd] at hj
        simp only at hj
        have hstep := triStep_room (F := F) (debug := debug) hM hc1 (by omega) (by omega) (by omega) w fuel p xy st x hx t niDown
        refine Same.bind (P := fun x' => TI.Short (c + 1) (b + 2) (s + 1) x' ∧ (triStepB p xy st x t niDown).res = .ok x')
          (fun st' => ⟨(hstep st').1, fun x' h => ⟨(hstep st').2 x' h, triStep_ok h⟩⟩) fun x' hx' => ?_
        refine ih (c + 1) (b + 2) (s + 1) k x' hx'.1 (by omega) (by omega) (by omega) (by omega) fun h => hj ?_
        rcases hb : triStepB p xy st x t niDown with ⟨bs, r⟩
        have hr := hx'.2
        rw [hb] at hr
        simp only at hr
        subst hr
        rw [BM.mk_ok_bind]
        exact h

end

section
variable {I V K : Type} [Field K] [LinearOrder K] [IsStrictOrderedRing K] [DecidableEq I]

attribute [local instance] exact

variable {P : Plane K} {p : PolyList I V} {xy : V → Coords K} {A : Abs K} {st : St I K} {key : Nat → I × Coords K} {lab sgn : Nat → Bool}

omit [DecidableEq I] in
/-- The descent from the top trapezoid takes as many steps as there are trapezoids. -/
theorem Dfs.steps (D : Dfs P p xy A st key lab sgn) (hqry : Qry st.qs st.ts A) (htsL : st.ts.length = A.M) (fuel ti : Nat)
    (h : topTrapezoid st.qs fuel 0 = .ok ti) : (triLoopB p xy st st.ts.length ⟨ti, none, [], []⟩).res = .ok () := by
  obtain ⟨top, htop, hup⟩ := hqry.top
  have hM : top < A.M := by
    obtain ⟨q, hq⟩ := htop.sink_at
    obtain ⟨t, ht, -⟩ := hqry.snk' q top hq
    rw [← htsL]; exact lt_of_get ht
  obtain ⟨e1, e2⟩ := D.whole.up_none hM hup
  have R : Run P A key lab sgn top ⟨top, none, [], []⟩ ⟨top, [], []⟩ [] [] [] [] :=
    { cur := .mkOut hM (D.labs.top top hM hup)
      rest := .nil
      stk := rfl
      rowL := e1
      rowR := e2
      ent := by simp
      fins := by simp
      pot := fun G _ g β _ => by simp [finW, PG.wt] }
  obtain ⟨fin, h1, -⟩ := D.loop ⟨hM, hup⟩ A.M (by simp) R (by simp)
  have := htop.ended fuel (by rw [h]; simp)
  rw [h] at this
  cases this
  rw [h1 _ (by simp [htsL])]

/-- For a valid input the descent takes at most `2 n + 1` steps. -/
theorem valid_steps {gs : List (List (I × Coords K))} (hd : Describes p xy gs) (hv : ValidPolys (gs.map (List.map Prod.snd))) (hne : gs ≠ [])
    (cfg : Cfg) (hcfg : cfg.Valid) (fuel : Nat) (hf : (p.elems.length + 3) ^ 2 ≤ fuel) :
    ∃ st, trapezoidize cfg fuel p xy = .ok st ∧ ∀ ti, topTrapezoid st.qs fuel 0 = .ok ti →
      (triLoopB p xy st (2 * p.elems.length + 1) ⟨ti, none, [], []⟩).res ≠ .error .timeout := by
  classical
  obtain ⟨w, hw1, hw2⟩ := exists_sky (gs.map (List.map Prod.snd))
  obtain ⟨P, hctx, hU, hE, ε, hε, hh, hX⟩ := exists_polysCtx hd hv (ghosts := [w]) (by
    intro x hx
    rw [List.mem_singleton] at hx; subst hx; exact hw1)
  obtain ⟨N, A, st, hr, hall⟩ := trapezoidize_run hctx cfg.order cfg.mathN hcfg
  have hG := hall.glob
  have hI := hG.inv
  have hwU : P.U w := (hU w).2 (.inr (by simp))
  have hsky : Sky P A := by
    refine ⟨w, hwU, fun n hn => ?_⟩
    refine (P.h_lt (hI.cU n hn) hwU).1 (.inl ?_)
    obtain ⟨g, hg, v, hv', h⟩ := hall.cs n hn
    rw [h]
    exact hw2 _ (List.mem_flatten.2 ⟨_, List.mem_map.2 ⟨g, hg, rfl⟩, List.mem_map.2 ⟨v, hv', rfl⟩⟩)
  obtain ⟨key, lab, sgn, D, hkey⟩ := hall.dfs hctx.poly hsky hne
  have htsL : st.ts.length = A.M := hG.link.tsL
  obtain ⟨h1, -⟩ := trapezoidize_early cfg hcfg p xy (fun fuel hf => hr cfg rfl rfl fuel hf) fuel hf
  refine ⟨st, h1, fun ti hti => ?_⟩
  have hs := D.steps hG.qry htsL fuel ti hti
  have he : enough (conts p.elems) ≤ fuel := conts_enough p (square_enough hf)
  have hrk := trapezoidize_ranked cfg hcfg p xy he
  rw [h1] at hrk
  obtain ⟨hw, -, hn, hss⟩ := hrk
  have hsz := hw.size
  have := conts_le p.elems
  rw [triLoop_fixed p xy st st.ts.length _ (by rw [hs]; simp) (2 * p.elems.length + 1) (by omega), hs]
  simp

/-- With room for a valid input, its triangulation is the one without limits. -/
theorem triangulate_room {mc : Machine} {gs : List (List (I × Coords K))} (hd : Describes p xy gs)
    (hv : ValidPolys (gs.map (List.map Prod.snd))) (hne : gs ≠ []) (cfg : Cfg) (hcfg : cfg.Valid) (fuel : Nat)
    (hf : (p.elems.length + 3) ^ 2 ≤ fuel) (hM : Room mc cfg (conts p.elems)) (hh : HintFits mc p.vertexCount)
    (hc : 2 * p.elems.length + 2 ≤ mc.chain) (hb : 4 * p.elems.length + 2 ≤ mc.branches) (hs : 2 * p.elems.length + 1 ≤ mc.chains)
    (F : FanFormat I) : triangulateW mc cfg fuel p xy F = triangulate cfg fuel p xy F := by
  obtain ⟨st, h1, h2⟩ := valid_steps hd hv hne cfg hcfg fuel hf
  have he : enough (conts p.elems) ≤ fuel := conts_enough p (square_enough hf)
  unfold triangulateW triangulate
  rw [trapezoidize_room cfg hcfg p xy hM hh he, h1]
  show St.triangulateW mc cfg.debug fuel p xy st F = St.triangulate fuel p xy st F
  unfold St.triangulateW St.triangulate triangulateInnerW triangulateInner
  have h : Same (F := F) (fun _ => True) (FanM.lift (topTrapezoid st.qs fuel 0) >>= fun ti => triLoopW mc cfg.debug F.winding fuel p xy st fuel ⟨ti, none, [], []⟩)
      (FanM.lift (topTrapezoid st.qs fuel 0) >>= fun ti => triLoop F.winding fuel p xy st fuel ⟨ti, none, [], []⟩) := by
    refine Same.bind (Same.lift (SameR.refl _)) fun ti hti => ?_
    exact triLoop_room hM.valid F.winding fuel p xy st (2 * p.elems.length + 1) 1 0 0 fuel _
      ⟨AllShort.none, fun _ h => (List.not_mem_nil h).elim, fun _ h => (List.not_mem_nil h).elim, Nat.le_refl _, Nat.le_refl _⟩ (Nat.le_refl _)
      (by omega) (by omega) (by omega) (h2 ti hti)
  simp only [(h .uninit).1]

end

end Tri
