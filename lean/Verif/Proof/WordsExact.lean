import Verif.Proof.DebugCost

/-!
# When a machine has enough room for a trapezoidation
-/

set_option linter.unusedSectionVars false

namespace Tri

open Machine St

variable {ε α β I V C : Type} {A : I × Coords C → Prop}

/-- The number of visits of the check, for any graph. -/
def visits (qs : List (QueryNode C)) : Nat → Nat → Nat
  | 0, _ => 0
  | fuel + 1, q =>
    match qs[q]? with
    | some (.branch l r _) => visits qs fuel l + visits qs fuel r + 1
    | some (.sink _) => 1
    | none => 0

theorem visits_succ (qs : List (QueryNode C)) : ∀ fuel q, visits qs fuel q ≤ visits qs (fuel + 1) q
  | 0, _ => Nat.zero_le _
  | fuel + 1, q => by
    rw [visits, visits]
    split
    · have := visits_succ qs fuel
      exact Nat.succ_le_succ (Nat.add_le_add (this _) (this _))
    · exact Nat.le_refl _
    · exact Nat.le_refl _

theorem visits_mono (qs : List (QueryNode C)) {f f' : Nat} (h : f ≤ f') (q : Nat) : visits qs f q ≤ visits qs f' q := by
  induction h with
  | refl => exact Nat.le_refl _
  | step _ ih => exact Nat.le_trans ih (visits_succ qs _ q)

theorem Keeps.visits {qs qs' : List (QueryNode C)} (h : Keeps qs qs') (hl : qs.length ≤ qs'.length) :
    ∀ fuel q, Tri.visits qs fuel q ≤ Tri.visits qs' fuel q
  | 0, _ => Nat.le_refl _
  | fuel + 1, q => by
    rw [Tri.visits, Tri.visits]
    rcases hq : qs[q]? with _ | ⟨l, r, b⟩ | t
    · exact Nat.zero_le _
    · rw [h q l r b hq]
      have := h.visits hl fuel
      exact Nat.succ_le_succ (Nat.add_le_add (this _) (this _))
    · have hlt : q < qs'.length := (lt_of_get hq).trans_le hl
      rw [List.getElem?_eq_getElem hlt]
      simp only
      rcases qs'[q] with ⟨l, r, b⟩ | t <;> simp

theorem checkQueryC_visits {st : St I C} {fuel qi m : Nat} (h : st.checkQueryC fuel qi = .ok m) : visits st.qs fuel qi = m := by
  induction fuel generalizing qi m with
  | zero => cases h
  | succ fuel ih =>
    unfold checkQueryC getU at h
    rw [visits]
    rcases hq : st.qs[qi]? with _ | ⟨l, r, b⟩ | t
    · simp only [hq] at h; cases h
    · rw [hq] at h
      simp only [bind, Except.bind] at h
      rcases hl : st.checkQueryC fuel l with e | a
      · rw [hl] at h; cases h
      · rw [hl] at h
        rcases hr : st.checkQueryC fuel r with e | c
        · rw [hr] at h; cases h
        · rw [hr] at h
          cases h
          simp only [ih hl, ih hr]
    · rw [hq] at h
      simp only [bind, Except.bind] at h
      split at h
      · cases h
      · cases h; rfl

/-- If the visits can be counted, the check of the machine succeeds where the other one does. -/
theorem checkQueryW_ok {M : Machine} {debug : Bool} {st : St I C} {fuel qi : Nat} (h : st.checkQuery fuel qi = .ok ())
    (hv : visits st.qs fuel qi < 2 ^ M.bits) : st.checkQueryW M debug fuel qi = .ok (visits st.qs fuel qi) := by
  induction fuel generalizing qi with
  | zero => cases h
  | succ fuel ih =>
    unfold checkQuery getU at h
    unfold checkQueryW getU
    rw [visits] at hv ⊢
    rcases hq : st.qs[qi]? with _ | ⟨l, r, b⟩ | t
    · simp only [hq] at h; cases h
    · rw [hq] at h hv
      simp only [bind, Except.bind] at h hv ⊢
      rcases hl : st.checkQuery fuel l with e | a
      · rw [hl] at h; cases h
      · rw [hl] at h
        rw [ih hl (by omega)]
        simp only at h ⊢
        rw [ih h (by omega)]
        simp only [add_ok (M := M) (debug := debug) (ε := IErr) (show visits st.qs fuel l + visits st.qs fuel r < 2 ^ M.bits by omega)]
        exact add_ok hv
    · rw [hq] at h hv
      simp only [bind, Except.bind] at h hv ⊢
      split at h
      · cases h
      · exact add_ok hv

/-- What a later state has more than an earlier one. -/
structure Later (st st' : St I C) : Prop where
  ns : st.ns.length ≤ st'.ns.length
  ss : st.ss.length ≤ st'.ss.length
  ts : st.ts.length ≤ st'.ts.length
  qs : st.qs.length ≤ st'.qs.length
  keeps : Keeps st.qs st'.qs

theorem Later.refl (st : St I C) : Later st st := ⟨Nat.le_refl _, Nat.le_refl _, Nat.le_refl _, Nat.le_refl _, Keeps.refl _⟩

theorem Later.trans {a b c : St I C} (h : Later a b) (h' : Later b c) : Later a c :=
  ⟨h.ns.trans h'.ns, h.ss.trans h'.ss, h.ts.trans h'.ts, h.qs.trans h'.qs, h.keeps.trans h'.keeps⟩

/-- The machine has room for the state, and in debug builds for the number of visits of its check. -/
structure Fine (M : Machine) (cfg : Cfg) (st : St I C) : Prop where
  room : InRoom M st
  visits : cfg.debug = true → ∀ f, visits st.qs f 0 < 2 ^ M.bits

theorem Later.fine {M : Machine} {cfg : Cfg} {st st' : St I C} (h : Later st st') (h' : Fine M cfg st') : Fine M cfg st :=
  ⟨⟨h.ns.trans h'.room.ns, h.ss.trans h'.room.ss, h.ts.trans h'.room.ts, h.qs.trans h'.room.qs⟩,
    fun hd f => (h.keeps.visits h.qs f 0).trans_lt (h'.visits hd f)⟩

/-- If `y` has a value and it satisfies `Q`, then `x` has the same value. -/
def Fit (Q : α → Prop) (x y : Res ε α) : Prop := ∀ a, y = .ok a → Q a → x = .ok a

theorem Fit.of_eq {Q : α → Prop} {x y : Res ε α} (h : x = y) : Fit Q x y := fun _ ha _ => h.trans ha

theorem Fit.rfl {Q : α → Prop} {x : Res ε α} : Fit Q x x := Fit.of_eq _root_.rfl

theorem Fit.bind {P : α → Prop} {Q : β → Prop} {x y : Res ε α} {f g : α → Res ε β} (h : Fit P x y)
    (hb : ∀ a b, y = .ok a → g a = .ok b → Q b → P a) (hf : ∀ a, y = .ok a → P a → Fit Q (f a) (g a)) :
    Fit Q (x >>= f) (y >>= g) := by
  intro b hb' hQ
  cases y with
  | error e => cases hb'
  | ok a =>
    have hga : g a = .ok b := hb'
    have hP := hb a b _root_.rfl hga hQ
    rw [h a _root_.rfl hP]
    exact hf a _root_.rfl hP b hga hQ

theorem Fit.same {Q : β → Prop} {x : Res ε α} {f g : α → Res ε β} (hf : ∀ a, x = .ok a → Fit Q (f a) (g a)) :
    Fit Q (x >>= f) (x >>= g) :=
  Fit.bind (P := fun _ => True) Fit.rfl (fun _ _ _ _ _ => trivial) fun a ha _ => hf a ha

theorem Fit.ite {Q : α → Prop} {c : Prop} [Decidable c] {x y x' y' : Res ε α} (h : c → Fit Q x x') (h' : ¬ c → Fit Q y y') :
    Fit Q (if c then x else y) (if c then x' else y') := by
  by_cases hc : c
  · rw [if_pos hc, if_pos hc]; exact h hc
  · rw [if_neg hc, if_neg hc]; exact h' hc

theorem Fit.mapErr {δ : Type} {Q : α → Prop} {x y : Res ε α} (f : ε → δ) (h : Fit Q x y) : Fit Q (Res.mapErr f x) (Res.mapErr f y) := by
  intro a ha hQ
  cases y with
  | error e => cases e <;> cases ha
  | ok b =>
    cases ha
    rw [h _ _root_.rfl hQ]
    rfl

theorem ok_of_bind {x : Res ε α} {f : α → Res ε β} {b : β} (h : x >>= f = .ok b) : ∃ a, x = .ok a ∧ f a = .ok b := by
  cases x with
  | error e => cases h
  | ok a => exact ⟨a, rfl, h⟩

theorem Ens.ok_of {E : Fault ε → Prop} {P : α → Prop} {x : Res ε α} (h : Ens E P x) {a : α} (ha : x = .ok a) : P a := by
  subst ha; exact h

theorem debugCheck_fit {M : Machine} {cfg : Cfg} {st : St I C} (h : Fine M cfg st) (fuel : Nat) :
    Fit (fun _ => True) (st.debugCheckW M cfg fuel) (st.debugCheck cfg fuel) := by
  unfold debugCheckW debugCheck checkConsistency
  refine Fit.ite (fun hd => Fit.same fun _ _ => Fit.same fun _ _ => ?_) fun _ => Fit.rfl
  intro u hu _
  rw [checkQueryW_ok hu (h.visits hd fuel)]
  rfl

/-! ## Sizes -/

theorem modP_ifLength (xs : List α) (i : Nat) (u : α → α) : IfOk (fun ys => ys.length = xs.length) (modP xs i u : Res ε _) :=
  IfOk.modP.imp fun ys ⟨_, _, h⟩ => by rw [h]; simp

theorem replaceAt_ifLength (ns : List (Nexus I C)) (ni : Option Nat) (a b : Nat) :
    IfOk (fun ys => ys.length = ns.length) (replaceAt ns ni a b) :=
  IfOk.of fun ys h => (replaceAt_near ns ni a b).post rfl ys h

theorem nexusAddSegment_ifLength [Scalar C] (ns : List (Nexus I C)) (ss : List (Segment C)) (ni si ti : Nat) :
    IfOk (fun ys => ys.length = ns.length) (Nexus.addSegment ns ss ni si ti) :=
  IfOk.of fun ys h => (nexusAddSegment_near ns ss ni si ti).post rfl ys h

/-- A state with so many nexuses, segments, trapezoids and query nodes more. -/
structure Plus (st st' : St I C) (n s t q : Nat) : Prop where
  ns : st'.ns.length = st.ns.length + n
  ss : st'.ss.length = st.ss.length + s
  ts : st'.ts.length = st.ts.length + t
  qs : st'.qs.length = st.qs.length + q

theorem addVertexAt_plus (st : St I C) (vi : I) (c : Coords C) (qp ti : Nat) :
    IfOk (fun st' => Plus st st' 1 0 1 2) (st.addVertexAt vi c qp ti) := by
  unfold St.addVertexAt
  refine Ens.bind (IfOk.any _) fun qLeft _ => Ens.bind (modP_ifLength _ _ _) fun qs hqs => Ens.bind (modP_ifLength _ _ _) fun ts hts => ?_
  refine Ens.bind (IfOk.any _) fun t _ => Ens.bind (replaceAt_ifLength _ _ _ _) fun ns hns => ?_
  exact ⟨by simpa using hns, rfl, by simp [hts], by simp [hqs]⟩

section
variable [Scalar C] [DecidableEq I]

theorem addSegmentStart_plus (st : St I C) (a b : Nat) (c d : Coords C) :
    IfOk (fun l => Plus st l.st 0 1 1 2) (st.addSegmentStart a b c d) := by
  unfold St.addSegmentStart
  refine Ens.bind (IfOk.any _) fun nMax _ => Ens.bind (IfOk.any _) fun ti _ => Ens.bind (IfOk.any _) fun t _ => ?_
  refine Ens.bind (IfOk.any _) fun qLeft _ => Ens.bind (modP_ifLength _ _ _) fun qs hqs => Ens.bind (modP_ifLength _ _ _) fun ts hts => ?_
  refine Ens.bind (IfOk.any _) fun t' _ => Ens.bind (nexusAddSegment_ifLength _ _ _ _ _) fun ns hns => Ens.bind (IfOk.any _) fun t2 _ => ?_
  split
  · trivial
  · refine Ens.bind (IfOk.any _) fun n _ => Ens.bind (replaceAt_ifLength _ _ _ _) fun ns' hns' => ?_
    exact ⟨by simp only [hns', hns]; rfl, by simp, by simp [hts], by simp [hqs]⟩

theorem addSegmentStep_plus (si : Nat) (s : Segment C) (l : SegLoop I C) :
    IfOk (fun l' => Plus l.st l'.st 0 0 0 1) (addSegmentStep si s l) := by
  unfold St.addSegmentStep
  refine Ens.bind (IfOk.any _) fun n _ => Ens.bind (IfOk.any _) fun ti _ => Ens.bind (IfOk.any _) fun t _ => ?_
  split
  · trivial
  · refine Ens.bind (IfOk.any _) fun tl _ => Ens.bind (IfOk.any _) fun tr _ => ?_
    refine Ens.ite (fun _ => ?_) fun _ => Ens.ite (fun _ => ?_) fun _ => trivial
    all_goals
      refine Ens.bind (IfOk.any _) fun qL _ => Ens.bind (modP_ifLength _ _ _) fun qs hqs => Ens.bind (modP_ifLength _ _ _) fun ts hts => ?_
      refine Ens.bind (modP_ifLength _ _ _) fun ts' hts' => Ens.bind (modP_ifLength _ _ _) fun ts2 hts2 => ?_
      refine Ens.bind (IfOk.any _) fun n' _ => Ens.bind (replaceAt_ifLength _ _ _ _) fun ns' hns' => ?_
      exact ⟨hns', rfl, by simp only [hts2, hts', hts]; rfl, by simp [hqs]⟩

theorem addSegmentLoop_plus (si : Nat) (s : Segment C) (fuel : Nat) (l : SegLoop I C) :
    IfOk (fun l' => ∃ q, Plus l.st l'.st 0 0 0 q) (addSegmentLoop si s fuel l) := by
  induction fuel generalizing l with
  | zero => trivial
  | succ k ih =>
    unfold addSegmentLoop
    refine Ens.ite (fun _ => ⟨0, rfl, rfl, rfl, rfl⟩) fun _ => Ens.bind (addSegmentStep_plus si s l) fun l' h => (ih l').imp ?_
    rintro l2 ⟨q, h'⟩
    exact ⟨1 + q, h'.ns.trans h.ns, h'.ss.trans h.ss, h'.ts.trans h.ts, by rw [h'.qs, h.qs]; omega⟩

theorem addSegmentLoop_fit {M : Machine} (hM : M.Valid) (debug : Bool) (si : Nat) (s : Segment C) (fuel : Nat) (l : SegLoop I C) :
    Fit (fun l' => l'.st.qs.length ≤ M.qs) (addSegmentLoopW M debug si s fuel l) (addSegmentLoop si s fuel l) := by
  induction fuel generalizing l with
  | zero => exact Fit.rfl
  | succ k ih =>
    unfold addSegmentLoopW addSegmentLoop
    refine Fit.ite (fun _ => Fit.rfl) fun _ => ?_
    refine Fit.bind (P := fun l' => l'.st.qs.length ≤ M.qs) ?_ ?_ fun l' _ _ => ih l'
    · intro l' hl' hq
      have := ((addSegmentStep_plus si s l).imp_ok hl').qs
      rw [addSegmentStep_room hM debug si s (by omega), hl']
    · intro l' l2 _ hl2 hq
      obtain ⟨q, h⟩ := (addSegmentLoop_plus si s k l').imp_ok hl2
      have := h.qs
      omega

theorem addSegment_fit {M : Machine} (hM : M.Valid) (cfg : Cfg) (fuel : Nat) (st : St I C) (a b : Nat) (c d : Coords C) :
    Fit (Fine M cfg) (st.addSegmentW M cfg fuel a b c d) (st.addSegment cfg fuel a b c d) := by
  unfold addSegmentW addSegment
  have back : ∀ (l : SegLoop I C) (st' : St I C), (do
      let ns ← Nexus.addSegment l.st.ns l.st.ss a st.ss.length l.tiUpright
      let st' : St I C := { l.st with ns := ns }
      st'.debugCheck cfg fuel
      .ok st' : Res IErr (St I C)) = .ok st' → Fine M cfg st' → InRoom M l.st := by
    intro l st' h hf
    obtain ⟨ns, hns, h⟩ := ok_of_bind h
    obtain ⟨_, -, h⟩ := ok_of_bind h
    cases h
    exact ⟨by rw [← (nexusAddSegment_ifLength _ _ _ _ _).imp_ok hns]; exact hf.room.ns, hf.room.ss, hf.room.ts, hf.room.qs⟩
  refine Fit.bind (P := fun l => InRoom M l.st) ?_ ?_ fun l hl hP => ?_
  · intro l hl hP
    have h := (addSegmentStart_plus st a b c d).imp_ok hl
    have h1 := h.ss
    have h2 := h.ts
    have h3 := h.qs
    have := hP.ss
    have := hP.ts
    have := hP.qs
    rw [addSegmentStart_room hM cfg.debug (by omega) (by omega) (by omega), hl]
  · intro l st' hl h hf
    obtain ⟨l', hl', h⟩ := ok_of_bind h
    have hr := back l' st' h hf
    obtain ⟨q, hp⟩ := (addSegmentLoop_plus _ _ _ _).imp_ok hl'
    refine ⟨?_, ?_, ?_, ?_⟩
    · have := hp.ns; have := hr.ns; omega
    · have := hp.ss; have := hr.ss; omega
    · have := hp.ts; have := hr.ts; omega
    · have := hp.qs; have := hr.qs; omega
  · refine Fit.bind (addSegmentLoop_fit hM cfg.debug _ _ fuel l) (fun l' st' _ h hf => (back l' st' h hf).qs) fun l' _ _ => ?_
    refine Fit.same fun ns _ => ?_
    intro st' h hf
    obtain ⟨u, hu, h⟩ := ok_of_bind h
    cases h
    have := debugCheck_fit hf fuel _ hu trivial
    simp only [this, bind, Except.bind]

theorem addVertex_fit {M : Machine} (hM : M.Valid) (cfg : Cfg) (fuel : Nat) (p : PolyList I V) (xy : V → Coords C) (st : St I C)
    (vi : I) (q : Nat) :
    Fit (fun r => Fine M cfg r.1) (st.addVertexW M cfg fuel p xy vi q) (st.addVertex cfg fuel p xy vi q) := by
  unfold addVertexW addVertex
  refine Fit.same fun c _ => Fit.same fun r _ => ?_
  refine Fit.bind (P := Fine M cfg) ?_ ?_ fun st' hst' hP => ?_
  · intro st' h hP
    have hp := (addVertexAt_plus st vi c r.1 r.2).imp_ok h
    have h1 := hp.ns
    have h2 := hp.ts
    have h3 := hp.qs
    have := hP.room.ns
    have := hP.room.ts
    have := hP.room.qs
    rw [addVertexAt_room hM cfg.debug (by omega) (by omega) (by omega), h]
  · intro st' b _ h hf
    obtain ⟨_, -, h⟩ := ok_of_bind h
    cases h
    exact hf
  · exact Fit.bind (debugCheck_fit hP fuel) (fun _ _ _ _ _ => trivial) fun _ _ _ => Fit.rfl

theorem addVertexVL_fit {M : Machine} (hM : M.Valid) (cfg : Cfg) (fuel : Nat) (p : PolyList I V) (xy : V → Coords C) (st : St I C)
    (vls : List (VLoc I C)) (i : Nat) (vi : I) (q : Nat) :
    Fit (fun r => Fine M cfg r.1) (St.addVertexVLW M cfg fuel p xy st vls i vi q) (St.addVertexVL cfg fuel p xy st vls i vi q) := by
  unfold addVertexVLW addVertexVL
  refine Fit.bind (addVertex_fit hM cfg fuel p xy st vi q) ?_ fun r _ _ => Fit.rfl
  rintro ⟨st', ni⟩ b _ h hf
  obtain ⟨_, -, h⟩ := ok_of_bind h
  cases h
  exact hf

theorem addVertexVL_grow (cfg : Cfg) (fuel : Nat) (p : PolyList I V) (xy : V → Coords C) (st : St I C)
    (vls : List (VLoc I C)) (i : Nat) (vi : I) (q : Nat) :
    IfOk (fun r => Later st r.1) (St.addVertexVL cfg fuel p xy st vls i vi q) := by
  unfold addVertexVL addVertex
  refine Ens.bind (P := fun r : St I C × Nat => Later st r.1) ?_ fun r hr => Ens.bind (IfOk.any _) fun _ _ => hr
  refine Ens.bind (IfOk.any _) fun c _ => Ens.bind (find_sink _ _ _ _) fun r hr => ?_
  refine Ens.bind ((addVertexAt_keeps st vi c hr).with (addVertexAt_plus st vi c r.1 r.2)) fun st' hst' => Ens.bind (IfOk.any _) fun _ _ => ?_
  obtain ⟨hk, hp⟩ := hst'
  exact ⟨by rw [hp.ns]; omega, by rw [hp.ss]; omega, by rw [hp.ts]; omega, by rw [hp.qs]; omega, hk⟩

theorem addEnds_fit {M : Machine} (hM : M.Valid) (cfg : Cfg) (fuel : Nat) (p : PolyList I V) (xy : V → Coords C) (st : St I C)
    (vls : List (VLoc I C)) {si : Nat} (hsi : si ≤ M.vls) :
    Fit (fun r => Fine M cfg r.1) (St.addEndsW M cfg fuel p xy st vls si) (St.addEnds cfg fuel p xy st vls si) := by
  have hb := hM.fits (by simp) hsi
  unfold addEndsW addEnds
  rw [add_ok (show si + 1 < 2 ^ M.bits by omega)]
  refine Fit.same fun vl0 _ => Fit.same fun vl1 _ => ?_
  have one : ∀ i vi q (f : Nat → Nat × Nat × Nat), Fit (fun r => Fine M cfg r.1)
      (do let (st, vls, ni) ← addVertexVLW M cfg fuel p xy st vls i vi q
          .ok (st, vls, f ni) : Res IErr _)
      (do let (st, vls, ni) ← addVertexVL cfg fuel p xy st vls i vi q
          .ok (st, vls, f ni)) := by
    intro i vi q f
    refine Fit.bind (addVertexVL_fit hM cfg fuel p xy st vls i vi q) ?_ fun r _ _ => Fit.rfl
    intro r b _ h hf
    cases h
    exact hf
  have two : ∀ i vi q j vj q' (f : Nat → Nat → Nat × Nat × Nat), Fit (fun r => Fine M cfg r.1)
      (do let (st, vls, ni) ← addVertexVLW M cfg fuel p xy st vls i vi q
          let (st, vls, nj) ← addVertexVLW M cfg fuel p xy st vls j vj q'
          .ok (st, vls, f ni nj) : Res IErr _)
      (do let (st, vls, ni) ← addVertexVL cfg fuel p xy st vls i vi q
          let (st, vls, nj) ← addVertexVL cfg fuel p xy st vls j vj q'
          .ok (st, vls, f ni nj)) := by
    intro i vi q j vj q' f
    refine Fit.bind (addVertexVL_fit hM cfg fuel p xy st vls i vi q) ?_ fun r _ _ => ?_
    · rintro ⟨st', vls', ni⟩ b _ h hf
      obtain ⟨r', hr', h⟩ := ok_of_bind h
      cases h
      exact ((addVertexVL_grow ..).imp_ok hr').fine hf
    · refine Fit.bind (addVertexVL_fit hM cfg fuel p xy r.1 r.2.1 j vj q') ?_ fun r _ _ => Fit.rfl
      intro r b _ h hf
      cases h
      exact hf
  rcases vl0 with ⟨c0, i0, q0⟩ | ⟨c0, ni0⟩ <;> rcases vl1 with ⟨c1, i1, q1⟩ | ⟨c1, ni1⟩
  · refine Fit.ite (fun _ => ?_) fun _ => ?_
    · exact two _ _ _ _ _ _ fun a b => (a, b, 2)
    · exact two _ _ _ _ _ _ fun a b => (b, a, 2)
  · exact one _ _ _ fun a => (a, ni1, 1)
  · exact one _ _ _ fun a => (ni0, a, 1)
  · exact Fit.rfl

theorem addEnds_grow (cfg : Cfg) (fuel : Nat) (p : PolyList I V) (xy : V → Coords C) (st : St I C)
    (vls : List (VLoc I C)) (si : Nat) : IfOk (fun r => Later st r.1) (St.addEnds cfg fuel p xy st vls si) := by
  unfold St.addEnds
  refine Ens.bind (IfOk.any _) fun vl0 _ => Ens.bind (IfOk.any _) fun vl1 _ => ?_
  split
  · refine Ens.ite (fun _ => ?_) fun _ => ?_ <;>
      exact Ens.bind (addVertexVL_grow ..) fun r hr => Ens.bind (addVertexVL_grow ..) fun r' hr' => hr.trans hr'
  · exact Ens.bind (addVertexVL_grow ..) fun r hr => hr
  · exact Ens.bind (addVertexVL_grow ..) fun r hr => hr
  · exact Later.refl _

theorem addSegment_grow {N : Nat} {st : St I C} (hwf : WF A st) (h : Tidy N st) (cfg : Cfg) (fuel : Nat)
    {niMin niMax : Nat} (hmin : niMin < st.ns.length) (hmax : niMax < st.ns.length) (cMin cMax : Coords C) :
    IfOk (Later st) (st.addSegment cfg fuel niMin niMax cMin cMax) := by
  refine IfOk.of fun st' hst' => ?_
  have hk := (addSegment_keeps hwf h cfg fuel hmin hmax cMin cMax).imp_ok hst'
  unfold St.addSegment at hst'
  obtain ⟨l, hl, hst'⟩ := ok_of_bind hst'
  obtain ⟨l', hl', hst'⟩ := ok_of_bind hst'
  obtain ⟨ns, hns, hst'⟩ := ok_of_bind hst'
  obtain ⟨_, -, hst'⟩ := ok_of_bind hst'
  cases hst'
  have h1 := (addSegmentStart_plus ..).imp_ok hl
  obtain ⟨q, h2⟩ := (addSegmentLoop_plus ..).imp_ok hl'
  have h3 := (nexusAddSegment_ifLength ..).imp_ok hns
  refine ⟨?_, ?_, ?_, ?_, hk⟩
  · have := h1.ns; have := h2.ns; simp only; omega
  · have := h1.ss; have := h2.ss; simp only; omega
  · have := h1.ts; have := h2.ts; simp only; omega
  · have := h1.qs; have := h2.qs; simp only; omega

theorem addNthSegment_fit {M : Machine} (hM : M.Valid) {N : Nat} {st : St I C}
    (h : WF A st) (ht : Tidy N st) (cfg : Cfg) {fuel : Nat} (hf : enough N ≤ fuel) (p : PolyList I V)
    (xy : V → Coords C) {vs : List (I × Coords C)} (hvs : ∀ v ∈ vs, Src A p xy v)
    {vls : List (VLoc I C)} (hvl : VlsOK st.keys st.qs.length vs vls)
    (hn : st.ns.length + (pend vls).length ≤ N) (hs : st.ss.length < N)
    (hlen : 2 ≤ vs.length) {si : Nat} (hsi : si < vs.length) (hsM : si ≤ M.vls) :
    Fit (fun r => Fine M cfg r.1) (St.addNthSegmentW M cfg fuel p xy st vls si) (St.addNthSegment cfg fuel p xy st vls si) ∧
      IfOk (fun r => Later st r.1) (St.addNthSegment cfg fuel p xy st vls si) := by
  have main : ∀ r, St.addEnds cfg fuel p xy st vls si = .ok r → ∀ n0 n1 : Nexus I C,
      IfOk (Later r.1) (if n0.c.ltB n1.c then r.1.addSegment cfg fuel r.2.2.1 r.2.2.2.1 n0.c n1.c
        else r.1.addSegment cfg fuel r.2.2.2.1 r.2.2.1 n1.c n0.c) := by
    intro r hr n0 n1
    have hall := ((addEnds_ranked (E := fun _ => True) (fun _ => trivial) h ht cfg (fun _ => trivial) hf p xy hvs hvl hn (by omega) hlen
      hsi).with (addEnds_safe h cfg fuel p xy hvs hvl hlen si))
    obtain ⟨ht', hg, hk0, hk1, -, hi0, hi1, hp⟩ := hall.ok_of hr
    have hsj : (si + 1) % vs.length < vs.length := Nat.mod_lt _ (by omega)
    obtain ⟨v0, hv0⟩ : ∃ v, vs[si]? = some v := ⟨_, List.getElem?_eq_getElem hsi⟩
    obtain ⟨v1, hv1⟩ : ∃ v, vs[(si + 1) % vs.length]? = some v := ⟨_, List.getElem?_eq_getElem hsj⟩
    rw [hv0] at hk0
    rw [hv1] at hk1
    have hl0 := lt_of_get hk0
    have hl1 := lt_of_get hk1
    rw [keys_length] at hl0 hl1
    exact Ens.ite (fun _ => addSegment_grow hg.wf ht' cfg fuel hl0 hl1 _ _) fun _ => addSegment_grow hg.wf ht' cfg fuel hl1 hl0 _ _
  constructor
  · unfold addNthSegmentW addNthSegment
    refine Fit.bind (addEnds_fit hM cfg fuel p xy st vls hsM) ?_ fun r hr _ => ?_
    · intro r b hr hb hfine
      obtain ⟨n0, -, hb⟩ := ok_of_bind hb
      obtain ⟨n1, -, hb⟩ := ok_of_bind hb
      obtain ⟨st', hst', hb⟩ := ok_of_bind hb
      cases hb
      exact ((main r hr n0 n1).imp_ok hst').fine hfine
    · refine Fit.same fun n0 _ => Fit.same fun n1 _ => ?_
      refine Fit.bind (P := Fine M cfg) (Fit.ite (fun _ => addSegment_fit hM cfg fuel _ _ _ _ _) fun _ => addSegment_fit hM cfg fuel _ _ _ _ _)
        ?_ fun _ _ _ => Fit.rfl
      intro st' b _ hb hfine
      cases hb
      exact hfine
  · refine IfOk.of fun r hr => ?_
    unfold addNthSegment at hr
    obtain ⟨r', hr', hr⟩ := ok_of_bind hr
    obtain ⟨n0, -, hr⟩ := ok_of_bind hr
    obtain ⟨n1, -, hr⟩ := ok_of_bind hr
    obtain ⟨st', hst', hr⟩ := ok_of_bind hr
    cases hr
    exact ((addEnds_grow ..).imp_ok hr').trans ((main r' hr' n0 n1).imp_ok hst')

theorem addNthSegment_vls (cfg : Cfg) (fuel : Nat) (p : PolyList I V) (xy : V → Coords C) (st : St I C)
    (vls : List (VLoc I C)) (si : Nat) : IfOk (fun r => r.2.1.length = vls.length) (St.addNthSegment cfg fuel p xy st vls si) := by
  have vl : ∀ (st : St I C) (vls : List (VLoc I C)) i vi q,
      IfOk (fun r => r.2.1.length = vls.length) (St.addVertexVL cfg fuel p xy st vls i vi q) := fun st vls i vi q =>
    Ens.bind (IfOk.any _) fun _ _ => Ens.bind (IfOk.any _) fun _ _ => by
      show (List.set _ _ _).length = _
      simp
  unfold addNthSegment addEnds
  refine Ens.bind (P := fun r : St I C × List (VLoc I C) × Nat × Nat × Nat => r.2.1.length = vls.length) ?_ fun r hr =>
    Ens.bind (IfOk.any _) fun _ _ => Ens.bind (IfOk.any _) fun _ _ => Ens.bind (IfOk.any _) fun _ _ => hr
  refine Ens.bind (IfOk.any _) fun vl0 _ => Ens.bind (IfOk.any _) fun vl1 _ => ?_
  split
  · refine Ens.ite (fun _ => ?_) fun _ => ?_ <;>
      exact Ens.bind (vl ..) fun r hr => Ens.bind (vl ..) fun r' hr' => hr'.trans hr
  · exact Ens.bind (vl ..) fun r hr => hr
  · exact Ens.bind (vl ..) fun r hr => hr
  · exact rfl

theorem relocLoop_vls (fuel : Nat) (st : St I C) (k : Nat) (r : Reloc I C) :
    IfOk (fun vls => vls.length = r.vls.length) (relocLoop fuel st k r) := by
  induction k generalizing r with
  | zero => trivial
  | succ k ih =>
    unfold relocLoop
    refine Ens.ite (fun _ => rfl) fun _ => ?_
    refine Ens.bind (P := fun r' => r'.vls.length = r.vls.length) ?_ fun r' hr' => (ih r').imp fun _ h => h.trans hr'
    unfold relocStep
    refine Ens.bind (IfOk.any _) fun vl _ => ?_
    split
    · exact Ens.bind (IfOk.any _) fun _ _ => rfl
    · refine Ens.bind (IfOk.any _) fun _ _ => Ens.bind (IfOk.any _) fun _ _ => Ens.bind (IfOk.any _) fun _ _ => Ens.bind (IfOk.any _) fun _ _ => ?_
      show (List.set _ _ _).length = _
      simp

/-- The invariant of the loop over the segments of a polygon with `len` vertices, without the room for the state. -/
structure PolyCount (len : Nat) (rest : List Nat) (l : PolyLoop I C) : Prop where
  vls : l.vls.length = len
  count : l.updateCount + rest.length ≤ len + 1
  rest : ∀ i ∈ rest, i < len

theorem polyStep_count (cfg : Cfg) (fuel : Nat) (p : PolyList I V) (xy : V → Coords C) {len : Nat}
    {si : Nat} {rest : List Nat} {l : PolyLoop I C} (h : PolyCount len (si :: rest) l) :
    IfOk (PolyCount len rest) (polyStep cfg fuel p xy l si) := by
  have hc := h.count
  simp only [List.length_cons] at hc
  have hr : ∀ i ∈ rest, i < len := fun i hi => h.rest i (by simp [hi])
  unfold polyStep
  refine Ens.bind (addNthSegment_vls ..) fun r hv => Ens.bind (IfOk.any _) fun pd _ => ?_
  refine Ens.ite (fun _ => ?_) fun _ => ⟨hv.trans h.vls, by simp only; omega, hr⟩
  refine Ens.bind (relocLoop_vls ..) fun vls hvls => ⟨?_, by simp only; omega, hr⟩
  exact (hvls.trans hv).trans h.vls

theorem polyStep_fit {M : Machine} (hM : M.Valid) {N : Nat} (cfg : Cfg)
    {fuel : Nat} (hf : enough N ≤ fuel) (p : PolyList I V) (xy : V → Coords C)
    {vs : List (I × Coords C)} (hvs : ∀ v ∈ vs, Src A p xy v) (hlen : 2 ≤ vs.length) (hvM : vs.length ≤ M.vls) {st0 : St I C}
    {done : List Nat} {l : St.PolyLoop I C} (h : PolyInv A vs st0 done l) (ht : Tidy N l.st)
    (hn : st0.ns.length + vs.length ≤ N) (hs : st0.ss.length + done.length < N)
    {si : Nat} {rest : List Nat} (hp : PolyCount vs.length (si :: rest) l) :
    Fit (fun l' => Fine M cfg l'.st) (St.polyStepW M cfg fuel p xy l si) (St.polyStep cfg fuel p xy l si) ∧
      IfOk (fun l' => Later l.st l'.st) (St.polyStep cfg fuel p xy l si) := by
  have hsi := hp.rest si (by simp)
  have hc := hp.count
  simp only [List.length_cons] at hc
  have hb := hM.fits (by simp) hvM
  have hsz : l.st.ns.length + (pend l.vls).length = st0.ns.length + vs.length := by
    have := h.perm.length_eq
    simpa [List.length_append, keys_length] using this
  have hss : l.st.ss.length = st0.ss.length + done.length := by
    obtain ⟨segs, h1, h2⟩ := h.ss
    rw [h1, List.length_append, h2.length_eq]
  obtain ⟨e1, e2⟩ := addNthSegment_fit hM h.wf ht cfg hf p xy hvs h.ok (by omega) (by omega) hlen hsi (by omega)
  have same : ∀ (r : St I C × List (VLoc I C) × Nat) (l' : PolyLoop I C), (do
      let pending ← subP l.pending r.2.2
      if l.i = l.nextUpdate then do
        let vls ← relocate fuel r.1 r.2.1 si pending
        let updateCount := l.updateCount + 1
        .ok ⟨r.1, vls, pending, l.i + 1, updateCount, cfg.mathN vls.length updateCount⟩
      else .ok ⟨r.1, r.2.1, pending, l.i + 1, l.updateCount, l.nextUpdate⟩ : Res IErr (PolyLoop I C)) = .ok l' → l'.st = r.1 := by
    intro r l' hr
    obtain ⟨pd, -, hr⟩ := ok_of_bind hr
    split at hr
    · obtain ⟨_, -, hr⟩ := ok_of_bind hr
      cases hr; rfl
    · cases hr; rfl
  constructor
  · unfold polyStepW polyStep
    refine Fit.bind e1 (fun r l' _ hr hfine => by rw [same r l' hr] at hfine; exact hfine) fun r hr hfine => Fit.same fun pd _ => ?_
    have hv : r.2.1.length = vs.length :=
      (addNthSegment_vls cfg fuel p xy l.st l.vls si).imp_ok hr |>.trans hp.vls
    refine Fit.ite (fun _ => ?_) fun _ => Fit.rfl
    have e2 : relocateW M cfg.debug fuel r.1 r.2.1 si pd = relocate fuel r.1 r.2.1 si pd :=
      new_eq (by have := hM.big; omega) (relocLoop_room hM _ _ _ _ (hv.trans_le hvM) (by simp only; omega))
    rw [e2]
    exact Fit.same fun vls _ => Fit.of_eq (add_eq' (by omega) rfl)
  · refine IfOk.of fun l' hl' => ?_
    unfold polyStep at hl'
    obtain ⟨r, hr, hl'⟩ := ok_of_bind hl'
    rw [same r l' hl']
    exact e2.imp_ok hr

theorem addPolygon_fit {M : Machine} (hM : M.Valid) {N : Nat} {cfg : Cfg} {st : St I C}
    (h : WF A st) (ht : Tidy N st) (hcfg : cfg.Valid) {fuel : Nat}
    (hf : enough N ≤ fuel) (p : PolyList I V) (xy : V → Coords C) (k : Nat)
    {vs : List (I × Coords C)} (hvs : ∀ v ∈ vs, Src A p xy v) (hlen : 2 ≤ vs.length)
    (hn : st.ns.length + vs.length ≤ N) (hs : st.ss.length + vs.length ≤ N) (hvM : vs.length ≤ M.vls) (huM : vs.length ≤ M.us) :
    Fit (Fine M cfg) (St.addPolygonW M cfg fuel p xy k st (startLocs vs)) (St.addPolygon cfg fuel p xy k st (startLocs vs)) ∧
      IfOk (Later st) (St.addPolygon cfg fuel p xy k st (startLocs vs)) := by
  have hol : (cfg.order k vs.length).length = vs.length := by
    rw [(hcfg k vs.length).length_eq, List.length_range]
  have hl : (startLocs vs).length = vs.length := by simp [startLocs]
  unfold St.addPolygonW St.addPolygon
  rw [hl]
  have h0 : PolyInv A vs st [] ⟨st, startLocs vs, vs.length, 0, 1, cfg.mathN vs.length 1⟩ := by
    refine ⟨h, ⟨hl, ?_⟩, List.prefix_refl _, ?_, by simp, ?_, ⟨[], by simp, .nil⟩⟩
    · intro i v vl h1 h2
      simp only [startLocs, List.getElem?_map, h1, Option.map_some, Option.some.injEq] at h2
      subst h2
      exact ⟨rfl, h.root⟩
    · show (st.keys ++ pend (startLocs vs)).Perm _
      rw [pend_startLocs]
    · show _ = (pend (startLocs vs)).length
      rw [pend_startLocs]
  have hcap : (Machine.capacity M.us vs.length : Res IErr Unit) = .ok () := if_pos huM
  simp only [hcap]
  have key : ∀ (rest : List Nat) (l : St.PolyLoop I C), Tidy N l.st → PolyCount vs.length rest l →
      (∃ done, cfg.order k vs.length = done ++ rest ∧ PolyInv A vs st done l) →
      Fit (fun l' => Fine M cfg l'.st) (rest.foldlM (St.polyStepW M cfg fuel p xy) l) (rest.foldlM (St.polyStep cfg fuel p xy) l) ∧
        IfOk (fun l' => Later l.st l'.st) (rest.foldlM (St.polyStep cfg fuel p xy) l) := by
    intro rest
    induction rest with
    | nil => intro l _ _ _; exact ⟨Fit.rfl, Later.refl _⟩
    | cons a rest ih =>
      rintro l ht hfl ⟨done, hd, hi⟩
      have ha : a < vs.length := hfl.rest a (by simp)
      have hdl : done.length < vs.length := by
        rw [hd] at hol
        simp only [List.length_append, List.length_cons] at hol
        omega
      obtain ⟨e1, e2⟩ := polyStep_fit hM cfg hf p xy hvs hlen hvM hi ht hn (by omega) hfl
      have next : ∀ l', polyStep cfg fuel p xy l a = .ok l' →
          Fit (fun l' => Fine M cfg l'.st) (rest.foldlM (St.polyStepW M cfg fuel p xy) l') (rest.foldlM (St.polyStep cfg fuel p xy) l') ∧
            IfOk (fun l2 => Later l'.st l2.st) (rest.foldlM (St.polyStep cfg fuel p xy) l') := by
        intro l' hl'
        have hall := ((polyStep_ranked (E := fun _ => True) (fun _ => trivial) cfg (fun _ => trivial) hf p xy hvs hlen hi ht hn
          (by omega) ha).with (polyStep_safe cfg fuel p xy hvs hlen hi a))
        obtain ⟨h1, h2⟩ := hall.ok_of hl'
        exact ih l' h1 ((polyStep_count cfg fuel p xy hfl).imp_ok hl') ⟨done ++ [a], by simp [hd], h2⟩
      rw [List.foldlM_cons, List.foldlM_cons]
      constructor
      · exact Fit.bind e1 (fun l' l2 hl' hl2 hfine => ((next l' hl').2.imp_ok hl2).fine hfine) fun l' hl' _ => (next l' hl').1
      · refine IfOk.of fun l2 hl2 => ?_
        obtain ⟨l', hl', hl2⟩ := ok_of_bind hl2
        exact (e2.imp_ok hl').trans ((next l' hl').2.imp_ok hl2)
  obtain ⟨k1, k2⟩ := key _ ⟨st, startLocs vs, vs.length, 0, 1, cfg.mathN vs.length 1⟩ ht ⟨hl, by simp only; omega,
    fun i hi => List.mem_range.1 ((hcfg k vs.length).subset hi)⟩ ⟨[], rfl, h0⟩
  constructor
  · refine Fit.bind k1 ?_ fun _ _ _ => Fit.rfl
    intro l b _ hb hfine
    cases hb
    exact hfine
  · refine IfOk.of fun st' hst' => ?_
    obtain ⟨l', hl', hst'⟩ := ok_of_bind hst'
    cases hst'
    exact k2.imp_ok hl'

/-- No polygon has more vertices than fit into the vectors for them, if `n` vertices were already read. -/
def PolysFit (M : Machine) : Nat → List (Option (Elem I)) → Prop
  | _, [] => True
  | _, none :: _ => True
  | n, some (.cont _) :: es => n < M.vls ∧ PolysFit M (n + 1) es
  | n, some .newPolygon :: es => n ≤ M.us ∧ PolysFit M 0 es

theorem build_fit {M : Machine} (hM : M.Valid) (cfg : Cfg) (hcfg : cfg.Valid) {fuel : Nat} (p : PolyList I V)
    (xy : V → Coords C) (hf : enough (conts p.elems) ≤ fuel) :
    ∀ (rest : List (Option (Elem I))) (l : BuildLoop I C), BuildRank p xy rest l → l.vLookup.length ≤ M.vls →
      PolysFit M l.vLookup.length rest →
      Fit (fun l' => Fine M cfg l'.st) (rest.foldlM (St.buildStepW M cfg fuel p xy) l) (rest.foldlM (St.buildStep cfg fuel p xy) l) ∧
        IfOk (fun l' => Later l.st l'.st) (rest.foldlM (St.buildStep cfg fuel p xy) l) := by
  intro rest
  induction rest with
  | nil => intro l _ _ _; exact ⟨Fit.rfl, Later.refl _⟩
  | cons e rest ih =>
    intro l h hvM hp
    have hns := h.ns
    have hss := h.ss
    have rank : ∀ l', buildStep cfg fuel p xy l e = .ok l' → BuildRank p xy rest l' := fun l' hl' =>
      (buildStep_ranked cfg hcfg p xy hf h).ok_of hl'
    suffices hstep : Fit (fun l' => Fine M cfg l'.st) (buildStepW M cfg fuel p xy l e) (buildStep cfg fuel p xy l e) ∧
        IfOk (fun l' => Later l.st l'.st ∧ l'.vLookup.length ≤ M.vls ∧ PolysFit M l'.vLookup.length rest) (buildStep cfg fuel p xy l e) by
      obtain ⟨e1, e2⟩ := hstep
      rw [List.foldlM_cons, List.foldlM_cons]
      have next := fun l' (hl' : buildStep cfg fuel p xy l e = .ok l') => ih l' (rank l' hl') (e2.imp_ok hl').2.1 (e2.imp_ok hl').2.2
      constructor
      · exact Fit.bind e1 (fun l' l2 hl' hl2 hfine => ((next l' hl').2.imp_ok hl2).fine hfine) fun l' hl' _ => (next l' hl').1
      · refine IfOk.of fun l2 hl2 => ?_
        obtain ⟨l', hl', hl2⟩ := ok_of_bind hl2
        exact (e2.imp_ok hl').1.trans ((next l' hl').2.imp_ok hl2)
    rcases e with _ | ⟨i⟩ | _
    · exact ⟨Fit.rfl, trivial⟩
    · obtain ⟨p1, p2⟩ := hp
      have := hM.big
      constructor
      · exact Fit.of_eq (bind_same fun c _ => new_eq (by omega) <| push_eq p1 rfl)
      · exact Ens.bind (IfOk.of fun _ _ => trivial) fun c (_ : True) => ⟨Later.refl _, by simp only [List.length_append, List.length_singleton]; omega, by simpa using p2⟩
    · obtain ⟨p1, p2⟩ := hp
      obtain ⟨⟨hwf, vs, hvs, hsrc⟩, ht, -, -, -⟩ := h
      have hc : conts (some .newPolygon :: rest) = conts rest := by simp [conts]
      rw [hc] at hns hss
      have hlv : l.vLookup.length = vs.length := by rw [hvs]; simp [startLocs]
      simp only [buildStepW, buildStep]
      split
      · split
        · exact ⟨Fit.rfl, trivial⟩
        · obtain ⟨a1, a2⟩ := addPolygon_fit hM hwf ht hcfg hf p xy l.k hsrc (by omega) (by omega) (by omega) (by omega) (by omega)
          rw [hvs]
          constructor
          · refine Fit.bind (Fit.mapErr _ a1) ?_ fun _ _ _ => Fit.rfl
            intro st' l' _ hb hfine
            cases hb
            exact hfine
          · refine IfOk.of fun l' hl' => ?_
            obtain ⟨st', hst', hl'⟩ := ok_of_bind hl'
            cases hl'
            refine ⟨?_, Nat.zero_le _, p2⟩
            rcases hr : addPolygon cfg fuel p xy l.k l.st (startLocs vs) with e | s
            · rw [hr] at hst'; cases e <;> cases hst'
            · rw [hr] at hst'
              cases hst'
              exact a2.imp_ok hr
      · rename_i h0
        have h0 : l.vLookup.length = 0 := by omega
        exact ⟨Fit.rfl, Later.refl _, hvM, by rw [h0]; exact p2⟩

end

end Tri
