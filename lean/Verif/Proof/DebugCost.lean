import Verif.Model.DebugCost
import Verif.Proof.WordsRoom
import Verif.Proof.Zigzag

/-!
# The consistency check of debug builds
-/

set_option linter.unusedSectionVars false

namespace Tri

open Machine St

variable {I V C : Type}

theorem checkQueryC_erase (st : St I C) (fuel qi : Nat) : (st.checkQueryC fuel qi).map (fun _ => ()) = st.checkQuery fuel qi := by
  induction fuel generalizing qi with
  | zero => rfl
  | succ fuel ih =>
    unfold checkQueryC checkQuery
    rcases (getU st.qs qi : Res IErr _) with e | q
    · rfl
    · cases q with
      | branch l r b =>
        simp only [bind, Except.bind]
        rw [← ih l, ← ih r]
        rcases st.checkQueryC fuel l with e | a
        · rfl
        · rcases st.checkQueryC fuel r with e | c <;> rfl
      | sink t =>
        simp only [bind, Except.bind]
        rcases (getU st.ts t : Res IErr _) with e | q <;> rfl

/-- Every path to a sink is counted. -/
theorem ways_le_checkQueryC {st : St I C} {fuel qi m : Nat} (h : st.checkQueryC fuel qi = .ok m) (s f : Nat) : ways st.qs s f qi ≤ m := by
  induction fuel generalizing qi m f with
  | zero => cases h
  | succ fuel ih =>
    unfold checkQueryC at h
    cases f with
    | zero => simp [ways]
    | succ f =>
      rw [ways]
      unfold getU at h
      rcases hq : st.qs[qi]? with _ | q
      · simp only [hq] at h; cases h
      · rw [hq] at h
        cases q with
        | branch l r b =>
          simp only [bind, Except.bind] at h
          rcases hl : st.checkQueryC fuel l with e | a
          · rw [hl] at h; cases h
          · rw [hl] at h
            rcases hr : st.checkQueryC fuel r with e | c
            · rw [hr] at h; cases h
            · rw [hr] at h
              cases h
              have := ih hl f
              have := ih hr f
              simp only
              omega
        | sink t =>
          simp only [bind, Except.bind] at h
          split at h
          · cases h
          · cases h
            simp only
            split <;> omega

/-- The check counts less than two to the power of the depth. -/
theorem checkQueryC_deep {st : St I C} {D : Nat} (hd : Deep D st.qs) {fuel m : Nat} (h : st.checkQueryC fuel 0 = .ok m) : m < 2 ^ (D + 1) := by
  obtain ⟨δ, h1, h2⟩ := hd
  have key : ∀ (fuel qi m : Nat), st.checkQueryC fuel qi = .ok m → m + 1 ≤ 2 ^ (D - δ qi + 1) := by
    intro fuel
    induction fuel with
    | zero => intro _ _ h; cases h
    | succ fuel ih =>
      intro qi m h
      unfold checkQueryC getU at h
      rcases hq : st.qs[qi]? with _ | q
      · simp only [hq] at h; cases h
      · rw [hq] at h
        cases q with
        | branch l r b =>
          simp only [bind, Except.bind] at h
          rcases hl : st.checkQueryC fuel l with e | a
          · rw [hl] at h; cases h
          · rw [hl] at h
            rcases hr : st.checkQueryC fuel r with e | c
            · rw [hr] at h; cases h
            · rw [hr] at h
              cases h
              obtain ⟨d1, d2⟩ := h2 _ _ _ _ hq
              have e1 := h1 l
              have e2 := h1 r
              have := ih _ _ hl
              have := ih _ _ hr
              have l1 : 2 ^ (D - δ l + 1) ≤ 2 ^ (D - δ qi) := Nat.pow_le_pow_right (by omega) (by omega)
              have l2 : 2 ^ (D - δ r + 1) ≤ 2 ^ (D - δ qi) := Nat.pow_le_pow_right (by omega) (by omega)
              have l3 : 2 ^ (D - δ qi + 1) = 2 * 2 ^ (D - δ qi) := by rw [Nat.pow_succ]; omega
              omega
        | sink t =>
          simp only [bind, Except.bind] at h
          split at h
          · cases h
          · cases h
            have : 2 ^ 1 ≤ 2 ^ (D - δ qi + 1) := Nat.pow_le_pow_right (by omega) (by omega)
            omega
  have := key fuel 0 m h
  have : 2 ^ (D - δ 0 + 1) ≤ 2 ^ (D + 1) := Nat.pow_le_pow_right (by omega) (by omega)
  omega

theorem checkQueryC_more {st : St I C} {fuel fuel' qi m : Nat} (h : st.checkQueryC fuel qi = .ok m) (hf : fuel ≤ fuel') :
    st.checkQueryC fuel' qi = .ok m := by
  induction fuel generalizing fuel' qi m with
  | zero => cases h
  | succ fuel ih =>
    obtain ⟨fuel', rfl⟩ : ∃ n, fuel' = n + 1 := ⟨fuel' - 1, by omega⟩
    unfold checkQueryC at h ⊢
    rcases hq : (getU st.qs qi : Res IErr _) with e | q
    · rw [hq] at h; cases h
    · rw [hq] at h
      cases q with
      | branch l r b =>
        simp only [bind, Except.bind] at h ⊢
        rcases hl : st.checkQueryC fuel l with e | a
        · rw [hl] at h; cases h
        · rw [hl] at h
          rcases hr : st.checkQueryC fuel r with e | c
          · rw [hr] at h; cases h
          · rw [hr] at h
            rw [ih hl (by omega), ih hr (by omega)]
            exact h
      | sink t => exact h

/-- With less depth than it needs the check does not get to its end. -/
theorem checkQueryC_less {st : St I C} {fuel fuel' qi m : Nat} (h : st.checkQueryC fuel qi = .ok m) (hf : fuel' ≤ fuel) :
    st.checkQueryC fuel' qi = .ok m ∨ st.checkQueryC fuel' qi = .error .timeout := by
  induction fuel generalizing fuel' qi m with
  | zero => cases h
  | succ fuel ih =>
    cases fuel' with
    | zero => exact .inr rfl
    | succ fuel' =>
      unfold checkQueryC at h ⊢
      rcases hq : (getU st.qs qi : Res IErr _) with e | q
      · rw [hq] at h; cases h
      · rw [hq] at h
        cases q with
        | branch l r b =>
          simp only [bind, Except.bind] at h ⊢
          rcases hl : st.checkQueryC fuel l with e | a
          · rw [hl] at h; cases h
          · rw [hl] at h
            rcases hr : st.checkQueryC fuel r with e | c
            · rw [hr] at h; cases h
            · rw [hr] at h
              rcases ih hl (fuel' := fuel') (by omega) with h1 | h1 <;> rw [h1]
              · rcases ih hr (fuel' := fuel') (by omega) with h2 | h2 <;> rw [h2]
                · exact .inl h
                · exact .inr rfl
              · exact .inr rfl
        | sink t => exact .inl h

attribute [local instance] exact in
theorem FindsN.le_checkQueryC {K : Type} [Field K] [LinearOrder K] [IsStrictOrderedRing K] {st : St I K} {v : Coords K} {q q' t k : Nat} (h : FindsN st.qs v q q' t k) {fuel m : Nat}
    (hm : st.checkQueryC fuel q = .ok m) : k ≤ fuel := by
  induction h generalizing fuel m with
  | sink h =>
    cases fuel with
    | zero => cases hm
    | succ fuel => omega
  | @branch q l r q' t k b h _ ih =>
    cases fuel with
    | zero => cases hm
    | succ fuel =>
      unfold checkQueryC getU at hm
      rw [h] at hm
      simp only [bind, Except.bind] at hm
      rcases hl : st.checkQueryC fuel l with e | a
      · rw [hl] at hm; cases hm
      · rw [hl] at hm
        rcases hr : st.checkQueryC fuel r with e | c
        · rw [hr] at hm; cases hm
        · have : k ≤ fuel := by
            cases hb : b.useLeft v with
            | true => rw [hb] at ih; exact ih hl
            | false => rw [hb] at ih; exact ih hr
          omega

/-- With overflow checks, the machine counts right or panics. -/
theorem checkQueryW_count {M : Machine} {st : St I C} {fuel qi n : Nat} (h : st.checkQueryW M true fuel qi = .ok n) :
    st.checkQueryC fuel qi = .ok n ∧ n < 2 ^ M.bits := by
  have add : ∀ {a b n}, (M.add true a b : Res IErr Nat) = .ok n → n = a + b ∧ a + b < 2 ^ M.bits := by
    intro a b n h
    unfold Machine.add at h
    split at h
    · cases h; exact ⟨rfl, by assumption⟩
    · cases h
  induction fuel generalizing qi n with
  | zero => cases h
  | succ fuel ih =>
    unfold checkQueryW at h
    unfold checkQueryC
    rcases hq : (getU st.qs qi : Res IErr _) with e | q
    · rw [hq] at h; cases h
    · rw [hq] at h
      cases q with
      | branch l r b =>
        simp only [bind, Except.bind] at h ⊢
        rcases hl : st.checkQueryW M true fuel l with e | a
        · rw [hl] at h; cases h
        · rw [hl] at h
          rcases hr : st.checkQueryW M true fuel r with e | c
          · rw [hr] at h; cases h
          · rw [hr] at h
            simp only at h
            rcases hs : (M.add true a c : Res IErr Nat) with e | s
            · rw [hs] at h; cases h
            · rw [hs] at h
              simp only at h
              obtain ⟨rfl, -⟩ := add hs
              obtain ⟨rfl, h2⟩ := add h
              rw [(ih hl).1, (ih hr).1]
              exact ⟨rfl, h2⟩
      | sink t =>
        simp only [bind, Except.bind] at h ⊢
        rcases hq : (getU st.ts t : Res IErr _) with e | q
        · rw [hq] at h; cases h
        · rw [hq] at h
          simp only at h ⊢
          obtain ⟨rfl, h2⟩ := add h
          exact ⟨rfl, h2⟩

section
variable [Scalar C] [DecidableEq I]

theorem IfOk.of {ε α : Type} {P : α → Prop} {x : Res ε α} (h : ∀ a, x = .ok a → P a) : Ens (fun _ => True) P x := by
  cases x with
  | error e => trivial
  | ok a => exact h a rfl

theorem polyStepW_checked (M : Machine) (cfg : Cfg) (fuel : Nat) (p : PolyList I V) (xy : V → Coords C) (l : PolyLoop I C) (si : Nat) :
    Ens (fun _ => True) (fun l' => l'.st.debugCheckW M cfg fuel = .ok ()) (polyStepW M cfg fuel p xy l si) := by
  have any : ∀ {α : Type} (x : Res IErr α), Ens (fun _ => True) (fun _ => True) x := fun x => by cases x <;> trivial
  have seg : ∀ (st : St I C) a b c d, Ens (fun _ => True) (fun st' => st'.debugCheckW M cfg fuel = .ok ()) (st.addSegmentW M cfg fuel a b c d) := by
    intro st a b c d
    unfold addSegmentW
    refine Ens.bind (any _) fun l _ => Ens.bind (any _) fun l _ => Ens.bind (any _) fun ns _ => ?_
    exact Ens.bind (P := fun u => ({ l.st with ns := ns } : St I C).debugCheckW M cfg fuel = .ok u) (IfOk.of fun _ h => h) fun _ h => h
  have nth : Ens (fun _ => True) (fun r => r.1.debugCheckW M cfg fuel = .ok ()) (addNthSegmentW M cfg fuel p xy l.st l.vls si) := by
    unfold addNthSegmentW
    refine Ens.bind (any _) fun r _ => Ens.bind (any _) fun n0 _ => Ens.bind (any _) fun n1 _ => ?_
    refine Ens.bind (P := fun st' : St I C => st'.debugCheckW M cfg fuel = .ok ()) ?_ fun st' h => h
    split
    · exact seg _ _ _ _ _
    · exact seg _ _ _ _ _
  unfold polyStepW
  refine Ens.bind nth fun r hr => Ens.bind (any _) fun pd _ => ?_
  refine Ens.ite (fun _ => ?_) fun _ => hr
  exact Ens.bind (any _) fun vls _ => Ens.bind (any _) fun u _ => hr

/-- A trapezoidation that succeeds on a machine has passed the last check there. -/
theorem trapezoidizeW_checked {M : Machine} (hM : M.Valid) (cfg : Cfg) (fuel : Nat) (p : PolyList I V) (xy : V → Coords C) :
    Ens (fun _ => True) (fun st => st = St.init ∨ st.debugCheckW M cfg fuel = .ok ()) (trapezoidizeW M cfg fuel p xy) := by
  have hb := hM.big
  have hnew : Ens (fun _ => True) (fun st => st = St.init) (newW M cfg.debug p.vertexCount : Res TrapErr (St I C)) := by
    have : Limited (fun _ => True) (newW M cfg.debug p.vertexCount : Res TrapErr (St I C)) (.ok St.init) := by
      unfold newW
      refine Limited.mulAny fun _ => Limited.capacity fun _ => Limited.new (by omega) <| Limited.new (by omega) <| Limited.push fun hq => ?_
      refine Limited.mulAny fun _ => Limited.addAny fun _ => Limited.capacity fun _ => Limited.push fun ht => ?_
      exact Limited.capacity fun _ => Limited.capacity fun _ => Limited.capacity fun _ => Limited.ok trivial
    rcases this with h | ⟨h, -⟩ <;> rw [h] <;> trivial
  unfold trapezoidizeW
  refine Ens.bind hnew fun st hst => ?_
  subst hst
  refine Ens.bind (Ens.foldlM (fun _ (l : BuildLoop I C) => l.st = St.init ∨ l.st.debugCheckW M cfg fuel = .ok ()) ?_ _ _ (.inl rfl)) fun l h => h
  intro e rest l hl
  rcases e with _ | ⟨i⟩ | _
  · trivial
  · unfold buildStepW
    refine Ens.bind (P := fun _ => True) (IfOk.of fun _ _ => trivial) fun c _ =>
      Ens.bind (P := fun _ => True) (IfOk.of fun _ _ => trivial) fun c _ => Ens.bind (P := fun _ => True) (IfOk.of fun _ _ => trivial) fun c _ => hl
  · unfold buildStepW
    refine Ens.ite (fun _ => Ens.ite (fun _ => trivial) fun _ => ?_) fun _ => hl
    refine Ens.bind (P := fun st : St I C => st = St.init ∨ st.debugCheckW M cfg fuel = .ok ()) ?_ fun st h => h
    have : Ens (fun _ => True) (fun st : St I C => st = St.init ∨ st.debugCheckW M cfg fuel = .ok ())
        (addPolygonW M cfg fuel p xy l.k l.st l.vLookup) := by
      unfold addPolygonW
      refine Ens.bind (P := fun _ => True) (IfOk.of fun _ _ => trivial) fun _ _ => ?_
      refine Ens.bind (Ens.foldlM (fun _ (l : PolyLoop I C) => l.st = St.init ∨ l.st.debugCheckW M cfg fuel = .ok ()) ?_ _ _ hl) fun l h => h
      intro si rest l _
      exact (polyStepW_checked M cfg fuel p xy l si).imp fun l' h => .inr h
    unfold Res.mapErr
    split
    · rename_i st h
      rw [h] at this
      exact this
    all_goals trivial

end

end Tri
