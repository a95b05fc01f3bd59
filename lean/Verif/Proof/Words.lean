import Verif.Model.Words
import Verif.Proof.RankedBuild

/-!
# A machine with words of a fixed length gives the same result or panics

`Limited P x y`: the run `x` with limits panics, or it is the run `y` without limits, and its value has the property `P`.
-/

namespace Tri

open Machine St

variable {ε α β I V C : Type}

/-- The run with limits panics or is the one without. -/
def Limited (P : α → Prop) (x y : Res ε α) : Prop := x = .error .panic ∨ x = y ∧ ∀ a, x = .ok a → P a

theorem Limited.panic {P : α → Prop} {y : Res ε α} : Limited P (.error .panic) y := .inl rfl

theorem Limited.ok {P : α → Prop} {a : α} (h : P a) : Limited P (.ok a : Res ε α) (.ok a) :=
  .inr ⟨rfl, fun _ e => by cases e; exact h⟩

theorem Limited.error {P : α → Prop} {e : Fault ε} : Limited P (.error e : Res ε α) (.error e) :=
  .inr ⟨rfl, fun _ e => by cases e⟩

theorem Limited.same (x : Res ε α) : Limited (fun a => x = .ok a) x x := .inr ⟨rfl, fun _ h => h⟩

theorem Limited.imp {P Q : α → Prop} {x y : Res ε α} (h : Limited P x y) (hPQ : ∀ a, P a → Q a) : Limited Q x y :=
  Or.imp id (fun h => ⟨h.1, fun a ha => hPQ a (h.2 a ha)⟩) h

theorem Limited.bind {P : α → Prop} {Q : β → Prop} {x y : Res ε α} {f g : α → Res ε β} (h : Limited P x y)
    (hf : ∀ a, P a → Limited Q (f a) (g a)) : Limited Q (x >>= f) (y >>= g) := by
  rcases h with rfl | ⟨rfl, h⟩
  · exact .inl rfl
  · cases x with
    | error e => exact Limited.error
    | ok a => exact hf a (h a rfl)

theorem Limited.ite {P : α → Prop} {c : Prop} [Decidable c] {x y x' y' : Res ε α} (h : c → Limited P x x') (h' : ¬ c → Limited P y y') :
    Limited P (if c then x else y) (if c then x' else y') := by
  by_cases hc : c
  · rw [if_pos hc, if_pos hc]; exact h hc
  · rw [if_neg hc, if_neg hc]; exact h' hc

theorem Limited.push {room : Nat} {xs : List α} {x : α} {Q : β → Prop} {f : List α → Res ε β} {y : Res ε β}
    (h : (xs ++ [x]).length ≤ room → Limited Q (f (xs ++ [x])) y) : Limited Q (Machine.push room xs x >>= f) y := by
  unfold Machine.push
  split
  · exact h (by simpa using by assumption)
  · exact .inl rfl

theorem Limited.capacity {room n : Nat} {Q : β → Prop} {f : Unit → Res ε β} {y : Res ε β}
    (h : n ≤ room → Limited Q (f ()) y) : Limited Q (Machine.capacity room n >>= f) y := by
  unfold Machine.capacity
  split
  · exact h (by assumption)
  · exact .inl rfl

theorem new_ok {M : Machine} {debug : Bool} {i : Nat} (h : i + 1 < 2 ^ M.bits) : (M.new debug i : Res ε Nat) = .ok i := if_pos h

theorem add_ok {M : Machine} {debug : Bool} {a b : Nat} (h : a + b < 2 ^ M.bits) :
    (M.add debug a b : Res ε Nat) = .ok (a + b) := if_pos h

theorem mul_ok {M : Machine} {debug : Bool} {a b : Nat} (h : a * b < 2 ^ M.bits) :
    (M.mul debug a b : Res ε Nat) = .ok (a * b) := if_pos h

theorem Limited.new {M : Machine} {debug : Bool} {i : Nat} {Q : β → Prop} {f : Nat → Res ε β} {y : Res ε β} (hi : i + 1 < 2 ^ M.bits)
    (h : Limited Q (f i) y) : Limited Q (M.new debug i >>= f) y := by rw [new_ok hi]; exact h

theorem Limited.add {M : Machine} {debug : Bool} {a b : Nat} {Q : β → Prop} {f : Nat → Res ε β} {y : Res ε β}
    (hi : a + b < 2 ^ M.bits) (h : Limited Q (f (a + b)) y) : Limited Q (M.add debug a b >>= f) y := by rw [add_ok hi]; exact h

theorem Limited.mulAny {M : Machine} {debug : Bool} {a b : Nat} {Q : β → Prop} {f : Nat → Res ε β} {y : Res ε β}
    (h : ∀ n, Limited Q (f n) y) : Limited Q (M.mul debug a b >>= f) y := by
  unfold Machine.mul
  split
  · exact h _
  · split
    · exact Limited.panic
    · exact h _

theorem Limited.addAny {M : Machine} {debug : Bool} {a b : Nat} {Q : β → Prop} {f : Nat → Res ε β} {y : Res ε β}
    (h : ∀ n, Limited Q (f n) y) : Limited Q (M.add debug a b >>= f) y := by
  unfold Machine.add
  split
  · exact h _
  · split
    · exact Limited.panic
    · exact h _

/-- A number that is at most two above the length of a vector. -/
theorem Machine.Valid.fits {M : Machine} (h : M.Valid) {room n : Nat}
    (hr : room ∈ [M.ns, M.ss, M.ts, M.qs, M.vls, M.us, M.chain, M.branches, M.chains]) (hn : n ≤ room) : n + 3 ≤ 2 ^ M.bits := by
  have h1 := h.room room hr
  have h2 : 2 ^ M.bits = 2 ^ (M.bits - 1) + 2 ^ (M.bits - 1) := by
    have hb : M.bits = M.bits - 1 + 1 := by have := h.bits; omega
    calc 2 ^ M.bits = 2 ^ (M.bits - 1 + 1) := by rw [← hb]
      _ = _ := by rw [pow_succ]; omega
  have h3 : 2 ^ 1 ≤ 2 ^ (M.bits - 1) := Nat.pow_le_pow_right (by omega) (by have := h.bits; omega)
  omega

theorem Machine.Valid.big {M : Machine} (h : M.Valid) : 4 ≤ 2 ^ M.bits := by
  have h1 : 2 ^ 2 ≤ 2 ^ M.bits := Nat.pow_le_pow_right (by omega) (by have := h.bits; omega)
  omega

/-- The state has no vector that is too long. -/
structure InRoom (M : Machine) (st : St I C) : Prop where
  ns : st.ns.length ≤ M.ns
  ss : st.ss.length ≤ M.ss
  ts : st.ts.length ≤ M.ts
  qs : st.qs.length ≤ M.qs

theorem modP_near (xs : List α) (i : Nat) (f : α → α) :
    Limited (fun ys => ys.length = xs.length) (modP xs i f : Res ε _) (modP xs i f) := by
  refine (Limited.same _).imp fun a h => ?_
  unfold modP at h
  split at h
  · cases h; simp
  · cases h

theorem replaceAt_near (ns : List (Nexus I C)) (ni : Option Nat) (a b : Nat) :
    Limited (fun ys => ys.length = ns.length) (replaceAt ns ni a b) (replaceAt ns ni a b) := by
  cases ni with
  | none => exact Limited.ok rfl
  | some ni =>
    refine Limited.bind (Limited.same _) fun n _ => Limited.bind (Limited.same _) fun n' _ => Limited.ok (by simp)

theorem nexusAddSegment_near [Scalar C] (ns : List (Nexus I C)) (ss : List (Segment C)) (ni si ti : Nat) :
    Limited (fun ys => ys.length = ns.length) (Nexus.addSegment ns ss ni si ti) (Nexus.addSegment ns ss ni si ti) := by
  refine (Limited.same _).imp fun ys h => ?_
  unfold Nexus.addSegment at h
  cases hd : Nexus.getSegmentDirection ss ni si with
  | error e => rw [hd] at h; cases h
  | ok d =>
    rw [hd] at h
    cases hn : (getP ns ni : Res IErr _) with
    | error e => rw [hn] at h; cases h
    | ok n =>
      rw [hn] at h
      simp only [bind, Except.bind] at h
      split at h
      · cases h; simp
      · split at h
        · cases h
        · split at h <;> · cases h; simp
      · cases h

theorem addVertexAt_near {M : Machine} (hM : M.Valid) (debug : Bool) {st : St I C} (h : InRoom M st) (vi : I) (c : Coords C)
    (qp ti : Nat) : Limited (InRoom M) (st.addVertexAtW M debug vi c qp ti) (st.addVertexAt vi c qp ti) := by
  have h1 := hM.fits (by simp) h.ts
  have h2 := hM.fits (by simp) h.qs
  have h3 := hM.fits (by simp) h.ns
  unfold addVertexAtW addVertexAt
  refine Limited.new (by omega) <| Limited.new (by omega) <| Limited.add (by omega) <| Limited.new (by omega) <| Limited.new (by omega) <|
    Limited.push fun hn => ?_
  refine Limited.bind (Limited.same _) fun qL _ => Limited.bind (modP_near _ _ _) fun qs hqs => Limited.bind (modP_near _ _ _) fun ts hts => ?_
  refine Limited.push fun _ => Limited.push fun hq => Limited.bind (Limited.same _) fun t _ => ?_
  refine Limited.bind (replaceAt_near _ _ _ _) fun ns hns => Limited.push fun ht => ?_
  rw [List.append_assoc] at hq ⊢
  exact Limited.ok ⟨by rw [hns]; exact hn, h.ss, ht, hq⟩

theorem checkQuery_near (M : Machine) (debug : Bool) (st : St I C) (fuel qi : Nat) :
    st.checkQueryW M debug fuel qi = .error .panic ∨ (∃ n, st.checkQueryW M debug fuel qi = .ok n ∧ st.checkQuery fuel qi = .ok ()) ∨
      ∃ e, st.checkQueryW M debug fuel qi = .error e ∧ st.checkQuery fuel qi = .error e := by
  have add : ∀ a b, (M.add debug a b : Res IErr Nat) = .error .panic ∨ ∃ n, (M.add debug a b : Res IErr Nat) = .ok n := by
    intro a b
    unfold Machine.add
    split
    · exact .inr ⟨_, rfl⟩
    · split
      · exact .inl rfl
      · exact .inr ⟨_, rfl⟩
  induction fuel generalizing qi with
  | zero => exact .inr (.inr ⟨_, rfl, rfl⟩)
  | succ fuel ih =>
    unfold checkQueryW checkQuery
    rcases (getU st.qs qi : Res IErr _) with e | q
    · exact .inr (.inr ⟨_, rfl, rfl⟩)
    · cases q with
      | branch l r b =>
        simp only [bind, Except.bind]
        rcases ih l with h | ⟨a, h, h'⟩ | ⟨e, h, h'⟩
        · rw [h]; exact .inl rfl
        · rw [h, h']
          simp only
          rcases ih r with h | ⟨c, h, h'⟩ | ⟨e, h, h'⟩
          · rw [h]; exact .inl rfl
          · rw [h, h']
            simp only
            rcases add a c with h | ⟨n, h⟩
            · rw [h]; exact .inl rfl
            · rw [h]
              simp only
              rcases add n 1 with h | ⟨n, h⟩
              · rw [h]; exact .inl rfl
              · rw [h]; exact .inr (.inl ⟨_, rfl, trivial⟩)
          · rw [h, h']; exact .inr (.inr ⟨_, rfl, rfl⟩)
        · rw [h, h']; exact .inr (.inr ⟨_, rfl, rfl⟩)
      | sink t =>
        simp only [bind, Except.bind]
        rcases (getU st.ts t : Res IErr _) with e | q
        · exact .inr (.inr ⟨_, rfl, rfl⟩)
        · simp only
          rcases add 0 1 with h | ⟨n, h⟩
          · rw [h]; exact .inl rfl
          · rw [h]; exact .inr (.inl ⟨_, rfl, trivial⟩)

theorem debugCheck_near (M : Machine) (cfg : Cfg) (fuel : Nat) (st : St I C) :
    Limited (fun _ => True) (st.debugCheckW M cfg fuel) (st.debugCheck cfg fuel) := by
  unfold debugCheckW debugCheck checkConsistency
  refine Limited.ite (fun _ => ?_) fun _ => Limited.ok trivial
  refine Limited.bind (Limited.same _) fun _ _ => Limited.bind (Limited.same _) fun _ _ => ?_
  rcases checkQuery_near M cfg.debug st fuel 0 with h | ⟨n, h, h'⟩ | ⟨e, h, h'⟩
  · rw [h]; exact Limited.panic
  · rw [h, h']; exact Limited.ok trivial
  · rw [h, h']; exact Limited.error

section
variable [Scalar C] [DecidableEq I]

theorem addVertex_near {M : Machine} (hM : M.Valid) (cfg : Cfg) (fuel : Nat) (p : PolyList I V) (xy : V → Coords C) {st : St I C}
    (h : InRoom M st) (vi : I) (q : Nat) :
    Limited (fun r => InRoom M r.1) (st.addVertexW M cfg fuel p xy vi q) (st.addVertex cfg fuel p xy vi q) :=
  Limited.bind (Limited.same _) fun _ _ => Limited.bind (Limited.same _) fun _ _ => Limited.bind (addVertexAt_near hM _ h _ _ _ _) fun _ h' =>
    Limited.bind (debugCheck_near M cfg fuel _) fun _ _ => Limited.ok h'

theorem addSegmentStart_near {M : Machine} (hM : M.Valid) (debug : Bool) {st : St I C} (h : InRoom M st) (a b : Nat) (c d : Coords C) :
    Limited (fun l => InRoom M l.st) (st.addSegmentStartW M debug a b c d) (st.addSegmentStart a b c d) := by
  have h1 := hM.fits (by simp) h.ts
  have h2 := hM.fits (by simp) h.qs
  have h3 := hM.fits (by simp) h.ss
  unfold addSegmentStartW addSegmentStart
  refine Limited.new (by omega) <| Limited.push fun hs => ?_
  refine Limited.bind (Limited.same _) fun n _ => Limited.bind (Limited.same _) fun ti _ => Limited.bind (Limited.same _) fun t _ => ?_
  refine Limited.new (by omega) <| Limited.new (by omega) <| Limited.add (by omega) <| Limited.new (by omega) ?_
  refine Limited.bind (Limited.same _) fun qL _ => Limited.bind (modP_near _ _ _) fun qs hqs => Limited.bind (modP_near _ _ _) fun ts hts => ?_
  refine Limited.push fun _ => Limited.push fun hq => Limited.bind (Limited.same _) fun t _ => ?_
  refine Limited.push fun ht => Limited.bind (nexusAddSegment_near _ _ _ _ _) fun ns hns => Limited.bind (Limited.same _) fun t' _ => ?_
  rw [List.append_assoc] at hq ⊢
  cases hd : t'.down with
  | none => exact Limited.error
  | some ni =>
    refine Limited.bind (Limited.same _) fun n _ => Limited.bind (replaceAt_near _ _ _ _) fun ns' hns' => ?_
    exact Limited.ok ⟨by rw [hns', hns]; exact h.ns, hs, ht, hq⟩

theorem addSegmentStep_near {M : Machine} (hM : M.Valid) (debug : Bool) (si : Nat) (s : Segment C) {l : SegLoop I C} (h : InRoom M l.st) :
    Limited (fun l' => InRoom M l'.st) (addSegmentStepW M debug si s l) (addSegmentStep si s l) := by
  have h2 := hM.fits (by simp) h.qs
  unfold addSegmentStepW addSegmentStep
  refine Limited.bind (Limited.same _) fun n _ => Limited.bind (Limited.same _) fun ti _ => Limited.bind (Limited.same _) fun t _ => ?_
  cases hd : t.down with
  | none => exact Limited.error
  | some ni =>
    refine Limited.bind (Limited.same _) fun tl _ => Limited.bind (Limited.same _) fun tr _ => ?_
    refine Limited.ite (fun _ => ?_) fun _ => Limited.ite (fun _ => ?_) fun _ => Limited.error
    all_goals
      refine Limited.new (by omega) <| Limited.bind (Limited.same _) fun q _ => Limited.bind (modP_near _ _ _) fun qs hqs =>
        Limited.bind (modP_near _ _ _) fun ts hts => Limited.push fun hq => ?_
      refine Limited.bind (modP_near _ _ _) fun ts' hts' => Limited.bind (modP_near _ _ _) fun ts'' hts'' => ?_
      refine Limited.bind (Limited.same _) fun n _ => Limited.bind (replaceAt_near _ _ _ _) fun ns hns => ?_
      exact Limited.ok ⟨by rw [hns]; exact h.ns, h.ss, by rw [hts'', hts', hts]; exact h.ts, hq⟩

theorem addSegmentLoop_near {M : Machine} (hM : M.Valid) (debug : Bool) (si : Nat) (s : Segment C) (fuel : Nat) {l : SegLoop I C}
    (h : InRoom M l.st) :
    Limited (fun l' => InRoom M l'.st) (addSegmentLoopW M debug si s fuel l) (addSegmentLoop si s fuel l) := by
  induction fuel generalizing l with
  | zero => exact Limited.error
  | succ k ih =>
    exact Limited.ite (fun _ => Limited.ok h) fun _ => Limited.bind (addSegmentStep_near hM _ _ _ h) fun _ h' => ih h'

theorem addSegment_near {M : Machine} (hM : M.Valid) (cfg : Cfg) (fuel : Nat) {st : St I C} (h : InRoom M st) (a b : Nat)
    (c d : Coords C) : Limited (InRoom M) (st.addSegmentW M cfg fuel a b c d) (st.addSegment cfg fuel a b c d) :=
  Limited.bind (addSegmentStart_near hM _ h _ _ _ _) fun _ h => Limited.bind (addSegmentLoop_near hM _ _ _ _ h) fun _ h =>
    Limited.bind (nexusAddSegment_near _ _ _ _ _) fun _ hns => Limited.bind (debugCheck_near M cfg fuel _) fun _ _ =>
      Limited.ok ⟨by rw [hns]; exact h.ns, h.ss, h.ts, h.qs⟩

theorem addVertexVL_near {M : Machine} (hM : M.Valid) (cfg : Cfg) (fuel : Nat) (p : PolyList I V) (xy : V → Coords C) {st : St I C}
    (h : InRoom M st) (vls : List (VLoc I C)) (i : Nat) (vi : I) (q : Nat) :
    Limited (fun r => InRoom M r.1 ∧ r.2.1.length = vls.length) (St.addVertexVLW M cfg fuel p xy st vls i vi q)
      (St.addVertexVL cfg fuel p xy st vls i vi q) :=
  Limited.bind (addVertex_near hM cfg fuel p xy h vi q) fun _ h' => Limited.bind (Limited.same _) fun _ _ => Limited.ok ⟨h', by simp⟩

theorem addEnds_near {M : Machine} (hM : M.Valid) (cfg : Cfg) (fuel : Nat) (p : PolyList I V) (xy : V → Coords C) {st : St I C}
    (h : InRoom M st) (vls : List (VLoc I C)) {si : Nat} (hsi : si ≤ M.vls) :
    Limited (fun r => InRoom M r.1 ∧ r.2.1.length = vls.length) (St.addEndsW M cfg fuel p xy st vls si)
      (St.addEnds cfg fuel p xy st vls si) := by
  have h1 := hM.fits (by simp) hsi
  unfold addEndsW addEnds
  refine Limited.add (by omega) <| Limited.bind (Limited.same _) fun vl0 _ => Limited.bind (Limited.same _) fun vl1 _ => ?_
  rcases vl0 with ⟨c0, i0, q0⟩ | ⟨c0, ni0⟩ <;> rcases vl1 with ⟨c1, i1, q1⟩ | ⟨c1, ni1⟩
  · refine Limited.ite (fun _ => ?_) fun _ => ?_ <;>
      exact Limited.bind (addVertexVL_near hM cfg fuel p xy h _ _ _ _) fun r h1 =>
        Limited.bind (addVertexVL_near hM cfg fuel p xy h1.1 _ _ _ _) fun r' h2 => Limited.ok ⟨h2.1, h2.2.trans h1.2⟩
  · exact Limited.bind (addVertexVL_near hM cfg fuel p xy h _ _ _ _) fun r h1 => Limited.ok h1
  · exact Limited.bind (addVertexVL_near hM cfg fuel p xy h _ _ _ _) fun r h1 => Limited.ok h1
  · exact Limited.ok ⟨h, rfl⟩

theorem addNthSegment_near {M : Machine} (hM : M.Valid) (cfg : Cfg) (fuel : Nat) (p : PolyList I V) (xy : V → Coords C) {st : St I C}
    (h : InRoom M st) (vls : List (VLoc I C)) {si : Nat} (hsi : si ≤ M.vls) :
    Limited (fun r => InRoom M r.1 ∧ r.2.1.length = vls.length) (St.addNthSegmentW M cfg fuel p xy st vls si)
      (St.addNthSegment cfg fuel p xy st vls si) :=
  Limited.bind (addEnds_near hM cfg fuel p xy h vls hsi) fun _ h' => Limited.bind (Limited.same _) fun _ _ => Limited.bind (Limited.same _) fun _ _ =>
    Limited.bind (Limited.ite (fun _ => addSegment_near hM _ _ h'.1 _ _ _ _) fun _ => addSegment_near hM _ _ h'.1 _ _ _ _) fun _ h'' =>
      Limited.ok ⟨h'', h'.2⟩

theorem relocStep_near {M : Machine} (hM : M.Valid) (debug : Bool) (fuel : Nat) (st : St I C) {r : Reloc I C}
    (hv : r.vls.length ≤ M.vls) (ht : r.target ≤ M.vls) :
    Limited (fun r' => r'.vls.length = r.vls.length ∧ r'.target ≤ M.vls) (relocStepW M debug fuel st r) (relocStep fuel st r) := by
  have h1 := hM.fits (by simp) ht
  unfold relocStepW relocStep
  refine Limited.add (by omega) <| Limited.bind (Limited.same _) fun vl hvl => ?_
  have hlt : (r.target + 1) % r.vls.length ≤ M.vls := by
    unfold getP at hvl
    split at hvl
    · rename_i h
      exact (lt_of_get h).le.trans hv
    · cases hvl
  rcases vl with ⟨c, i, q⟩ | ⟨c, ni⟩
  · exact Limited.bind (Limited.same _) fun _ _ => Limited.bind (Limited.same _) fun _ _ => Limited.bind (Limited.same _) fun _ _ =>
      Limited.bind (Limited.same _) fun _ _ => Limited.ok ⟨by simp, hlt⟩
  · exact Limited.bind (Limited.same _) fun _ _ => Limited.ok ⟨rfl, hlt⟩

theorem relocLoop_near {M : Machine} (hM : M.Valid) (debug : Bool) (fuel : Nat) (st : St I C) (k : Nat) {r : Reloc I C}
    (hv : r.vls.length ≤ M.vls) (ht : r.target ≤ M.vls) :
    Limited (fun vls => vls.length = r.vls.length) (relocLoopW M debug fuel st k r) (relocLoop fuel st k r) := by
  induction k generalizing r with
  | zero => exact Limited.error
  | succ k ih =>
    refine Limited.ite (fun _ => Limited.ok rfl) fun _ => Limited.bind (relocStep_near hM _ _ _ hv ht) fun r' h => ?_
    exact (ih (h.1.trans_le hv) h.2).imp fun _ h' => h'.trans h.1

/-- The invariant of the loop over the segments of a polygon with `len` vertices. -/
structure PolyFits (M : Machine) (len : Nat) (rest : List Nat) (l : PolyLoop I C) : Prop where
  st : InRoom M l.st
  vls : l.vls.length = len
  count : l.updateCount + rest.length ≤ len + 1
  rest : ∀ i ∈ rest, i < len

theorem polyStep_near {M : Machine} (hM : M.Valid) (cfg : Cfg) (fuel : Nat) (p : PolyList I V) (xy : V → Coords C) {len : Nat}
    (hl : len ≤ M.vls) {si : Nat} {rest : List Nat} {l : PolyLoop I C} (h : PolyFits M len (si :: rest) l) :
    Limited (PolyFits M len rest) (polyStepW M cfg fuel p xy l si) (polyStep cfg fuel p xy l si) := by
  have hsi := h.rest si (by simp)
  have hc := h.count
  simp only [List.length_cons] at hc
  have hb := hM.fits (by simp) hl
  unfold polyStepW polyStep
  refine Limited.bind (addNthSegment_near hM cfg fuel p xy h.st l.vls (by omega)) fun r hr => Limited.bind (Limited.same _) fun pd _ => ?_
  have hv : r.2.1.length = len := hr.2.trans h.vls
  refine Limited.ite (fun _ => ?_) fun _ => Limited.ok ⟨hr.1, hv, by simp only; omega, fun i hi => h.rest i (by simp [hi])⟩
  refine Limited.bind (P := fun vls => vls.length = len) (Limited.new (by have := hM.big; omega)
    ((relocLoop_near hM _ _ _ _ (hv.le.trans hl) (by simp only; omega)).imp fun _ h => h.trans hv)) fun vls hvls => ?_
  refine Limited.add (by omega) <| Limited.ok ⟨hr.1, hvls, by simp only; omega, fun i hi => h.rest i (by simp [hi])⟩

end

theorem Limited.foldlM {σ : Type} {f g : σ → α → Res ε σ} (Inv : List α → σ → Prop)
    (h : ∀ a rest s, Inv (a :: rest) s → Limited (Inv rest) (f s a) (g s a)) (l : List α) (s : σ) (hs : Inv l s) :
    Limited (Inv []) (l.foldlM f s) (l.foldlM g s) := by
  induction l generalizing s with
  | nil => exact Limited.ok hs
  | cons a l ih =>
    rw [List.foldlM_cons, List.foldlM_cons]
    exact Limited.bind (h a l s hs) fun s' hs' => ih s' hs'

theorem Limited.mapErr {δ : Type} {P : α → Prop} {x y : Res ε α} (f : ε → δ) (h : Limited P x y) :
    Limited P (Res.mapErr f x) (Res.mapErr f y) := by
  rcases h with rfl | ⟨rfl, h⟩
  · exact .inl rfl
  · cases x with
    | ok a => exact Limited.ok (h a rfl)
    | error e => cases e <;> exact Limited.error

section
variable [Scalar C] [DecidableEq I]

theorem addPolygon_near {M : Machine} (hM : M.Valid) (cfg : Cfg) (hcfg : cfg.Valid) (fuel : Nat) (p : PolyList I V) (xy : V → Coords C)
    (k : Nat) {st : St I C} (h : InRoom M st) {vls : List (VLoc I C)} (hl : vls.length ≤ M.vls) :
    Limited (InRoom M) (addPolygonW M cfg fuel p xy k st vls) (addPolygon cfg fuel p xy k st vls) := by
  unfold addPolygonW addPolygon
  refine Limited.capacity fun _ => Limited.bind (Limited.foldlM (PolyFits M vls.length) (fun a rest s hs => polyStep_near hM cfg fuel p xy hl hs)
    _ _ ⟨h, rfl, ?_, ?_⟩) fun l hl => Limited.ok hl.st
  · have := (hcfg k vls.length).length_eq
    rw [List.length_range] at this
    simp only
    omega
  · exact fun i hi => List.mem_range.1 ((hcfg k vls.length).subset hi)

theorem buildStep_near {M : Machine} (hM : M.Valid) (cfg : Cfg) (hcfg : cfg.Valid) (fuel : Nat) (p : PolyList I V) (xy : V → Coords C)
    {l : BuildLoop I C} (h : InRoom M l.st) (hl : l.vLookup.length ≤ M.vls) (e : Option (Elem I)) :
    Limited (fun l' => InRoom M l'.st ∧ l'.vLookup.length ≤ M.vls) (buildStepW M cfg fuel p xy l e) (buildStep cfg fuel p xy l e) := by
  rcases e with _ | ⟨i⟩ | _
  · exact Limited.panic
  · refine Limited.bind (Limited.same _) fun c _ => Limited.new (by have := hM.big; omega) <| Limited.push fun h' => Limited.ok ⟨h, h'⟩
  · refine Limited.ite (fun _ => Limited.ite (fun _ => Limited.error) fun _ => ?_) fun _ => Limited.ok ⟨h, hl⟩
    exact Limited.bind (Limited.mapErr _ (addPolygon_near hM cfg hcfg fuel p xy _ h hl)) fun st h' => Limited.ok ⟨h', by simp⟩

theorem trapezoidize_near {M : Machine} (hM : M.Valid) (cfg : Cfg) (hcfg : cfg.Valid) (fuel : Nat) (p : PolyList I V) (xy : V → Coords C) :
    Limited (InRoom M) (trapezoidizeW M cfg fuel p xy) (trapezoidize cfg fuel p xy) := by
  have hb := hM.big
  have hnew : Limited (InRoom M) (newW M cfg.debug p.vertexCount : Res TrapErr (St I C)) (.ok St.init) := by
    unfold newW
    refine Limited.mulAny fun _ => Limited.capacity fun _ => Limited.new (by omega) <| Limited.new (by omega) <| Limited.push fun hq => ?_
    refine Limited.mulAny fun _ => Limited.addAny fun _ => Limited.capacity fun _ => Limited.push fun ht => ?_
    exact Limited.capacity fun _ => Limited.capacity fun _ => Limited.capacity fun _ => Limited.ok ⟨Nat.zero_le _, Nat.zero_le _, ht, hq⟩
  unfold trapezoidizeW
  have key := Limited.bind (Q := InRoom M) hnew (f := fun st => do
      let l ← (p.elems ++ [some Elem.newPolygon]).foldlM (St.buildStepW M cfg fuel p xy) ⟨st, [], 0⟩
      .ok l.st) (g := fun st => do
      let l ← (p.elems ++ [some Elem.newPolygon]).foldlM (St.buildStep cfg fuel p xy) ⟨st, [], 0⟩
      .ok l.st) fun st hst => Limited.bind (Limited.foldlM (fun _ l => InRoom M l.st ∧ l.vLookup.length ≤ M.vls)
        (fun a rest s hs => buildStep_near hM cfg hcfg fuel p xy hs.1 hs.2 a) _ _ ⟨hst, Nat.zero_le _⟩) fun l hl => Limited.ok hl.1
  exact key

end

end Tri
