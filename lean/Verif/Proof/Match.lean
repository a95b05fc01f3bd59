import Verif.Proof.Canon
import Verif.Proof.Sim2

/-!
# Runs over two trapezoidations of the same shape

The numbers of trapezoids, vertices and segments may differ.  If the shapes match and the side tests have the same answers, the
traversal does the same.
-/

set_option linter.unusedSectionVars false

namespace Tri

variable {I J V V' C D : Type} [Scalar C] [Scalar D]

/-- Types of matching vertices. -/
inductive FtM (T : Nat → Nat → Prop) : FinalType → FinalType → Prop
  | V {a b c d a' b' c' d' : Nat} : T a a' → T b b' → T c c' → T d d' → FtM T (.V a b c d) (.V a' b' c' d')
  | I {a b c d a' b' c' d' : Nat} : T a a' → T b b' → T c c' → T d d' → FtM T (.I a b c d) (.I a' b' c' d')
  | A {a b c d a' b' c' d' : Nat} : T a a' → T b b' → T c c' → T d d' → FtM T (.A a b c d) (.A a' b' c' d')

/-- Matching entries for vertices. -/
structure NxM (T : Nat → Nat → Prop) (RI : I → J → Prop) (RC : Coords C → Coords D → Prop) (p : PolyList I V) (xy : V → Coords C)
    (p' : PolyList J V') (xy' : V' → Coords D) (n : Nexus I C) (n' : Nexus J D) : Prop where
  vi : RI n.vi n'.vi
  c : RC n.c n'.c
  ft : ∃ f f', n.finalType = .ok f ∧ n'.finalType = .ok f' ∧ FtM T f f'
  src : RelR (ε := IErr) RC (p.coords xy n.vi) (p'.coords xy' n'.vi)

/-- Matching trapezoids. -/
structure TzM (N S : Nat → Nat → Prop) (t t' : Trapezoid) : Prop where
  left : ORel S t.left t'.left
  right : ORel S t.right t'.right
  up : ORel N t.up t'.up
  down : ORel N t.down t'.down

/-- Matching segments. -/
structure SeM (N : Nat → Nat → Prop) (s : Segment C) (s' : Segment D) : Prop where
  mn : N s.niMin s'.niMin
  mx : N s.niMax s'.niMax

/-- Matching states of the traversal. -/
structure TXM (T : Nat → Nat → Prop) (RI : I → J → Prop) (RC : Coords C → Coords D → Prop) (x : TI I C) (x' : TI J D) : Prop where
  ti : T x.ti x'.ti
  ms : OOtRel RI RC x.monotones x'.monotones
  branch : List.Forall₂ (fun e e' => T e.1 e'.1 ∧ OOtRel RI RC e.2 e'.2) x.branchStack x'.branchStack
  stack : List.Forall₂ (MonoBRel RI RC) x.monotoneStack x'.monotoneStack

/-- Two trapezoidations of the same shape: `T`, `N` and `S` say which trapezoids, vertices and segments correspond. -/
structure Match (T N S : Nat → Nat → Prop) (RI : I → J → Prop) (RC : Coords C → Coords D → Prop) (p : PolyList I V) (xy : V → Coords C)
    (st : St I C) (p' : PolyList J V') (xy' : V' → Coords D) (st' : St J D) : Prop where
  t_iff : ∀ {i i' j j'}, T i i' → T j j' → (i = j ↔ i' = j')
  n_iff : ∀ {i i' j j'}, N i i' → N j j' → (i = j ↔ i' = j')
  ts : ∀ {i i'}, T i i' → RelR (ε := IErr) (TzM N S) (getP st.ts i) (getP st'.ts i')
  ss : ∀ {i i'}, S i i' → RelR (ε := IErr) (SeM N) (getP st.ss i) (getP st'.ss i')
  ns : ∀ {i i'}, N i i' → RelR (ε := IErr) (NxM T RI RC p xy p' xy') (getP st.ns i) (getP st'.ns i')
  top : ∃ a a' k, T a a' ∧ ∀ fuel ≥ k, topTrapezoid st.qs fuel 0 = .ok a ∧ topTrapezoid st'.qs fuel 0 = .ok a'

theorem ORel.okInner {α β : Type} {R : α → β → Prop} {a : Option α} {b : Option β} (h : ORel R a b) :
    RelR R (Tri.okInner a) (Tri.okInner b) := by
  cases a <;> cases b
  · exact rfl
  · exact h.elim
  · exact h.elim
  · exact h

section
variable {T N S : Nat → Nat → Prop} {RI : I → J → Prop} {RC : Coords C → Coords D → Prop} {p : PolyList I V} {xy : V → Coords C}
  {st : St I C} {p' : PolyList J V'} {xy' : V' → Coords D} {st' : St J D} (M : Match T N S RI RC p xy st p' xy' st')
include M

theorem Match.seg {o o' : Option Nat} (h : ORel S o o') :
    RelR (SeM N) (okInner o >>= getP st.ss) (okInner o' >>= getP st'.ss) :=
  RelR.bind h.okInner fun _ _ hs => M.ss hs

variable (hC : RespC RC)
include hC

theorem Match.advance (w : Winding) (fuel : Nat) {t t' : Trapezoid} (ht : TzM N S t t') {d d' : Nat} (hd : N d d')
    {n : Nexus I C} {n' : Nexus J D} (hn : NxM T RI RC p xy p' xy' n n') {ms : Ot (MonoB I C)}
    {ms' : Ot (MonoB J D)} (hms : OtRel RI RC ms ms') :
    RelT RI (OOtRel RI RC) (advanceMonotones (m := TrM I) w fuel p xy st t d n ms)
      (advanceMonotones (m := TrM J) w fuel p' xy' st' t' d' n' ms') := by
  have hms2 : OtRel RI RC (addToAll ms n.vi n.c) (addToAll ms' n'.vi n'.c) := by
    cases ms <;> cases ms'
    · exact hms.addVertex hC hn.vi hn.c
    · exact hms.elim
    · exact hms.elim
    · exact ⟨hms.1.addVertex hC hn.vi hn.c, hms.2.addVertex hC hn.vi hn.c⟩
  unfold advanceMonotones
  refine RelT.bind (RelT.lift (M.seg ht.left)) fun sl sl' hsl => ?_
  refine RelT.bind (RelT.lift (M.seg ht.right)) fun sr sr' hsr => ?_
  refine RelT.bind (RelT.lift ht.up.okInner) ?_
  rintro nu nu' hnu
  generalize addToAll ms n.vi n.c = m1 at hms2
  generalize addToAll ms' n'.vi n'.c = m1' at hms2
  have e1 := M.n_iff hd hsl.mn
  have e2 := M.n_iff hd hsr.mn
  have e3 := M.n_iff hnu hsl.mx
  have e4 := M.n_iff hnu hsr.mx
  have hsp : ((splitCompleted m1 d nu sl sr).1 = none ∧ (splitCompleted m1' d' nu' sl' sr').1 = none ∧
      OOtRel RI RC (splitCompleted m1 d nu sl sr).2 (splitCompleted m1' d' nu' sl' sr').2) ∨
      ∃ b b', (splitCompleted m1 d nu sl sr).1 = some b ∧
        (splitCompleted m1' d' nu' sl' sr').1 = some b' ∧ MonoBRel RI RC b b' ∧
      OOtRel RI RC (splitCompleted m1 d nu sl sr).2 (splitCompleted m1' d' nu' sl' sr').2 := by
    unfold splitCompleted
    simp only [ne_eq, e1, e2, e3, e4]
    cases m1 <;> cases m1'
    · by_cases h1 : d' = sl'.niMin ∧ ¬ d' = sr'.niMin ∧ ¬ nu' = sl'.niMax
      · simp only [if_pos h1]
        exact .inr ⟨_, _, rfl, rfl, hms2, trivial⟩
      · simp only [if_neg h1]
        split
        · exact .inr ⟨_, _, rfl, rfl, hms2, trivial⟩
        · exact .inl ⟨rfl, rfl, hms2⟩
    · exact hms2.elim
    · exact hms2.elim
    · by_cases h1 : d' = sl'.niMin ∧ ¬ d' = sr'.niMin ∧ ¬ nu' = sl'.niMax
      · simp only [if_pos h1]
        exact .inr ⟨_, _, rfl, rfl, hms2.1, hms2.2⟩
      · simp only [if_neg h1]
        split
        · exact .inr ⟨_, _, rfl, rfl, hms2.2, hms2.1⟩
        · exact .inl ⟨rfl, rfl, hms2⟩
  generalize splitCompleted m1 d nu sl sr = q at hsp
  generalize splitCompleted m1' d' nu' sl' sr' = q' at hsp
  obtain ⟨q1, q2⟩ := q
  obtain ⟨q1', q2'⟩ := q'
  rcases hsp with ⟨h1, h2, h3⟩ | ⟨b, b', h1, h2, h3, h4⟩
  · simp only at h1 h2 h3
    subst h1 h2
    exact RelT.pure h3
  · simp only at h1 h2 h3 h4
    subst h1 h2
    refine RelT.bind (h3.finish hC w fuel) fun _ _ _ => RelT.lift ?_
    cases q2 <;> cases q2'
    · unfold restartMonotone
      refine RelR.bind (M.ns hnu) fun m m' hm => ?_
      refine RelR.bind hm.src fun c c' hc => ?_
      exact (MonoBRel.new hm.vi hc).addVertex hC hn.vi hn.c
    · exact h4.elim
    · exact h4.elim
    · exact h4

theorem Match.triStep (w : Winding) (fuel : Nat) {x : TI I C} {x' : TI J D}
    (hx : TXM T RI RC x x') {t t' : Trapezoid} (ht : TzM N S t t') {d d' : Nat} (hd : N d d') :
    RelT RI (TXM T RI RC) (triStep (m := TrM I) w fuel p xy st x t d)
      (triStep (m := TrM J) w fuel p' xy' st' x' t' d') := by
  unfold Tri.triStep
  refine RelT.bind (RelT.lift (M.ns hd)) fun n n' hn => ?_
  refine RelT.bind (R := TXM T RI RC) ?_ fun x x' hx => ?_
  · unfold updateMonotones
    have hms := hx.ms
    cases h1 : x.monotones <;> cases h2 : x'.monotones <;> rw [h1, h2] at hms
    · exact RelT.pure hx
    · exact hms.elim
    · exact hms.elim
    · refine RelT.bind (M.advance hC w fuel ht hd hn hms) fun o o' ho => ?_
      exact RelT.pure ⟨hx.ti, ho, hx.branch, hx.stack⟩
  · obtain ⟨f, f', ef, ef', hf⟩ := hn.ft
    refine RelT.bind (RelT.lift (show RelR (FtM T) n.finalType n'.finalType by rw [ef, ef']; exact hf)) ?_
    clear ef ef' hf f f'
    rintro f f' hf
    have hms := hx.ms
    cases hf with
    | V f1 f2 f3 f4 =>
      refine RelT.bind (R := TXM T RI RC) ?_ fun x x' hx => RelT.lift ?_
      · unfold joinV
        cases h1 : x.monotones <;> cases h2 : x'.monotones <;> rw [h1, h2] at hms
        · exact RelT.pure hx
        · exact hms.elim
        · exact hms.elim
        · rename_i ms ms'
          refine RelT.ite (M.t_iff hx.ti f1) ?_ (RelT.ite (M.t_iff hx.ti f2) ?_ (RelT.ite (M.t_iff hx.ti f3) ?_ RelT.stop))
          · refine RelT.bind (RelT.lift (okOne_rel hC hms)) fun mo mo' hmo => ?_
            exact RelT.pure ⟨hx.ti, trivial, hx.branch, .cons hmo hx.stack⟩
          · refine RelT.bind (RelT.forM (Q := MonoBRel RI RC) ?_ fun a b hab => hab.finish hC w fuel)
              fun _ _ _ => RelT.pure ⟨hx.ti, trivial, hx.branch, hx.stack⟩
            cases ms <;> cases ms'
            · exact .cons hms .nil
            · exact hms.elim
            · exact hms.elim
            · exact .cons hms.1 (.cons hms.2 .nil)
          · have hs := hx.stack
            cases h3 : x.monotoneStack <;> cases h4 : x'.monotoneStack <;> rw [h3, h4] at hs
            · exact RelT.stop
            · cases hs
            · cases hs
            · cases hs with
              | cons g1 g2 =>
                refine RelT.bind (RelT.lift (okOne_rel hC hms)) fun mo mo' hmo => ?_
                exact RelT.pure ⟨hx.ti, ⟨g1, hmo⟩, hx.branch, g2⟩
      · unfold leaveV
        refine RelR.ite (M.t_iff hx.ti f3) ⟨f4, hx.ms, hx.branch, hx.stack⟩ ?_
        have hs := hx.branch
        cases h3 : x.branchStack <;> cases h4 : x'.branchStack <;> rw [h3, h4] at hs
        · exact rfl
        · cases hs
        · cases hs
        · cases hs with
          | cons g1 g2 =>
            exact ⟨g1.1, g1.2, g2, hx.stack⟩
    | I f1 f2 f3 f4 =>
      simp only [descend, descendI]
      exact RelT.ite (M.t_iff hx.ti f1) (RelT.pure ⟨f3, hx.ms, hx.branch, hx.stack⟩)
        (RelT.ite (M.t_iff hx.ti f2) (RelT.pure ⟨f4, hx.ms, hx.branch, hx.stack⟩) RelT.stop)
    | A f1 f2 f3 f4 =>
      simp only [descend, descendA]
      cases h1 : x.monotones <;> cases h2 : x'.monotones <;> rw [h1, h2] at hms
      · exact RelT.pure ⟨f2, trivial, .cons ⟨f3, MonoBRel.new hn.vi hn.c⟩ (.cons ⟨f4, trivial⟩ hx.branch), hx.stack⟩
      · exact hms.elim
      · exact hms.elim
      · rename_i ms ms'
        refine RelT.bind (R := fun r r' => MonoBRel RI RC r.1 r'.1 ∧ MonoBRel RI RC r.2 r'.2)
          (RelT.lift ?_) ?_
        rotate_left
        · rintro ⟨r1, r2⟩ ⟨r1', r2'⟩ ⟨hr1, hr2⟩
          exact RelT.pure ⟨f2, hr1, .cons ⟨f3, trivial⟩ (.cons ⟨f4, hr2⟩ hx.branch), hx.stack⟩
        unfold splitMonotones
        cases ms <;> cases ms'
        · refine RelR.bind ht.up.okInner ?_
          rintro nu nu' hnu
          refine RelR.bind (M.ns hnu) fun m m' hm => ?_
          have hnew := (MonoBRel.new hm.vi hm.c).addVertex hC hn.vi hn.c
          refine RelR.bind (M.seg ht.left) fun sl sl' hsl => ?_
          refine RelR.ite (M.n_iff hnu hsl.mx) ⟨hnew, hms⟩ ?_
          refine RelR.bind (M.seg ht.right) fun sr sr' hsr => ?_
          exact RelR.ite (M.n_iff hnu hsr.mx) ⟨hms, hnew⟩ rfl
        · exact hms.elim
        · exact hms.elim
        · exact hms

/-- The two runs hand over the same vertices. -/
theorem Match.inner : ∃ k, ∀ fuel ≥ k, ∀ w, RelT RI (fun _ _ => True) (innerTrace w fuel p xy st) (innerTrace w fuel p' xy' st') := by
  obtain ⟨top, top', k, htr, htop⟩ := M.top
  refine ⟨k, fun fuel hf w => ?_⟩
  unfold innerTrace triangulateInner
  rw [(htop fuel hf).1, (htop fuel hf).2]
  refine RelT.bind (R := T) (RelT.lift htr) ?_
  rintro ti ti' hti
  have go : ∀ k (x : TI I C) (x' : TI J D), TXM T RI RC x x' → RelT RI (fun _ _ => True)
      (triLoop (m := TrM I) w fuel p xy st k x) (triLoop (m := TrM J) w fuel p' xy' st' k x') := by
    intro k
    induction k with
    | zero => exact fun _ _ _ => RelT.stop
    | succ k ih =>
      intro x x' hx
      unfold triLoop
      refine RelT.bind (RelT.lift (M.ts hx.ti)) ?_
      rintro t t' ht
      have hd := ht.down
      rcases h1 : t.down with _ | d <;> rcases h2 : t'.down with _ | d' <;> rw [h1, h2] at hd <;> simp only
      · refine RelT.ite ?_ RelT.stop (RelT.ite ?_ RelT.stop (RelT.ite ?_ RelT.stop (RelT.pure trivial)))
        · have h := hx.stack
          cases h1 : x.monotoneStack <;> cases h2 : x'.monotoneStack <;> rw [h1, h2] at h <;>
            first | (cases h; done) | simp
        · have h := hx.branch
          cases h1 : x.branchStack <;> cases h2 : x'.branchStack <;> rw [h1, h2] at h <;>
            first | (cases h; done) | simp
        · have h := hx.ms
          cases h1 : x.monotones <;> cases h2 : x'.monotones <;> rw [h1, h2] at h <;>
            first | (exact h.elim) | simp
      · exact hd.elim
      · exact hd.elim
      · exact RelT.bind (M.triStep hC w fuel hx ht hd) fun x x' hx => ih x x' hx
  exact go fuel _ _ ⟨hti, trivial, .nil, .nil⟩

end

end Tri
