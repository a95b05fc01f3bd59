import Verif.Proof.Sim
import Verif.Proof.Rename
import Verif.Proof.CostErase

/-!
# The cost of a trapezoidation depends on the answers to comparisons and side tests only

As in `Sim.lean`, for the functions with counts.
-/

set_option linter.unusedSectionVars false

namespace Tri

variable {I J V W C D : Type} [Scalar C] [Scalar D]
variable {RI : I → J → Prop} {RC : Coords C → Coords D → Prop}

/-- Related results with the same count. -/
def SameCost {α β : Type} (R : α → β → Prop) (x : α × Nat) (y : β × Nat) : Prop := R x.1 y.1 ∧ x.2 = y.2

theorem findC_rel (hC : RespC RC) {qs : List (QueryNode C)} {qs' : List (QueryNode D)}
    (h : List.Forall₂ (QRel RC) qs qs') {c : Coords C} {c' : Coords D} (hc : RC c c') (fuel qi : Nat) :
    RelR (· = ·) (St.findC qs c fuel qi) (St.findC qs' c' fuel qi) := by
  induction fuel generalizing qi with
  | zero => exact rfl
  | succ k ih =>
    unfold St.findC
    refine RelR.bind (RelR.getU h qi) fun q q' hq => ?_
    rcases q with ⟨l, r, b⟩ | _ <;> rcases q' with ⟨l', r', b'⟩ | _
    · obtain ⟨rfl, rfl, hb⟩ := hq
      have : b.useLeft c = b'.useLeft c' := by
        cases b <;> cases b'
        · exact hC.left hb.1 hb.2 hc
        · exact hb.elim
        · exact hb.elim
        · exact hC.leB hc hb
      simp only [this]
      refine RelR.bind (ih _) ?_
      rintro r _ rfl
      exact rfl
    · exact hq.elim
    · exact hq.elim
    · cases hq; exact rfl

namespace St

variable (hC : RespC RC) [DecidableEq I] [DecidableEq J] (hI : RespI RI)
include hC

theorem addVertexC_rel {st : St I C} {st' : St J D} (h : StRel RI RC st st') (cfg : Cfg) (fuel : Nat)
    {p : PolyList I V} {xy : V → Coords C} {p' : PolyList J W} {xy' : W → Coords D}
    (hp : PolyRel RI RC p xy p' xy') {vi : I} {vj : J} (hv : RI vi vj) (qi : Nat) :
    RelR (SameCost fun r r' => StRel RI RC r.1 r'.1 ∧ r.2 = r'.2) (st.addVertexC cfg fuel p xy vi qi)
      (st'.addVertexC cfg fuel p' xy' vj qi) := by
  unfold addVertexC
  refine RelR.bind (hp.coords vi vj hv) fun c c' hc => ?_
  refine RelR.bind (findC_rel hC h.qs hc fuel qi) ?_
  rintro ⟨⟨q, t⟩, k⟩ _ rfl
  refine RelR.bind (addVertexAt_rel h hv hc q t) fun st1 st1' h1 => ?_
  exact RelR.bind (debugCheck_rel h1 cfg fuel) fun _ _ _ => ⟨⟨h1, h.ns.length_eq⟩, rfl⟩

include hI in
theorem addSegmentC_rel {st : St I C} {st' : St J D} (h : StRel RI RC st st') (cfg : Cfg) (fuel : Nat)
    (niMin niMax : Nat) {c1 c2 : Coords C} {c1' c2' : Coords D} (h1 : RC c1 c1') (h2 : RC c2 c2') :
    RelR (SameCost (StRel RI RC)) (st.addSegmentC cfg fuel niMin niMax c1 c2)
      (st'.addSegmentC cfg fuel niMin niMax c1' c2') := by
  unfold addSegmentC
  rw [h.ss.length_eq]
  have hs : SegRel RC ⟨niMin, niMax, c1, c2⟩ ⟨niMin, niMax, c1', c2'⟩ := ⟨rfl, rfl, h1, h2⟩
  have hloop : ∀ k (l : SegLoop I C) (l' : SegLoop J D), SegLoopRel RI RC l l' →
      RelR (SameCost (SegLoopRel RI RC)) (addSegmentLoopC st'.ss.length ⟨niMin, niMax, c1, c2⟩ k l)
        (addSegmentLoopC st'.ss.length ⟨niMin, niMax, c1', c2'⟩ k l') := by
    intro k
    induction k with
    | zero => exact fun _ _ _ => rfl
    | succ k ih =>
      intro l l' hl
      unfold addSegmentLoopC
      rw [hl.ni]
      refine RelR.ite Iff.rfl ⟨hl, rfl⟩ ?_
      refine RelR.bind (addSegmentStep_rel hC hI hl _ hs) fun l l' hl => ?_
      exact RelR.bind (ih l l' hl) fun r r' hr => ⟨hr.1, by simp only [hr.2]⟩
  refine RelR.bind (addSegmentStart_rel hC hI h niMin niMax h1 h2) fun l l' hl => ?_
  refine RelR.bind (hloop fuel l l' hl) ?_
  rintro ⟨l, k⟩ ⟨l', k'⟩ ⟨hl, hk⟩
  simp only at hl hk ⊢
  rw [hl.upright, hk]
  refine RelR.bind (Nexus.addSegment_rel hC hl.st.ns hl.st.ss _ _ _) fun ns ns' hns => ?_
  have hst : StRel RI RC { l.st with ns := ns } { l'.st with ns := ns' } :=
    ⟨hns, hl.st.ss, hl.st.ts, hl.st.qs⟩
  exact RelR.bind (debugCheck_rel hst cfg fuel) fun _ _ _ => ⟨hst, rfl⟩

theorem addVertexVLC_rel {st : St I C} {st' : St J D} (h : StRel RI RC st st') (cfg : Cfg) (fuel : Nat)
    {p : PolyList I V} {xy : V → Coords C} {p' : PolyList J W} {xy' : W → Coords D}
    (hp : PolyRel RI RC p xy p' xy') {vls : List (VLoc I C)} {vls' : List (VLoc J D)}
    (hvl : List.Forall₂ (VLocRel RI RC) vls vls') (vli : Nat) {vi : I} {vj : J} (hv : RI vi vj) (qi : Nat) :
    RelR (SameCost fun r r' => StRel RI RC r.1 r'.1 ∧ List.Forall₂ (VLocRel RI RC) r.2.1 r'.2.1 ∧ r.2.2 = r'.2.2)
      (st.addVertexVLC cfg fuel p xy vls vli vi qi) (st'.addVertexVLC cfg fuel p' xy' vls' vli vj qi) := by
  unfold addVertexVLC
  refine RelR.bind (addVertexC_rel hC h cfg fuel hp hv qi) ?_
  rintro ⟨⟨st1, ni⟩, k⟩ ⟨⟨st1', ni'⟩, k'⟩ ⟨⟨h1, h2⟩, h3⟩
  cases h2
  cases h3
  refine RelR.bind (RelR.getP hvl vli) fun vl vl' hvl' => ?_
  refine ⟨⟨h1, forall₂_set hvl vli ⟨?_, rfl⟩, rfl⟩, rfl⟩
  cases vl <;> cases vl'
  · exact hvl'.1
  · exact hvl'.elim
  · exact hvl'.elim
  · exact hvl'.1

theorem addEndsC_rel {st : St I C} {st' : St J D} (h : StRel RI RC st st') (cfg : Cfg) (fuel : Nat)
    {p : PolyList I V} {xy : V → Coords C} {p' : PolyList J W} {xy' : W → Coords D}
    (hp : PolyRel RI RC p xy p' xy') {vls : List (VLoc I C)} {vls' : List (VLoc J D)}
    (hvl : List.Forall₂ (VLocRel RI RC) vls vls') (si : Nat) :
    RelR (SameCost fun r r' => StRel RI RC r.1 r'.1 ∧ List.Forall₂ (VLocRel RI RC) r.2.1 r'.2.1 ∧
        r.2.2 = r'.2.2)
      (st.addEndsC cfg fuel p xy vls si) (st'.addEndsC cfg fuel p' xy' vls' si) := by
  unfold addEndsC
  rw [hvl.length_eq]
  refine RelR.bind (RelR.getP hvl _) fun vl0 vl0' h0 => ?_
  refine RelR.bind (RelR.getP hvl _) fun vl1 vl1' h1 => ?_
  cases vl0 <;> cases vl0'
  · obtain ⟨a1, a2, rfl⟩ := h0
    cases vl1 <;> cases vl1'
    · obtain ⟨b1, b2, rfl⟩ := h1
      refine RelR.ite (by rw [hC.ltB a1 b1]) ?_ ?_
      · refine RelR.bind (addVertexVLC_rel hC h cfg fuel hp hvl _ a2 _) ?_
        rintro ⟨⟨x, y, z⟩, k⟩ ⟨⟨x', y', z'⟩, k'⟩ ⟨⟨r1, r2, r3⟩, r4⟩
        cases r3; cases r4
        refine RelR.bind (addVertexVLC_rel hC r1 cfg fuel hp r2 _ b2 _) ?_
        rintro ⟨⟨x, y, z⟩, k⟩ ⟨⟨x', y', z'⟩, k'⟩ ⟨⟨r1, r2, r3⟩, r4⟩
        cases r3; cases r4
        exact ⟨⟨r1, r2, rfl⟩, rfl⟩
      · refine RelR.bind (addVertexVLC_rel hC h cfg fuel hp hvl _ b2 _) ?_
        rintro ⟨⟨x, y, z⟩, k⟩ ⟨⟨x', y', z'⟩, k'⟩ ⟨⟨r1, r2, r3⟩, r4⟩
        cases r3; cases r4
        refine RelR.bind (addVertexVLC_rel hC r1 cfg fuel hp r2 _ a2 _) ?_
        rintro ⟨⟨x, y, z⟩, k⟩ ⟨⟨x', y', z'⟩, k'⟩ ⟨⟨r1, r2, r3⟩, r4⟩
        cases r3; cases r4
        exact ⟨⟨r1, r2, rfl⟩, rfl⟩
    · exact h1.elim
    · exact h1.elim
    · obtain ⟨b1, rfl⟩ := h1
      refine RelR.bind (addVertexVLC_rel hC h cfg fuel hp hvl _ a2 _) ?_
      rintro ⟨⟨x, y, z⟩, k⟩ ⟨⟨x', y', z'⟩, k'⟩ ⟨⟨r1, r2, r3⟩, r4⟩
      cases r3; cases r4
      exact ⟨⟨r1, r2, rfl⟩, rfl⟩
  · exact h0.elim
  · exact h0.elim
  · obtain ⟨a1, rfl⟩ := h0
    cases vl1 <;> cases vl1'
    · obtain ⟨b1, b2, rfl⟩ := h1
      refine RelR.bind (addVertexVLC_rel hC h cfg fuel hp hvl _ b2 _) ?_
      rintro ⟨⟨x, y, z⟩, k⟩ ⟨⟨x', y', z'⟩, k'⟩ ⟨⟨r1, r2, r3⟩, r4⟩
      cases r3; cases r4
      exact ⟨⟨r1, r2, rfl⟩, rfl⟩
    · exact h1.elim
    · exact h1.elim
    · obtain ⟨b1, rfl⟩ := h1
      exact ⟨⟨h, hvl, rfl⟩, rfl⟩

include hI in
theorem addNthSegmentC_rel {st : St I C} {st' : St J D} (h : StRel RI RC st st') (cfg : Cfg) (fuel : Nat)
    {p : PolyList I V} {xy : V → Coords C} {p' : PolyList J W} {xy' : W → Coords D}
    (hp : PolyRel RI RC p xy p' xy') {vls : List (VLoc I C)} {vls' : List (VLoc J D)}
    (hvl : List.Forall₂ (VLocRel RI RC) vls vls') (si : Nat) :
    RelR (SameCost fun r r' => StRel RI RC r.1 r'.1 ∧ List.Forall₂ (VLocRel RI RC) r.2.1 r'.2.1 ∧
        r.2.2 = r'.2.2)
      (st.addNthSegmentC cfg fuel p xy vls si) (st'.addNthSegmentC cfg fuel p' xy' vls' si) := by
  unfold addNthSegmentC
  refine RelR.bind (addEndsC_rel hC h cfg fuel hp hvl si) ?_
  rintro ⟨⟨x, y, a, b, d⟩, k⟩ ⟨⟨x', y', a', b', d'⟩, k'⟩ ⟨⟨r1, r2, r3⟩, r4⟩
  cases r3; cases r4
  refine RelR.bind (RelR.getU r1.ns _) fun n0 n0' h0 => ?_
  refine RelR.bind (RelR.getU r1.ns _) fun n1 n1' h1 => ?_
  refine RelR.bind (RelR.ite (by rw [hC.ltB h0.c h1.c]) (addSegmentC_rel hC hI r1 cfg fuel _ _ h0.c h1.c)
    (addSegmentC_rel hC hI r1 cfg fuel _ _ h1.c h0.c)) ?_
  rintro ⟨st, m⟩ ⟨st', m'⟩ ⟨hst, hm⟩
  cases hm
  exact ⟨⟨hst, r2, rfl⟩, rfl⟩

theorem walkC_rel {st : St I C} {st' : St J D} (h : StRel RI RC st st') (dir : Dir)
    {a b : Coords C} {a' b' : Coords D} (ha : RC a a') (hb : RC b b') (fuel ti : Nat) :
    RelR (· = ·) (st.walkC dir a b fuel ti) (st'.walkC dir a' b' fuel ti) := by
  induction fuel generalizing ti with
  | zero => exact rfl
  | succ k ih =>
    unfold walkC
    rw [h.ts]
    refine RelR.bind (R := (· = ·)) RelR.eq ?_
    rintro t _ rfl
    refine RelR.bind (R := (· = ·)) ?_ ?_
    · unfold reached
      cases dir
      · cases t.up with
        | none => exact rfl
        | some ni =>
          exact RelR.bind (RelR.getP h.ns ni) fun n n' hn => hC.gtB hn.c hb
      · cases t.down with
        | none => exact rfl
        | some ni =>
          exact RelR.bind (RelR.getP h.ns ni) fun n n' hn => hC.ltB hn.c hb
    · rintro d _ rfl
      refine RelR.ite Iff.rfl rfl ?_
      cases dir
      · cases t.up with
        | none => exact rfl
        | some ni =>
          refine RelR.bind (RelR.getU h.ns ni) fun n n' hn => ?_
          rw [hn.between hC _ ha hb]
          refine RelR.bind (ih _) ?_
          rintro r _ rfl
          exact rfl
      · cases t.down with
        | none => exact rfl
        | some ni =>
          refine RelR.bind (RelR.getU h.ns ni) fun n n' hn => ?_
          rw [hn.between hC _ ha hb]
          refine RelR.bind (ih _) ?_
          rintro r _ rfl
          exact rfl

theorem relocStepC_rel {st : St I C} {st' : St J D} (h : StRel RI RC st st') (fuel : Nat)
    {r : Reloc I C} {r' : Reloc J D} (hr : RelocRel RI RC r r') (ho : OriginRel RC r r') :
    RelR (SameCost fun r r' => RelocRel RI RC r r' ∧ OriginRel RC r r') (st.relocStepC fuel r)
      (st'.relocStepC fuel r') := by
  unfold relocStepC
  have hlen := hr.vls.length_eq
  refine RelR.bind (R := fun v v' => VLocRel RI RC v v' ∧
    r.vls[(r.target + 1) % r.vls.length]? = some v) ?_ ?_
  · rw [← hr.target, ← hlen]
    refine RelR.imp (RelR.getP hr.vls _).withEq fun v v' hv => ⟨hv.1, ?_⟩
    have := hv.2
    unfold Tri.getP at this
    split at this
    · cases this; assumption
    · cases this
  · rintro v v' ⟨hv, hg⟩
    cases v <;> cases v'
    · obtain ⟨g1, g2, rfl⟩ := hv
      rcases ho with ⟨o1, o2⟩ | ⟨c, ni, o⟩
      · simp only
        rw [hC.gtB g1 o2, ← o1, ← hr.target, ← hlen]
        refine RelR.bind (R := (· = ·)) ?_ ?_
        · unfold startTrapezoid
          split
          · exact RelR.bind (RelR.getU h.ns _) fun n n' hn => hn.toward hC h.ns h.ss _ g1
          · exact rfl
        · rintro ti _ rfl
          refine RelR.bind (walkC_rel hC h _ o2 g1 fuel ti) ?_
          rintro ⟨ti, k⟩ _ rfl
          rw [hr.unlocated]
          refine RelR.bind (R := (· = ·)) RelR.eq ?_
          rintro u _ rfl
          rw [h.ts]
          refine RelR.bind (R := (· = ·)) RelR.eq ?_
          rintro t _ rfl
          exact ⟨⟨⟨forall₂_set hr.vls _ ⟨g1, g2, rfl⟩, rfl, rfl⟩, .inl ⟨rfl, g1⟩⟩, rfl⟩
      · rw [hg] at o; cases o
    · exact hv.elim
    · exact hv.elim
    · obtain ⟨g1, rfl⟩ := hv
      refine RelR.bind (RelR.getU h.ns _) fun n n' hn => ?_
      exact ⟨⟨⟨hr.vls, hr.unlocated, by simp only; rw [hr.target, hlen]⟩, .inl ⟨rfl, hn.c⟩⟩, rfl⟩

theorem relocateC_rel {st : St I C} {st' : St J D} (h : StRel RI RC st st') (fuel : Nat)
    {vls : List (VLoc I C)} {vls' : List (VLoc J D)} (hvl : List.Forall₂ (VLocRel RI RC) vls vls')
    (vi0 pending : Nat) (hins : ∃ c ni, vls[(vi0 + 1) % vls.length]? = some (.inserted c ni)) :
    RelR (SameCost (List.Forall₂ (VLocRel RI RC))) (st.relocateC fuel vls vi0 pending)
      (st'.relocateC fuel vls' vi0 pending) := by
  have key : ∀ k (r : Reloc I C) (r' : Reloc J D), RelocRel RI RC r r' → OriginRel RC r r' →
      RelR (SameCost (List.Forall₂ (VLocRel RI RC))) (st.relocLoopC fuel k r) (st'.relocLoopC fuel k r') := by
    intro k
    induction k with
    | zero => exact fun _ _ _ _ => rfl
    | succ k ih =>
      intro r r' hr ho
      unfold relocLoopC
      refine RelR.ite (by rw [hr.unlocated]) ⟨hr.vls, rfl⟩ ?_
      refine RelR.bind (relocStepC_rel hC h fuel hr ho) ?_
      rintro ⟨r, m⟩ ⟨r', m'⟩ ⟨hr, hm⟩
      cases hm
      exact RelR.bind (ih r r' hr.1 hr.2) fun x x' hx => ⟨hx.1, by simp only [hx.2]⟩
  exact key fuel _ _ ⟨hvl, rfl, rfl⟩ (.inr hins)

include hI

theorem polyStepC_rel (cfg : Cfg) (fuel : Nat)
    {p : PolyList I V} {xy : V → Coords C} {p' : PolyList J W} {xy' : W → Coords D}
    (hp : PolyRel RI RC p xy p' xy') {l : PolyLoop I C × Nat} {l' : PolyLoop J D × Nat}
    (h : SameCost (PolyLoopRel RI RC) l l') (vi0 : Nat) :
    RelR (SameCost (PolyLoopRel RI RC)) (polyStepC cfg fuel p xy l vi0) (polyStepC cfg fuel p' xy' l' vi0) := by
  obtain ⟨l, n⟩ := l
  obtain ⟨l', n'⟩ := l'
  obtain ⟨h, hn⟩ := h
  cases hn
  simp only at h
  unfold polyStepC
  simp only
  refine RelR.bind (addNthSegmentC_rel hC hI h.st cfg fuel hp h.vls vi0).withEq ?_
  rintro ⟨⟨st, vls, m⟩, k⟩ ⟨⟨st', vls', m'⟩, k'⟩ ⟨⟨⟨h1, h2, h3⟩, h5⟩, h4⟩
  cases h3; cases h5
  rw [h.pending, h.i, h.nextUpdate, h.updateCount]
  refine RelR.bind (R := (· = ·)) RelR.eq ?_
  rintro pd _ rfl
  refine RelR.ite Iff.rfl ?_ ⟨⟨h1, h2, rfl, rfl, rfl, rfl⟩, rfl⟩
  refine RelR.bind (relocateC_rel hC h1 fuel h2 _ _ ?_) ?_
  · have e := addNthSegmentC_fst cfg fuel p xy l.st l.vls vi0
    rw [h4] at e
    exact (addNthSegment_end.of_ok e.symm).2
  · rintro ⟨vls, m⟩ ⟨vls', m'⟩ ⟨hvl, hm⟩
    cases hm
    exact ⟨⟨h1, hvl, rfl, rfl, rfl, by simp only; rw [hvl.length_eq]⟩, rfl⟩

theorem addPolygonC_rel (cfg : Cfg) (fuel k : Nat)
    {p : PolyList I V} {xy : V → Coords C} {p' : PolyList J W} {xy' : W → Coords D}
    (hp : PolyRel RI RC p xy p' xy') {st : St I C} {st' : St J D} (h : StRel RI RC st st')
    {vls : List (VLoc I C)} {vls' : List (VLoc J D)} (hvl : List.Forall₂ (VLocRel RI RC) vls vls') :
    RelR (SameCost (StRel RI RC)) (addPolygonC cfg fuel p xy k st vls) (addPolygonC cfg fuel p' xy' k st' vls') := by
  unfold addPolygonC
  rw [hvl.length_eq]
  refine RelR.bind (RelR.foldlM (Q := (· = ·)) (R := SameCost (PolyLoopRel RI RC)) ?_ (List.forall₂_same.2 fun _ _ => rfl)
    ⟨⟨h, hvl, rfl, rfl, rfl, rfl⟩, rfl⟩) fun l l' hl => ⟨hl.1.st, hl.2⟩
  rintro s t c _ hst rfl
  exact polyStepC_rel hC hI cfg fuel hp hst c

end St

theorem trapezoidizeC_rel (hC : RespC RC) [DecidableEq I] [DecidableEq J] (hI : RespI RI) (cfg : Cfg)
    (fuel : Nat) {p : PolyList I V} {xy : V → Coords C} {p' : PolyList J W} {xy' : W → Coords D}
    (hp : PolyRel RI RC p xy p' xy') (he : List.Forall₂ (ElemRel RI) p.elems p'.elems) :
    RelR (SameCost (StRel RI RC)) (trapezoidizeC cfg fuel p xy) (trapezoidizeC cfg fuel p' xy') := by
  unfold trapezoidizeC St.buildC
  refine RelR.bind (RelR.foldlM (R := SameCost (St.BuildLoopRel RI RC)) ?_ (forall₂_append he
    (.cons (show ElemRel RI (some .newPolygon) (some .newPolygon) from trivial) .nil))
    ⟨⟨St.init_rel, .nil, rfl⟩, rfl⟩) fun l l' hl => ⟨hl.1.st, hl.2⟩
  rintro ⟨l, n⟩ ⟨l', n'⟩ e e' ⟨hl, hn⟩ he
  cases hn
  simp only at hl
  rcases e with _ | _ | _ <;> rcases e' with _ | _ | _
  · exact rfl
  · exact he.elim
  · exact he.elim
  · exact he.elim
  · refine RelR.bind (hp.coords _ _ he) fun c c' hc => ?_
    exact ⟨⟨hl.st, forall₂_append hl.vls (.cons ⟨hc, he, rfl⟩ .nil), hl.k⟩, rfl⟩
  · exact he.elim
  · exact he.elim
  · exact he.elim
  · unfold St.buildStepC
    simp only
    rw [hl.vls.length_eq]
    refine RelR.ite Iff.rfl (RelR.ite Iff.rfl rfl ?_) ⟨hl, rfl⟩
    rw [hl.k]
    refine RelR.bind (RelR.mapErr (St.addPolygonC_rel hC hI cfg fuel l'.k hp hl.st hl.vls)) ?_
    rintro ⟨st, m⟩ ⟨st', m'⟩ ⟨h, hm⟩
    cases hm
    exact ⟨⟨h, .nil, rfl⟩, rfl⟩

end Tri
