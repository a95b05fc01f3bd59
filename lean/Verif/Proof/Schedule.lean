import Verif.Proof.RunBuild

/-!
# The relocation schedule does not matter

Two runs with the same segment order and different relocation schedules go through the same states: they
differ only in the query nodes at which the searches for pending vertices start.
-/

set_option linter.unusedSectionVars false

namespace Tri

variable {I V K : Type} [Field K] [LinearOrder K] [IsStrictOrderedRing K] [DecidableEq I]

attribute [local instance] exact

variable {P : Plane K} {p : PolyList I V} {xy : V → Coords K}

/-- A location without the query node. -/
def VLoc.strip : VLoc I K → VLoc I K
  | .pending c vi _ => .pending c vi 0
  | .inserted c ni => .inserted c ni

/-- Locations that differ only in their query nodes. -/
def Lock (vls vls' : List (VLoc I K)) : Prop := vls.map VLoc.strip = vls'.map VLoc.strip

theorem Lock.pend {vls vls' : List (VLoc I K)} (h : Lock vls vls') {i : Nat} {c : Coords K} {vi : I} {q : Nat}
    (hi : vls[i]? = some (.pending c vi q)) : ∃ q', vls'[i]? = some (.pending c vi q') := by
  have h1 := congrArg (fun l : List (VLoc I K) => l[i]?) h
  simp only [List.getElem?_map, hi, Option.map_some, VLoc.strip] at h1
  cases hx : vls'[i]? with
  | none => rw [hx] at h1; cases h1
  | some x =>
    rw [hx] at h1
    cases x with
    | pending c' vi' q' => simp only [Option.map_some, VLoc.strip, Option.some.injEq, VLoc.pending.injEq] at h1
                           obtain ⟨rfl, rfl, -⟩ := h1; exact ⟨q', rfl⟩
    | inserted c' ni' => simp [VLoc.strip] at h1

theorem Lock.ins {vls vls' : List (VLoc I K)} (h : Lock vls vls') {i : Nat} {c : Coords K} {ni : Nat}
    (hi : vls[i]? = some (.inserted c ni)) : vls'[i]? = some (.inserted c ni) := by
  have h1 := congrArg (fun l : List (VLoc I K) => l[i]?) h
  simp only [List.getElem?_map, hi, Option.map_some, VLoc.strip] at h1
  cases hx : vls'[i]? with
  | none => rw [hx] at h1; cases h1
  | some x =>
    rw [hx] at h1
    cases x with
    | pending c' vi' q' => simp [VLoc.strip] at h1
    | inserted c' ni' => simp only [Option.map_some, VLoc.strip, Option.some.injEq, VLoc.inserted.injEq] at h1
                         obtain ⟨rfl, rfl⟩ := h1; rfl

theorem Lock.len {vls vls' : List (VLoc I K)} (h : Lock vls vls') : vls.length = vls'.length := by
  have := congrArg List.length h
  simpa using this

theorem Lock.set {vls vls' : List (VLoc I K)} (h : Lock vls vls') (i : Nat) (x : VLoc I K) :
    Lock (vls.set i x) (vls'.set i x) := by
  unfold Lock at h ⊢
  rw [List.map_set, List.map_set, h]

theorem Lock.refl (vls : List (VLoc I K)) : Lock vls vls := rfl

theorem Lock.symm {vls vls' : List (VLoc I K)} (h : Lock vls vls') : Lock vls' vls := Eq.symm h

theorem Lock.trans {a b c : List (VLoc I K)} (h : Lock a b) (h' : Lock b c) : Lock a c := Eq.trans h h'

/-- The region of a trapezoid depends on the state alone. -/
theorem Region.transfer {A A' : Abs K} {st : St I K} {iu iu' : Nat → List Nat} {op op' ex ex' : Nat → Prop}
    (hI : Inv P A) (hL : Link st A iu op ex) (hL' : Link st A' iu' op' ex') {t : Nat} (ht : t < A.M) {v : Coords K}
    (h : Region P A t v) : Region P A' t v := by
  obtain ⟨tt, htt⟩ := hL.ts_get ht
  have e1 := hL.tr t tt htt
  have e2 := hL'.tr t tt htt
  have hT : A'.T t = A.T t := by rw [e1, e2]
  have hc : ∀ n, n < A.N → A'.c n = A.c n := by
    intro n hn
    obtain ⟨nx, hnx⟩ := hL.ns_get hn
    rw [← (hL.nex n nx hnx).c, (hL'.nex n nx hnx).c]
  have hs : ∀ i, i < A.S → A'.sg i = A.sg i := by
    intro i hi
    obtain ⟨s, hs⟩ := hL.ss_get hi
    rw [← (hL.seg i s hs).1, (hL'.seg i s hs).1]
  refine ⟨?_, ?_, ?_, ?_⟩ <;> rw [hT]
  · intro d hd; rw [hc d (hI.downM t ht d hd).1]; exact h.down d hd
  · intro d hd; rw [hc d (hI.upM t ht d hd).1]; exact h.up d hd
  · intro d hd; rw [hs d (hI.leftS t ht d hd)]; exact h.left d hd
  · intro d hd; rw [hs d (hI.rightS t ht d hd)]; exact h.right d hd

theorem Glob.sink_lt {A : Abs K} {st : St I K} {ex : Nat → Prop} (hG : Glob P p xy A st ex) {q t : Nat}
    (h : st.qs[q]? = some (.sink t)) : t < A.M := by
  obtain ⟨tt, htt, -⟩ := hG.qry.snk' q t h
  exact hG.link.lt_M htt

theorem Spots.transfer {A A' : Abs K} {st : St I K} {ex ex' : Nat → Prop} (hG : Glob P p xy A st ex)
    (hG' : Glob P p xy A' st ex') {vs : List (I × Coords K)} {vls : List (VLoc I K)} (h : Spots P A st vs vls) :
    Spots P A' st vs vls := by
  have hN : A'.N = A.N := by rw [← hG.link.nsL, hG'.link.nsL]
  have hc : ∀ n, n < A.N → A'.c n = A.c n := by
    intro n hn
    obtain ⟨nx, hnx⟩ := hG.link.ns_get hn
    rw [← (hG.link.nex n nx hnx).c, (hG'.link.nex n nx hnx).c]
  refine ⟨h.len, fun i v vl hv hvl => ?_⟩
  have := h.loc i v vl hv hvl
  cases vl with
  | pending c vi q =>
    obtain ⟨rfl, hf, q', t, h1, h2⟩ := this
    refine ⟨rfl, fun n hn => ?_, q', t, h1, h2.transfer hG.inv hG.link hG'.link (hG.sink_lt h1.end_sink)⟩
    rw [hN] at hn
    rw [hc n hn]; exact hf n hn
  | inserted c ni =>
    obtain ⟨rfl, h1, h2⟩ := this
    exact ⟨rfl, by rw [hN]; exact h1, by rw [hc ni h1, h2]⟩

/-- Both searches end at the same place. -/
theorem found_uniq {A : Abs K} {st : St I K} {ex : Nat → Prop} (hG : Glob P p xy A st ex) {v : Coords K} (hU : P.U v)
    {q1 q2 : Nat} (h1 : Found P A st.qs v q1) (h2 : Found P A st.qs v q2) :
    ∃ x N, ∀ fuel ≥ N, St.find st.qs v fuel q1 = .ok x ∧ St.find st.qs v fuel q2 = .ok x := by
  obtain ⟨a1, t1, f1, r1⟩ := h1
  obtain ⟨a2, t2, f2, r2⟩ := h2
  have ht := hG.inv.disj v hU t1 (hG.sink_lt f1.end_sink) t2 (hG.sink_lt f2.end_sink) r1 r2
  subst ht
  have ha := hG.qry.uniq f1.end_sink f2.end_sink
  subst ha
  obtain ⟨N1, h1⟩ := f1.find
  obtain ⟨N2, h2⟩ := f2.find
  exact ⟨_, max N1 N2, fun fuel hf => ⟨h1 fuel (le_trans (le_max_left _ _) hf), h2 fuel (le_trans (le_max_right _ _) hf)⟩⟩

theorem addVertexVL_lock {A : Abs K} {st : St I K} {ex : Nat → Prop} (hG : Glob P p xy A st ex)
    {vs : List (I × Coords K)} (hctx : PolyCtx P p xy vs) {vls1 vls2 : List (VLoc I K)} (hs1 : Spots P A st vs vls1)
    (hs2 : Spots P A st vs vls2) {i : Nat}
    {c : Coords K} {vi : I} {q1 q2 : Nat} (hi1 : vls1[i]? = some (.pending c vi q1))
    (hi2 : vls2[i]? = some (.pending c vi q2)) :
    ∃ N A' st' ex', (∀ cfg, ∀ fuel ≥ N, St.addVertexVL cfg fuel p xy st vls1 i vi q1 =
        .ok (st', vls1.set i (.inserted c A.N), A.N)) ∧
      (∀ cfg, ∀ fuel ≥ N, St.addVertexVL cfg fuel p xy st vls2 i vi q2 =
        .ok (st', vls2.set i (.inserted c A.N), A.N)) ∧
      Glob P p xy A' st' ex' ∧ Spots P A' st' vs (vls1.set i (.inserted c A.N)) ∧
      Spots P A' st' vs (vls2.set i (.inserted c A.N)) := by
  obtain ⟨N1, A1, st1, hr1, hG1, -, hS1, -⟩ := addVertexVL_run hG hctx hs1 hi1
  obtain ⟨N2, A2, st2, hr2, hG2, -, hS2, -⟩ := addVertexVL_run hG hctx hs2 hi2
  have hilt : i < vs.length := by rw [← hs1.len]; exact lt_of_get hi1
  obtain ⟨v, hv⟩ : ∃ v, vs[i]? = some v := ⟨_, List.getElem?_eq_getElem hilt⟩
  obtain ⟨rfl, hfr, hF1⟩ := hs1.loc i v _ hv hi1
  obtain ⟨-, -, hF2⟩ := hs2.loc i _ _ hv hi2
  obtain ⟨x, N3, hx⟩ := found_uniq hG (hctx.U _ (mem_of_get hv)) hF1 hF2
  have heq : st1 = st2 := by
    have e1 := hr1 ⟨fun _ _ => [], fun _ _ => 0, false⟩ (max N3 (max N1 N2)) (by omega)
    have e2 := hr2 ⟨fun _ _ => [], fun _ _ => 0, false⟩ (max N3 (max N1 N2)) (by omega)
    have hsrc := hctx.src _ (mem_of_get hv)
    obtain ⟨h1, h2⟩ := hx (max N3 (max N1 N2)) (by omega)
    simp only at hsrc
    simp only [St.addVertexVL, St.addVertex, hsrc, h1, h2, bind, Except.bind, St.debugCheck, getP, hi1, hi2] at e1 e2
    cases hst : st.addVertexAt vi c x.1 x.2 with
    | error e => rw [hst] at e1; cases e1
    | ok s =>
      rw [hst] at e1 e2
      simp only [Bool.false_eq_true, if_false, Except.ok.injEq, Prod.mk.injEq] at e1 e2
      rw [← e1.1, ← e2.1]
  subst heq
  exact ⟨max N1 N2, A1, st1, _, fun cfg fuel hf => hr1 cfg fuel (le_trans (le_max_left _ _) hf),
    fun cfg fuel hf => hr2 cfg fuel (le_trans (le_max_right _ _) hf), hG1, hS1, hS2.transfer hG2 hG1⟩

theorem addEnds_lock {A : Abs K} {st : St I K} {ex : Nat → Prop} (hG : Glob P p xy A st ex)
    {vs : List (I × Coords K)} (hctx : PolyCtx P p xy vs) {vls1 vls2 : List (VLoc I K)} (hs1 : Spots P A st vs vls1)
    (hs2 : Spots P A st vs vls2) (hlk : Lock vls1 vls2) {si : Nat} (hsi : si < vs.length) :
    ∃ N st' vls1' vls2' x, (∀ cfg, ∀ fuel ≥ N, St.addEnds cfg fuel p xy st vls1 si = .ok (st', vls1', x)) ∧
      (∀ cfg, ∀ fuel ≥ N, St.addEnds cfg fuel p xy st vls2 si = .ok (st', vls2', x)) ∧ Lock vls1' vls2' := by
  have hne := ne_succ_mod (by have := hctx.len; omega) hsi
  have hsj := hctx.lt si
  unfold St.addEnds
  rw [hs1.len, hs2.len]
  generalize hj : (si + 1) % vs.length = sj at hne hsj ⊢
  obtain ⟨vl0, h0⟩ : ∃ v, vls1[si]? = some v := ⟨_, List.getElem?_eq_getElem (by rw [hs1.len]; exact hsi)⟩
  obtain ⟨vl1, h1⟩ : ∃ v, vls1[sj]? = some v := ⟨_, List.getElem?_eq_getElem (by rw [hs1.len]; exact hsj)⟩
  have two : ∀ i j c0 i0 q0 c1 i1 q1 q0' q1', i ≠ j →
      vls1[i]? = some (.pending c0 i0 q0) → vls1[j]? = some (.pending c1 i1 q1) →
      vls2[i]? = some (.pending c0 i0 q0') → vls2[j]? = some (.pending c1 i1 q1') →
      ∃ N st' vls1' vls2' a b, (∀ cfg, ∀ fuel ≥ N, ∀ f : Nat → Nat → Nat × Nat × Nat, (do
        let (st, vls, ni0) ← St.addVertexVL cfg fuel p xy st vls1 i i0 q0
        let (st, vls, ni1) ← St.addVertexVL cfg fuel p xy st vls j i1 q1
        (.ok (st, vls, f ni0 ni1) : Res IErr _)) = .ok (st', vls1', f a b)) ∧
       (∀ cfg, ∀ fuel ≥ N, ∀ f : Nat → Nat → Nat × Nat × Nat, (do
        let (st, vls, ni0) ← St.addVertexVL cfg fuel p xy st vls2 i i0 q0'
        let (st, vls, ni1) ← St.addVertexVL cfg fuel p xy st vls j i1 q1'
        (.ok (st, vls, f ni0 ni1) : Res IErr _)) = .ok (st', vls2', f a b)) ∧ Lock vls1' vls2' := by
    intro i j c0 i0 q0 c1 i1 q1 q0' q1' hij a1 a2 b1 b2
    obtain ⟨N1, A1, st1, ex1, hr1, hr1', hG1, hS1, hS1'⟩ := addVertexVL_lock hG hctx hs1 hs2 a1 b1
    have a2' : (vls1.set i (.inserted c0 A.N))[j]? = some (.pending c1 i1 q1) := by
      rw [List.getElem?_set_ne hij]; exact a2
    have b2' : (vls2.set i (.inserted c0 A.N))[j]? = some (.pending c1 i1 q1') := by
      rw [List.getElem?_set_ne hij]; exact b2
    obtain ⟨N2, A2, st2, ex2, hr2, hr2', hG2, hS2, hS2'⟩ := addVertexVL_lock hG1 hctx hS1 hS1' a2' b2'
    refine ⟨max N1 N2, st2, _, _, A.N, A1.N, fun cfg fuel hf f => ?_, fun cfg fuel hf f => ?_, (hlk.set i (.inserted c0 A.N)).set j (.inserted c1 A1.N)⟩
    · simp only [hr1 cfg fuel (le_trans (le_max_left _ _) hf), hr2 cfg fuel (le_trans (le_max_right _ _) hf), bind, Except.bind]
    · simp only [hr1' cfg fuel (le_trans (le_max_left _ _) hf), hr2' cfg fuel (le_trans (le_max_right _ _) hf), bind, Except.bind]
  rcases vl0 with ⟨c0, i0, q0⟩ | ⟨c0, ni0⟩ <;> rcases vl1 with ⟨c1, i1, q1⟩ | ⟨c1, ni1⟩
  · obtain ⟨q0', h0'⟩ := hlk.pend h0
    obtain ⟨q1', h1'⟩ := hlk.pend h1
    by_cases hlt : c0.ltB c1 = true
    · obtain ⟨N, st', v1, v2, a, b, e1, e2, hl⟩ := two si sj c0 i0 q0 c1 i1 q1 q0' q1' hne h0 h1 h0' h1'
      refine ⟨N, st', v1, v2, (a, b, 2), fun cfg fuel hf => ?_, fun cfg fuel hf => ?_, hl⟩
      · have := e1 cfg fuel hf (fun a b => (a, b, 2))
        simp only [getP, h0, h1, bind, Except.bind, hlt, if_true] at this ⊢
        exact this
      · have := e2 cfg fuel hf (fun a b => (a, b, 2))
        simp only [getP, h0', h1', bind, Except.bind, hlt, if_true] at this ⊢
        exact this
    · obtain ⟨N, st', v1, v2, a, b, e1, e2, hl⟩ := two sj si c1 i1 q1 c0 i0 q0 q1' q0' (Ne.symm hne) h1 h0 h1' h0'
      refine ⟨N, st', v1, v2, (b, a, 2), fun cfg fuel hf => ?_, fun cfg fuel hf => ?_, hl⟩
      · have := e1 cfg fuel hf (fun a b => (b, a, 2))
        simp only [getP, h0, h1, bind, Except.bind, hlt] at this ⊢
        exact this
      · have := e2 cfg fuel hf (fun a b => (b, a, 2))
        simp only [getP, h0', h1', bind, Except.bind, hlt] at this ⊢
        exact this
  · obtain ⟨q0', h0'⟩ := hlk.pend h0
    have h1' := hlk.ins h1
    obtain ⟨N1, A1, st1, ex1, hr1, hr1', hG1, hS1, hS1'⟩ := addVertexVL_lock hG hctx hs1 hs2 h0 h0'
    refine ⟨N1, st1, _, _, (A.N, ni1, 1), fun cfg fuel hf => ?_, fun cfg fuel hf => ?_, hlk.set si (.inserted c0 A.N)⟩
    · simp only [getP, h0, h1, bind, Except.bind, hr1 cfg fuel hf]
    · simp only [getP, h0', h1', bind, Except.bind, hr1' cfg fuel hf]
  · obtain ⟨q1', h1'⟩ := hlk.pend h1
    have h0' := hlk.ins h0
    obtain ⟨N1, A1, st1, ex1, hr1, hr1', hG1, hS1, hS1'⟩ := addVertexVL_lock hG hctx hs1 hs2 h1 h1'
    refine ⟨N1, st1, _, _, (ni0, A.N, 1), fun cfg fuel hf => ?_, fun cfg fuel hf => ?_, hlk.set sj (.inserted c1 A.N)⟩
    · simp only [getP, h0, h1, bind, Except.bind, hr1 cfg fuel hf]
    · simp only [getP, h0', h1', bind, Except.bind, hr1' cfg fuel hf]
  · have h0' := hlk.ins h0
    have h1' := hlk.ins h1
    exact ⟨0, st, vls1, vls2, (ni0, ni1, 0), fun cfg fuel _ => by simp only [getP, h0, h1, bind, Except.bind],
      fun cfg fuel _ => by simp only [getP, h0', h1', bind, Except.bind], hlk⟩

/-- Relocation changes only query nodes. -/
theorem relocStep_lock {fuel : Nat} {st : St I K} {r r' : St.Reloc I K} (h : St.relocStep fuel st r = .ok r') :
    Lock r.vls r'.vls := by
  unfold St.relocStep at h
  simp only [bind, Except.bind] at h
  split at h
  · cases h
  · rename_i vl hvl
    have hg : r.vls[(r.target + 1) % r.vls.length]? = some vl := by
      unfold getP at hvl
      split at hvl
      · rename_i a ha; cases hvl; exact ha
      · cases hvl
    cases vl with
    | inserted c ni =>
      simp only at h
      split at h
      · cases h
      · cases h; exact .refl _
    | pending cT vi q =>
      simp only at h
      split at h
      · cases h
      · split at h
        · cases h
        · split at h
          · cases h
          · split at h
            · cases h
            · cases h
              unfold Lock
              simp only [List.map_set, VLoc.strip]
              refine List.ext_getElem? fun i => ?_
              by_cases hi : (r.target + 1) % r.vls.length = i
              · subst hi
                rw [List.getElem?_set_self (by simpa using lt_of_get hg), List.getElem?_map, hg]; rfl
              · rw [List.getElem?_set_ne hi]

theorem relocLoop_lock {fuel : Nat} {st : St I K} (k : Nat) : ∀ {r : St.Reloc I K} {vls : List (VLoc I K)},
    St.relocLoop fuel st k r = .ok vls → Lock r.vls vls := by
  induction k with
  | zero => intro r vls h; cases h
  | succ k ih =>
    intro r vls h
    rw [St.relocLoop] at h
    split at h
    · cases h; exact .refl _
    · simp only [bind, Except.bind] at h
      split at h
      · cases h
      · rename_i r' hr
        exact (relocStep_lock hr).trans (ih h)

/-- One segment, under two schedules. -/
theorem polyStep_lock {vs : List (I × Coords K)} (hctx : PolyCtx P p xy vs)
    {Old : Coords K × Coords K → Prop} (hold : ∀ k e, SideIs vs k e → ¬ Old e) {A0 A1 A2 : Abs K} {st0 : St I K} {done : List Nat}
    {l1 l2 : St.PolyLoop I K} (h1 : PolyRun P p xy vs Old A0 st0 done A1 l1) (h2 : PolyRun P p xy vs Old A0 st0 done A2 l2)
    (hst : l1.st = l2.st) (hlk : Lock l1.vls l2.vls) {si : Nat} (hsi : si < vs.length)
    (hnd : si ∉ done) (mathN1 mathN2 : Nat → Nat → Nat) :
    ∃ N A1' l1' A2' l2', (∀ cfg : Cfg, cfg.mathN = mathN1 → ∀ fuel ≥ N, St.polyStep cfg fuel p xy l1 si = .ok l1') ∧
      (∀ cfg : Cfg, cfg.mathN = mathN2 → ∀ fuel ≥ N, St.polyStep cfg fuel p xy l2 si = .ok l2') ∧
      PolyRun P p xy vs Old A0 st0 (done ++ [si]) A1' l1' ∧ PolyRun P p xy vs Old A0 st0 (done ++ [si]) A2' l2' ∧
      l1'.st = l2'.st ∧ Lock l1'.vls l2'.vls := by
  obtain ⟨N1, A1', l1', hr1, h1'⟩ := polyStep_run hctx hold h1 hsi hnd mathN1
  obtain ⟨N2, A2', l2', hr2, h2'⟩ := polyStep_run hctx hold h2 hsi hnd mathN2
  have hs2 : Spots P A1 l1.st vs l2.vls := by
    have := h2.spots
    have hg := h2.glob
    rw [← hst] at this hg
    exact this.transfer hg h1.glob
  obtain ⟨N3, st', v1, v2, x, e1, e2, hl⟩ := addEnds_lock h1.glob hctx h1.spots hs2 hlk hsi
  have key : ∀ (cfg1 cfg2 : Cfg), cfg1.mathN = mathN1 → cfg2.mathN = mathN2 → cfg1.order = cfg2.order → cfg1.debug = cfg2.debug →
      l1'.st = l2'.st ∧ Lock l1'.vls l2'.vls := by
    intro cfg1 cfg2 hm1 hm2 ho hd
    have hF : max N3 (max N1 N2) ≥ N3 ∧ max N3 (max N1 N2) ≥ N1 ∧ max N3 (max N1 N2) ≥ N2 := by omega
    generalize max N3 (max N1 N2) = F at hF
    have r1 := hr1 cfg1 hm1 F hF.2.1
    have r2 := hr2 cfg2 hm2 F hF.2.2
    have hseg : ∀ (s : St I K) a b c d, s.addSegment cfg1 F a b c d = s.addSegment cfg2 F a b c d := by
      intro s a b c d
      simp only [St.addSegment, St.debugCheck, hd]
    have hend1 := e1 cfg1 F hF.1
    have hend2 := e2 cfg2 F hF.1
    rw [hst] at hend1 hend2
    simp only [St.polyStep, St.addNthSegment, hst, hend1, hend2, hseg, bind, Except.bind] at r1 r2
    cases hna : getU (ε := IErr) st'.ns x.1 with
    | error e => rw [hna] at r1; cases r1
    | ok na =>
      cases hnb : getU (ε := IErr) st'.ns x.2.1 with
      | error e => rw [hna, hnb] at r1; cases r1
      | ok nb =>
        rw [hna, hnb] at r1 r2
        simp only at r1 r2
        cases hsg : (if na.c.ltB nb.c = true then st'.addSegment cfg2 F x.1 x.2.1 na.c nb.c
            else st'.addSegment cfg2 F x.2.1 x.1 nb.c na.c) with
        | error e => rw [hsg] at r1; cases r1
        | ok s =>
          rw [hsg] at r1 r2
          simp only at r1 r2
          have g1 : l1'.st = s ∧ Lock v1 l1'.vls := by
            split at r1
            · cases r1
            · split at r1
              · split at r1
                · cases r1
                · rename_i vls hrel
                  cases r1
                  exact ⟨rfl, relocLoop_lock _ hrel⟩
              · cases r1; exact ⟨rfl, .refl _⟩
          have g2 : l2'.st = s ∧ Lock v2 l2'.vls := by
            split at r2
            · cases r2
            · split at r2
              · split at r2
                · cases r2
                · rename_i vls hrel
                  cases r2
                  exact ⟨rfl, relocLoop_lock _ hrel⟩
              · cases r2; exact ⟨rfl, .refl _⟩
          exact ⟨g1.1.trans g2.1.symm, g1.2.symm.trans (hl.trans g2.2)⟩
  obtain ⟨k1, k2⟩ := key ⟨fun _ _ => [], mathN1, false⟩ ⟨fun _ _ => [], mathN2, false⟩ rfl rfl rfl rfl
  exact ⟨max N1 N2, A1', l1', A2', l2', fun cfg hc fuel hf => hr1 cfg hc fuel (le_trans (le_max_left _ _) hf),
    fun cfg hc fuel hf => hr2 cfg hc fuel (le_trans (le_max_right _ _) hf), h1', h2', k1, k2⟩

theorem polyLoop_lock {vs : List (I × Coords K)} (hctx : PolyCtx P p xy vs)
    {Old : Coords K × Coords K → Prop} (hold : ∀ k e, SideIs vs k e → ¬ Old e) {A0 : Abs K} {st0 : St I K}
    (mathN1 mathN2 : Nat → Nat → Nat) (todo : List Nat) :
    ∀ {done : List Nat} {A1 A2 : Abs K} {l1 l2 : St.PolyLoop I K},
    PolyRun P p xy vs Old A0 st0 done A1 l1 → PolyRun P p xy vs Old A0 st0 done A2 l2 → l1.st = l2.st →
    Lock l1.vls l2.vls → (done ++ todo).Nodup → (∀ k ∈ todo, k < vs.length) →
    ∃ N l1' l2', (∀ cfg : Cfg, cfg.mathN = mathN1 → ∀ fuel ≥ N, todo.foldlM (St.polyStep cfg fuel p xy) l1 = .ok l1') ∧
      (∀ cfg : Cfg, cfg.mathN = mathN2 → ∀ fuel ≥ N, todo.foldlM (St.polyStep cfg fuel p xy) l2 = .ok l2') ∧
      l1'.st = l2'.st := by
  induction todo with
  | nil =>
    intro done A1 A2 l1 l2 h1 h2 hst _ _ _
    exact ⟨0, l1, l2, fun _ _ _ _ => rfl, fun _ _ _ _ => rfl, hst⟩
  | cons si todo ih =>
    intro done A1 A2 l1 l2 h1 h2 hst hlk hnd hlt
    have hsi : si ∉ done := by
      intro hm
      rw [List.nodup_append] at hnd
      exact hnd.2.2 si hm si (by simp) rfl
    obtain ⟨N1, A1', l1', A2', l2', r1, r2, h1', h2', hst', hlk'⟩ :=
      polyStep_lock hctx hold h1 h2 hst hlk (hlt si (by simp)) hsi mathN1 mathN2
    obtain ⟨N2, l1'', l2'', s1, s2, hst''⟩ := ih h1' h2' hst' hlk' (by rw [List.append_assoc]; exact hnd)
      (fun k hk => hlt k (by simp [hk]))
    refine ⟨max N1 N2, l1'', l2'', fun cfg hc fuel hf => ?_, fun cfg hc fuel hf => ?_, hst''⟩
    · rw [List.foldlM_cons]
      simp only [r1 cfg hc fuel (le_trans (le_max_left _ _) hf), bind, Except.bind]
      exact s1 cfg hc fuel (le_trans (le_max_right _ _) hf)
    · rw [List.foldlM_cons]
      simp only [r2 cfg hc fuel (le_trans (le_max_left _ _) hf), bind, Except.bind]
      exact s2 cfg hc fuel (le_trans (le_max_right _ _) hf)

/-- `add_polygon` under two schedules. -/
theorem addPolygon_lock {vs : List (I × Coords K)} (hctx : PolyCtx P p xy vs)
    {Old : Coords K × Coords K → Prop} (hold : ∀ k e, SideIs vs k e → ¬ Old e) {A : Abs K} {st : St I K}
    (hG : Glob P p xy A st (fun _ => False)) (hfr : ∀ v ∈ vs, A.Fresh v.2) (hsegs : ∀ i < A.S, Old (A.sg i))
    (k : Nat) (order : Nat → Nat → List Nat) (mathN1 mathN2 : Nat → Nat → Nat) (hord : (order k vs.length).Perm (List.range vs.length)) :
    ∃ N st', ∀ cfg : Cfg, cfg.order = order → cfg.mathN = mathN1 ∨ cfg.mathN = mathN2 → ∀ fuel ≥ N,
        St.addPolygon cfg fuel p xy k st (startLocs vs) = .ok st' := by
  have hl : (startLocs vs).length = vs.length := by simp [startLocs]
  have h0 : ∀ m, PolyRun P p xy vs Old A st [] A ⟨st, startLocs vs, vs.length, 0, 1, m⟩ := by
    intro m
    refine ⟨hG, .refl _ _, ⟨hl, ?_⟩, ?_, fun i hi => .inl (hsegs i hi), by simp, fun n hn => .inl hn⟩
    · intro i v vl h1 h2
      simp only [startLocs, List.getElem?_map, h1, Option.map_some, Option.some.injEq] at h2
      subst h2
      have hm := mem_of_get h1
      exact ⟨rfl, hfr v hm, hG.root _ (hctx.U v hm) (hfr v hm)⟩
    · show _ = (pend (startLocs vs)).length
      rw [pend_startLocs]
  obtain ⟨N, l1, l2, r1, r2, hst⟩ := polyLoop_lock hctx hold mathN1 mathN2 (order k vs.length) (h0 (mathN1 vs.length 1))
    (h0 (mathN2 vs.length 1)) rfl (.refl _)
    (by rw [List.nil_append, hord.nodup_iff]; exact List.nodup_range)
    (fun j hj => by simpa using hord.mem_iff.1 hj)
  refine ⟨N, l1.st, fun cfg h1 h2 fuel hf => ?_⟩
  unfold St.addPolygon
  rcases h2 with h2 | h2
  · rw [hl, h1, h2]
    simp only [bind, Except.bind, r1 cfg h2 fuel hf]
  · rw [hl, h1, h2, hst]
    simp only [bind, Except.bind, r2 cfg h2 fuel hf]

theorem runPolys_lock (order : Nat → Nat → List Nat) (mathN1 mathN2 : Nat → Nat → Nat)
    (hord : ∀ k n, (order k n).Perm (List.range n)) (todo : List (List (I × Coords K))) :
    ∀ {done : List (List (I × Coords K))} {A : Abs K} {st : St I K}, AllIn P p xy done A st →
    (∀ g ∈ todo, PolyCtx P p xy g ∧ ∀ v ∈ g, p.coords (ε := TrapErr) xy v.1 = .ok v.2) →
    ((done ++ todo).flatten.map (·.2)).Nodup → ∀ k : Nat,
    ∃ N st', (∀ cfg : Cfg, cfg.order = order → cfg.mathN = mathN1 ∨ cfg.mathN = mathN2 → ∀ fuel ≥ N,
        runElems cfg fuel p xy ((elemsOf (todo.map (List.map Prod.fst))).map some) ⟨st, [], k⟩ = .ok ⟨st', [], k + todo.length⟩) := by
  induction todo with
  | nil =>
    intro done A st h _ _ k
    exact ⟨0, st, fun _ _ _ _ _ => rfl⟩
  | cons g todo ih =>
    intro done A st h hctx hnd k
    obtain ⟨hg, hsrc⟩ := hctx g (by simp)
    have hdis : ∀ v ∈ g, ∀ g' ∈ done, ∀ v' ∈ g', v.2 ≠ v'.2 := by
      intro v hv g' hg' v' hv' he
      rw [List.flatten_append, List.map_append, List.nodup_append] at hnd
      exact hnd.2.2 v'.2 (List.mem_map.2 ⟨v', List.mem_flatten.2 ⟨g', hg', hv'⟩, rfl⟩) v.2
        (List.mem_map.2 ⟨v, List.mem_flatten.2 ⟨g, by simp, hv⟩, rfl⟩) he.symm
    have hnold : ∀ j e, SideIs g j e → ¬ ∃ g' ∈ done, ∃ k, SideIs g' k e := by
      rintro j e he ⟨g', hg', j', he'⟩
      obtain ⟨v, hv, h1⟩ := he.ends.1
      obtain ⟨v', hv', h1'⟩ := he'.ends.1
      exact hdis v hv g' hg' v' hv' (h1.symm.trans h1')
    have hfr : ∀ v ∈ g, A.Fresh v.2 := by
      intro v hv n hn he
      obtain ⟨g', hg', v', hv', h1⟩ := h.cs n hn
      exact hdis v hv g' hg' v' hv' (he.symm.trans h1)
    obtain ⟨N0, st0, hr0⟩ := addPolygon_lock hg hnold h.glob hfr h.segs k order mathN1 mathN2 (hord _ _)
    -- one polygon keeps the invariant
    obtain ⟨N1, A1, st1, hr1, h1⟩ := runPolys_run order mathN1 hord [g] h
      (fun g' hg' => hctx g' (by rw [List.mem_singleton.1 hg']; simp)) (by
        refine hnd.sublist (List.Sublist.map _ ?_)
        simp) k
    have hstep : ∀ cfg : Cfg, cfg.order = order → cfg.mathN = mathN1 ∨ cfg.mathN = mathN2 → ∀ fuel ≥ N0,
        runElems cfg fuel p xy ((g.map Prod.fst).map (fun i => some (.cont i)) ++ [some .newPolygon]) ⟨st, [], k⟩ =
          .ok ⟨st0, [], k + 1⟩ := by
      intro cfg ho hm fuel hf
      rw [runElems_append, runElems_read cfg fuel hsrc]
      have hlen : (startLocs g).length = g.length := by simp [startLocs]
      have h3 := hg.len
      have := hr0 cfg ho hm fuel hf
      have hs : St.buildStep cfg fuel p xy ⟨st, [] ++ startLocs g, k⟩ (some .newPolygon) = .ok ⟨st0, [], k + 1⟩ := by
        simp only [St.buildStep, List.nil_append, hlen, show g.length > 0 by omega, if_true,
          show ¬ g.length < 3 by omega, if_false, this, Res.mapErr, bind, Except.bind]
      simp only [Except.bind, runElems_cons, hs]
      rfl
    have hmap1 : (elemsOf ([g].map (List.map Prod.fst))).map some =
        (g.map Prod.fst).map (fun i => some (.cont i)) ++ [some .newPolygon] := by
      simp [elemsOf, Function.comp_def]
    have heq : st0 = st1 := by
      have e1 := hr1 ⟨order, mathN1, false⟩ rfl rfl (max N0 N1) (le_max_right _ _)
      have e2 := hstep ⟨order, mathN1, false⟩ rfl (.inl rfl) (max N0 N1) (le_max_left _ _)
      rw [hmap1, e2] at e1
      simp only [Except.ok.injEq, St.BuildLoop.mk.injEq] at e1
      exact e1.1
    subst heq
    obtain ⟨N2, st2, hr2⟩ := ih h1 (fun g' hg' => hctx g' (by simp [hg'])) (by simpa using hnd) (k + 1)
    refine ⟨max N0 N2, st2, fun cfg ho hm fuel hf => ?_⟩
    have hmap : (elemsOf ((g :: todo).map (List.map Prod.fst))).map some =
        ((g.map Prod.fst).map (fun i => some (.cont i)) ++ [some .newPolygon]) ++
          (elemsOf (todo.map (List.map Prod.fst))).map some := by
      simp [elemsOf, Function.comp_def]
    rw [hmap, runElems_append, hstep cfg ho hm fuel (le_trans (le_max_left _ _) hf)]
    have := hr2 cfg ho hm fuel (le_trans (le_max_right _ _) hf)
    rw [show k + 1 + todo.length = k + (g :: todo).length by simp; omega] at this
    exact this

/-- The trapezoidation does not depend on the relocation schedule. -/
theorem trapezoidize_lock {gs : List (List (I × Coords K))} (hctx : PolysCtx P p xy gs)
    (order : Nat → Nat → List Nat) (mathN1 mathN2 : Nat → Nat → Nat) (hord : ∀ k n, (order k n).Perm (List.range n)) :
    ∃ N st, ∀ cfg : Cfg, cfg.order = order → cfg.mathN = mathN1 ∨ cfg.mathN = mathN2 → ∀ fuel ≥ N,
        trapezoidize cfg fuel p xy = .ok st := by
  obtain ⟨es, hes, hpoly⟩ := hctx.desc.elems
  have h0 : AllIn P p xy ([] : List (List (I × Coords K))) Abs.init (St.init : St I K) :=
    ⟨glob_init, fun i hi => absurd hi (Nat.not_lt_zero _), by simp, fun i hi => absurd hi (Nat.not_lt_zero _)⟩
  obtain ⟨N, st, hr⟩ := runPolys_lock order mathN1 mathN2 hord gs h0
    (fun g hg => ⟨hctx.poly g hg, fun v hv => coords_of_get (hctx.desc.coords g hg v hv)⟩) (by simpa using hctx.distinct) 0
  refine ⟨N, st, fun cfg ho hm fuel hf => ?_⟩
  have h1 := runElems_polygons cfg fuel p xy es [] St.init 0
  rw [← polygonsOf.eq_1, hpoly, hr cfg ho hm fuel hf] at h1
  rw [trapezoidize_eq, hes]
  simp only [List.map_nil, List.nil_append] at h1
  rw [h1]; rfl

end Tri
