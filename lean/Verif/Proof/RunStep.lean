import Verif.Proof.RunNexus

/-!
# One step of `add_segment`
-/

set_option linter.unusedSectionVars false

namespace Tri

variable {I V K : Type} [Field K] [LinearOrder K] [IsStrictOrderedRing K]

attribute [local instance] exact

open Abs

/-- A trapezoid next to segment `s`. -/
def Beside (s : Nat) (z : Trz) : Prop := z.left = some s ∨ z.right = some s

/-- At vertex `n`, the code keeps the trapezoid left of the segment `s` that has just reached it. -/
abbrev KeepL (A : Abs K) (s : Segment K) (n : Nat) : Prop := n = s.niMin ∨ s.isOnLeft (A.c n) = true

/-- The row above the vertex `n` that segment `s` has reached, as the code knows it. -/
def upNow (A : Abs K) (s : Segment K) (n tl tr : Nat) (pre post : List Nat) : Nat → List Nat :=
  Function.update A.ups n (pre ++ (if KeepL A s n then tl else tr) :: post)

/-- The state of the loop of `add_segment`. -/
structure SegRun (P : Plane K) (A : Abs K) (st : St I K) (si : Nat) (sg : Segment K) (ni tl tr : Nat)
    (pre post : List Nat) (ex : Nat → Prop) : Prop where
  reach : Reach P A si ni tl tr pre post
  link : Link st A (upNow A sg ni tl tr pre post) (· = si) ex
  qry : Qry st.qs st.ts A
  seg : st.ss[si]? = some sg
  ex : ∀ n, ex n → n = sg.niMin ∨ n = sg.niMax

/-- Nothing but trapezoids changes. -/
structure SameS (A A' : Abs K) : Prop where
  N : A'.N = A.N
  c : A'.c = A.c
  S : A'.S = A.S
  sg : A'.sg = A.sg
  mx : A'.mx = A.mx
  M : A'.M = A.M

theorem SameS.trans {A A' A'' : Abs K} (h : SameS A A') (h' : SameS A' A'') : SameS A A'' :=
  ⟨h'.N.trans h.N, h'.c.trans h.c, h'.S.trans h.S, h'.sg.trans h.sg, h'.mx.trans h.mx, h'.M.trans h.M⟩

section
variable {P : Plane K} {A A' : Abs K} {st : St I K} {iu iu' : Nat → List Nat} {op ex : Nat → Prop}

/-- Replacing one nexus. -/
theorem Link.after (hL : Link st A iu op ex) {n' : Nat} {nx' z : Nexus I K} {ts' : List Trapezoid}
    {qs' : List (QueryNode K)} (hn' : st.ns[n']? = some nx')
    (hz : NexLink A' (iu' n') (A'.downs n') op n' z) (hvi : z.vi = nx'.vi)
    (hzero : z.dividers = .zero → nx'.dividers = .zero)
    (hoth : ∀ (m : Nat) (nx : Nexus I K), m ≠ n' → st.ns[m]? = some nx → NexLink A' (iu' m) (A'.downs m) op m nx)
    (htsL : ts'.length = st.ts.length)
    (htr : ∀ (i : Nat) (t : Trapezoid), ts'[i]? = some t → A'.T i = ⟨t.left, t.right, t.down, t.up⟩)
    (hs : SameS A A') (hreal : Real A' op) :
    Link ⟨st.ns.set n' z, st.ss, ts', qs'⟩ A' iu' op ex := by
  have hlt := lt_of_get hn'
  have hget : ∀ (m : Nat) (nx : Nexus I K), (st.ns.set n' z)[m]? = some nx →
      (m = n' ∧ nx = z) ∨ (m ≠ n' ∧ st.ns[m]? = some nx) := by
    intro m nx h
    by_cases hm : m = n'
    · subst hm
      rw [List.getElem?_set_self hlt] at h
      exact .inl ⟨rfl, (Option.some.inj h).symm⟩
    · rw [List.getElem?_set_ne (Ne.symm hm)] at h
      exact .inr ⟨hm, h⟩
  refine ⟨by simp [hL.nsL, hs.N], by simp [hL.ssL, hs.S], by simp [htsL, hL.tsL, hs.M], ?_, ?_, ?_, htr, ?_, hreal⟩
  · intro m nx h
    rcases hget m nx h with ⟨rfl, rfl⟩ | ⟨hm, h⟩
    · exact hz
    · exact hoth m nx hm h
  · intro m nx h h0
    rcases hget m nx h with ⟨rfl, rfl⟩ | ⟨hm, h⟩
    · exact hL.bare m nx' hn' (hzero h0)
    · exact hL.bare m nx h h0
  · intro i s hi
    obtain ⟨h1, h2, h3, h4⟩ := hL.seg i s hi
    rw [hs.sg, hs.mx, hs.N, hs.c]
    exact ⟨h1, h2, h3, h4⟩
  · have hold : ∀ (m : Nat) (nx : Nexus I K), (st.ns.set n' z)[m]? = some nx →
        ∃ nx0, st.ns[m]? = some nx0 ∧ nx.vi = nx0.vi := by
      intro m nx h
      rcases hget m nx h with ⟨rfl, rfl⟩ | ⟨hm, h⟩
      · exact ⟨nx', hn', hvi⟩
      · exact ⟨nx, h, rfl⟩
    intro m k nx ny hm hk hv
    obtain ⟨nx0, e1, e2⟩ := hold m nx hm
    obtain ⟨ny0, f1, f2⟩ := hold k ny hk
    exact hL.vi m k nx0 ny0 e1 f1 (by rw [← e2, ← f2, hv])

theorem replaceAt_run {ns : List (Nexus I K)} {n x y : Nat} {nx : Nexus I K} (hn : ns[n]? = some nx)
    (h1 : (nx.iterTrapezoids .asc ++ nx.iterTrapezoids .desc).Nodup) (h2 : x ∈ nx.iterTrapezoids .asc) :
    St.replaceAt ns (some n) x y = .ok (ns.set n (nx.ren x y)) := by
  simp only [St.replaceAt, getP, hn, bind, Except.bind]
  rw [Nexus.replace_run h1 (List.mem_append_left _ h2)]

theorem set_get_same {α : Type} {l : List α} {n : Nat} {x : α} (h : l[n]? = some x) : l.set n x = l := by
  refine List.ext_getElem? fun m => ?_
  by_cases hm : m = n
  · subst hm; rw [List.getElem?_set_self (lt_of_get h), h]
  · rw [List.getElem?_set_ne (Ne.symm hm)]

variable {si ni tl tr : Nat} {sg : Segment K} {pre post : List Nat}

theorem SegRun.sgE (h : SegRun P A st si sg ni tl tr pre post ex) : sg.cMin = (A.sg si).1 ∧ sg.cMax = (A.sg si).2 := by
  have := (h.link.seg si sg h.seg).1
  rw [← this]; exact ⟨rfl, rfl⟩

theorem SegRun.ne_lo (h : SegRun P A st si sg ni tl tr pre post ex) (hne : ni ≠ sg.niMin) : A.c ni ≠ (A.sg si).1 := by
  obtain ⟨-, -, h3, h4⟩ := h.link.seg si sg h.seg
  intro e
  exact hne (h.reach.inv.cinj ni h.reach.nN _ h3 (e.trans h4.symm))

theorem SegRun.ne_hi (h : SegRun P A st si sg ni tl tr pre post ex) : ni ≠ sg.niMax := by
  obtain ⟨-, h2, -, -⟩ := h.link.seg si sg h.seg
  have := (h.reach.inv.mnN si h.reach.sS).2.2
  rw [h.reach.mn, ← (h.reach.inv.mxN si h.reach.sS).2, ← h2] at this
  rintro rfl
  exact lt_irrefl _ this

/-- Extension right of a vertex. -/
theorem SegRun.stepR (h : SegRun P A st si sg ni tl tr pre post ex) (hne : ni ≠ sg.niMin)
    (hside : (A.c ni).x < P.X (A.sg si) (A.c ni)) {n' ti : Nat} {dpre : List Nat}
    (hx : ExtROk P A si ni n' ti tl tr pre dpre) {tt ttr : Trapezoid} (htt : st.ts[ti]? = some tt)
    (httr : st.ts[tr]? = some ttr) {nx' : Nexus I K} (hnx' : st.ns[n']? = some nx') :
    ∃ A' pre' post', SameS A A' ∧
      St.replaceAt st.ns (if n' ≠ sg.niMin ∧ sg.isOnLeft nx'.c = false then some n' else none) ti tr =
        .ok (st.ns.set n' (if KeepL A sg n' then nx' else nx'.ren ti tr)) ∧
      SegRun P A' ⟨st.ns.set n' (if KeepL A sg n' then nx' else nx'.ren ti tr), st.ss,
        (st.ts.set ti { tt with right := some si, sink := st.qs.length }).set tr { ttr with down := some n' },
        st.qs.set tt.sink (.branch st.qs.length ttr.sink (.X sg.cMin sg.cMax)) ++ [.sink ti]⟩
        si sg n' ti tr pre' post' ex ∧
      P.h (A.c n') < P.h (A.c ni) ∧
      (∃ L R, Nex P A' ni L R ∧ (L = some si ∨ R = some si)) ∧
      ∀ w q, P.U w → Trk P A st.qs A'
        (st.qs.set tt.sink (.branch st.qs.length ttr.sink (.X sg.cMin sg.cMax)) ++ [.sink ti]) w q
        (if P.h (A.c n') < P.h w ∧ P.h w < P.h (A.c ni) then 1 else 0) (Beside si) := by
  have hI := h.reach.inv
  have hL := h.link
  have hnN := h.reach.nN
  have hI' := extR_inv hI hnN hx
  obtain ⟨hti, htiU⟩ := hI.rowD ni hnN ti (by rw [hx.downs]; simp)
  obtain ⟨htr, htrD⟩ := h.reach.trM
  obtain ⟨hn'N, hmem⟩ := hI.downM ti hti n' hx.tiD
  have hlow := hI.ht ti hti ni n' htiU hx.tiD
  have hnn : n' ≠ ni := by rintro rfl; exact lt_irrefl _ hlow
  have htitr : ti ≠ tr := by
    rintro rfl
    exact lt_irrefl _ (hI.ht ti hti ni ni htiU htrD)
  obtain ⟨L', R', hN'⟩ := hI.nex n' hn'N
  obtain ⟨pre', post', hspl, hp1, hp2⟩ := split_at hmem hN'.nodupU
  have hEq := h.sgE
  have hTt : A.T ti = ⟨tt.left, tt.right, tt.down, tt.up⟩ := hL.tr ti tt htt
  have hTr : A.T tr = ⟨ttr.left, ttr.right, ttr.down, ttr.up⟩ := hL.tr tr ttr httr
  set A' := A.extR si ni n' ti tr (pre ++ [tl]) with hA'
  have hs : SameS A A' := ⟨rfl, rfl, rfl, rfl, rfl, rfl⟩
  have hT1 : A'.T tr = { A.T tr with down := some n' } := Function.update_self _ _ _
  have hT2 : A'.T ti = { A.T ti with right := some si } := by
    show Function.update _ _ _ _ = _
    rw [Function.update_of_ne htitr, Function.update_self]
  have hT3 : ∀ i, i ≠ ti → i ≠ tr → A'.T i = A.T i := by
    intro i h1 h2
    show Function.update _ _ _ _ = _
    rw [Function.update_of_ne h2, Function.update_of_ne h1]
  have hleft : ∀ i, (A'.T i).left = (A.T i).left := by
    intro i
    by_cases h1 : i = tr
    · subst h1; rw [hT1]
    · by_cases h2 : i = ti
      · subst h2; rw [hT2]
      · rw [hT3 i h2 h1]
  have hup : ∀ i, (A'.T i).up = (A.T i).up := by
    intro i
    by_cases h1 : i = tr
    · subst h1; rw [hT1]
    · by_cases h2 : i = ti
      · subst h2; rw [hT2]
      · rw [hT3 i h2 h1]
  have hmn : ∀ i, i ≠ si → A'.mn i = A.mn i := fun i hi => Function.update_of_ne hi _ _
  have hU1 : A'.ups n' = pre' ++ ti :: tr :: post' := by
    show Function.update _ _ _ _ = _
    rw [Function.update_self, hspl, insertAfter_split hp1 hp2]
  have hU2 : A'.ups ni = pre ++ [tl] := by
    show Function.update _ _ _ _ = _
    rw [Function.update_of_ne (Ne.symm hnn), Function.update_self]
  have hU3 : ∀ m, m ≠ n' → m ≠ ni → A'.ups m = A.ups m := by
    intro m h1 h2
    show Function.update _ _ _ _ = _
    rw [Function.update_of_ne h1, Function.update_of_ne h2]
  have hreal : Real A' (· = si) := by
    intro i hi ho
    rw [hmn i ho]; exact h.reach.real i hi ho
  have hreach : Reach P A' si n' ti tr pre' post' := by
    refine ⟨hI', h.reach.sS, Function.update_self _ _ _, hU1, ?_, ?_, ?_, hreal⟩
    · rw [hleft]; exact h.reach.trL
    · intro l hl
      rw [hleft] at hl; exact hx.ltL l hl
    · intro r hr
      rw [hT1] at hr; exact h.reach.ltR r hr
  have hsd := (h.reach.side (h.ne_lo hne)).1
  have hlt0 := (h.reach.side (h.ne_lo hne)).2.2
  have hkeep : KeepL A sg ni := by
    refine .inr ?_
    show isLeftOfLine sg.cMin sg.cMax (A.c ni) = true
    rw [hEq.1, hEq.2]; exact hsd.1 hside
  have hpost := h.reach.post_nil hside
  have hold : NexLink A (A.ups n') (A.downs n') (· = si) n' nx' := by
    have := hL.nex n' nx' hnx'
    rwa [upNow, Function.update_of_ne hnn] at this
  have hpre : ¬ KeepL A sg n' → pre' = [] := by
    intro hk
    have hne' : n' ≠ sg.niMin := fun e => hk (.inl e)
    obtain ⟨-, -, h3, h4⟩ := hL.seg si sg h.seg
    have hne2 : A'.c n' ≠ (A'.sg si).1 := by
      intro e
      exact hne' (hI.cinj n' hn'N _ h3 (e.trans h4.symm))
    obtain ⟨g1, g2, g3⟩ := hreach.side hne2
    refine hreach.pre_nil (g2.resolve_right fun hlt => hk (.inr ?_))
    show isLeftOfLine sg.cMin sg.cMax (A.c n') = true
    rw [hEq.1, hEq.2]; exact g1.1 hlt
  have hnd := hI.rows_nodup hn'N
  have htidn : ti ∉ A.downs n' := by
    intro hm
    have := (hI.rowD n' hn'N ti hm).2
    rw [htiU] at this
    exact hnn (Option.some.inj this).symm
  have hnewmx : ∀ (m i : Nat), i < A'.S → A.S ≤ i → i = si ∧ A'.mx i ≠ m := by
    intro m i h1 h2
    exact absurd h1 (not_lt.2 h2)
  have htran : ∀ {m : Nat} {nx : Nexus I K} {u d : List Nat}, NexLink A u d (· = si) m nx →
      NexLink A' u d (· = si) m nx := by
    intro m nx u d hm
    exact hm.transfer rfl (le_refl _) (fun _ _ => rfl) (fun i _ hi => hmn i hi) (fun _ _ => Iff.rfl)
      (hnewmx m) (fun x _ => hleft _)
  have hlink : Link ⟨st.ns.set n' (if KeepL A sg n' then nx' else nx'.ren ti tr), st.ss,
        (st.ts.set ti { tt with right := some si, sink := st.qs.length }).set tr { ttr with down := some n' },
        st.qs.set tt.sink (.branch st.qs.length ttr.sink (.X sg.cMin sg.cMax)) ++ [.sink ti]⟩ A'
      (upNow A' sg n' ti tr pre' post') (· = si) ex := by
    refine hL.after hnx' ?_ ?_ ?_ ?_ (by simp) ?_ hs hreal
    · have e : upNow A' sg n' ti tr pre' post' n' = pre' ++ (if KeepL A sg n' then ti else tr) :: post' :=
        Function.update_self _ _ _
      rw [e]
      by_cases hk : KeepL A sg n'
      · rw [if_pos hk, if_pos hk, ← hspl]
        exact htran hold
      · rw [if_neg hk, if_neg hk]
        have hp := hpre hk
        have h1 := (htran hold).ren ti tr fun z hz hzt => by
          exact absurd hzt (hold.head_up (t := ti) (post := post') (by rw [hspl, hp]; rfl) hnd hz)
        rwa [hspl, map_rn_split hp1 hp2, map_rn_of_not_mem htidn] at h1
    · split <;> rfl
    · split
      · exact id
      · exact ren_zero
    · intro m nx hm hnx
      have e : upNow A' sg n' ti tr pre' post' m = A'.ups m := Function.update_of_ne hm _ _
      rw [e]
      have h0 := hL.nex m nx hnx
      by_cases hmn : m = ni
      · subst hmn
        rw [hU2]
        have e : upNow A sg m tl tr pre post m = pre ++ (if KeepL A sg m then tl else tr) :: post :=
          Function.update_self _ _ _
        rw [e, if_pos hkeep, hpost] at h0
        exact htran h0
      · rw [hU3 m hm hmn]
        have e : upNow A sg ni tl tr pre post m = A.ups m := Function.update_of_ne hmn _ _
        rw [e] at h0
        exact htran h0
    · intro i t hi
      by_cases h1 : i = tr
      · subst h1
        rw [List.getElem?_set_self (by simpa using lt_of_get httr)] at hi
        cases hi
        rw [hT1, hTr]
      · rw [List.getElem?_set_ne (Ne.symm h1)] at hi
        by_cases h2 : i = ti
        · subst h2
          rw [List.getElem?_set_self (lt_of_get htt)] at hi
          cases hi
          rw [hT2, hTt]
        · rw [List.getElem?_set_ne (Ne.symm h2)] at hi
          rw [hT3 i h2 h1]; exact hL.tr i t hi
  have hQ' : Qry (st.qs.set tt.sink (.branch st.qs.length ttr.sink (.X sg.cMin sg.cMax)) ++ [.sink ti])
      ((st.ts.set ti { tt with right := some si, sink := st.qs.length }).set tr { ttr with down := some n' }) A' := by
    refine qry_ext h.qry htt httr htitr (.inl ⟨rfl, rfl⟩) ?_ ?_ ?_ hup (by rw [htiU]; simp)
    · intro i t hi
      by_cases h1 : i = tr
      · subst h1
        rw [List.getElem?_set_self (by simpa using lt_of_get httr)] at hi
        cases hi
        exact .inr ⟨Ne.symm htitr, ttr, httr, rfl⟩
      · rw [List.getElem?_set_ne (Ne.symm h1)] at hi
        by_cases h2 : i = ti
        · subst h2
          rw [List.getElem?_set_self (lt_of_get htt)] at hi
          cases hi
          exact .inl ⟨rfl, rfl⟩
        · rw [List.getElem?_set_ne (Ne.symm h2)] at hi
          exact .inr ⟨h2, t, hi, rfl⟩
    · refine ⟨{ tt with right := some si, sink := st.qs.length }, ?_, rfl⟩
      rw [List.getElem?_set_ne (Ne.symm htitr), List.getElem?_set_self (lt_of_get htt)]
    · intro i t0 hi ht0
      by_cases h1 : i = tr
      · subst h1
        rw [httr] at ht0; cases ht0
        exact ⟨{ ttr with down := some n' }, by rw [List.getElem?_set_self (by simpa using lt_of_get httr)], rfl⟩
      · exact ⟨t0, by rw [List.getElem?_set_ne (Ne.symm h1), List.getElem?_set_ne (Ne.symm hi), ht0], rfl⟩
  refine ⟨A', pre', post', hs, ?_, ⟨hreach, hlink, hQ', h.seg, h.ex⟩, hlow, ?_, ?_⟩
  · have hc : nx'.c = A.c n' := hold.c
    rw [hc]
    by_cases hk : KeepL A sg n'
    · have : ¬ (n' ≠ sg.niMin ∧ sg.isOnLeft (A.c n') = false) := by
        rintro ⟨h1, h2⟩
        rcases hk with hk | hk
        · exact h1 hk
        · rw [h2] at hk; cases hk
      rw [if_neg this, if_pos hk, set_get_same hnx']; rfl
    · have : n' ≠ sg.niMin ∧ sg.isOnLeft (A.c n') = false := by
        refine ⟨fun e => hk (.inl e), ?_⟩
        rw [← Bool.not_eq_true]
        exact fun e => hk (.inr e)
      rw [if_pos this, if_neg hk]
      exact replaceAt_run hnx' (by rw [hold.up, hold.down]; exact hnd) (by rw [hold.up]; exact hmem)
  · obtain ⟨L, R, hN⟩ := hI'.nex ni hnN
    refine ⟨L, R, hN, .inr ?_⟩
    have hp := hN.pathU
    rw [hU2, path_append] at hp
    obtain ⟨m, -, -, hp⟩ := hp
    have htl : tl ≠ ti := by
      rintro rfl
      exact lt_irrefl _ (hI.ht tl hti ni ni htiU h.reach.tlM.2)
    have htl' : tl ≠ tr := by
      rintro rfl
      exact hI.ne tl htr si h.reach.trL h.reach.tlR
    rw [← show (A'.T tl).right = R from hp, hT3 tl htl htl']
    exact h.reach.tlR
  · intro w q hw
    obtain ⟨r1, r2, r3⟩ := extR_region hI hnN hx hw
    have hq := h.qry.snk ti tt htt
    have hlq := lt_of_get hq
    have hso := h.qry.snk tr ttr httr
    refine Trk.split h.qry hq (fun p n => qs_set_same p n) (l := st.qs.length) (r := ttr.sink)
      (br := .X sg.cMin sg.cMax) (xl := ti) (xr := tr) ?_ ?_ ?_ ?_ (fun hr => if_pos ⟨hr.down n' hx.tiD, hr.up ni htiU⟩)
      (.inr (by rw [hT2])) (.inl (by rw [hT1]; exact h.reach.trL)) ?_
    · rw [List.getElem?_append_left (by simpa using hlq), List.getElem?_set_self hlq]
    · rw [List.getElem?_append_right (by simp)]; simp
    · refine qs_set_same _ _ ?_ hso
      intro h'
      rw [h', hq] at hso; cases hso; exact htitr rfl
    · intro hr
      have hE := hI.sE si h.reach.sS
      have g1 : P.h (A.sg si).1 < P.h w := lt_of_le_of_lt hx.low (hr.down n' hx.tiD)
      have g2 : P.h w < P.h (A.sg si).2 := lt_trans (hr.up ni htiU) h.reach.hn.2
      have gi := P.left_iff hE hw g1 g2
      rw [← hEq.1, ← hEq.2] at gi
      show if isLeftOfLine sg.cMin sg.cMax w = true then _ else _
      by_cases hl : isLeftOfLine sg.cMin sg.cMax w = true
      · rw [if_pos hl]; exact r1.2 ⟨hr, gi.1 hl⟩
      · rw [if_neg hl]
        refine r2.2 (.inr ⟨hr, ?_⟩)
        exact lt_of_le_of_ne (not_lt.1 fun h' => hl (gi.2 h')) (P.X_ne hE hw g1 g2)
    · intro i hi hit hr
      by_cases h1 : i = tr
      · subst h1; exact ⟨r2.2 (.inl hr), .inr ⟨.inl (by rw [hT1]; exact h.reach.trL), .inl (by rw [hT1, h.reach.trL]; simp)⟩⟩
      · exact ⟨(r3 i hit h1).2 hr, .inl (hT3 i hit h1)⟩

/-- Extension left of a vertex. -/
theorem SegRun.stepL (h : SegRun P A st si sg ni tl tr pre post ex) (hne : ni ≠ sg.niMin)
    (hside : P.X (A.sg si) (A.c ni) < (A.c ni).x) {n' ti : Nat} {dpost : List Nat}
    (hx : ExtLOk P A si ni n' ti tl tr post dpost) (heq : (A.T ti).left = (A.T tl).left) {tt ttl : Trapezoid}
    (htt : st.ts[ti]? = some tt)
    (httl : st.ts[tl]? = some ttl) {nx' : Nexus I K} (hnx' : st.ns[n']? = some nx') :
    ∃ A' pre' post', SameS A A' ∧
      St.replaceAt st.ns (if n' = sg.niMin ∨ sg.isOnLeft nx'.c = true then some n' else none) ti tl =
        .ok (st.ns.set n' (if KeepL A sg n' then nx'.ren ti tl else nx')) ∧
      SegRun P A' ⟨st.ns.set n' (if KeepL A sg n' then nx'.ren ti tl else nx'), st.ss,
        (st.ts.set ti { tt with left := some si, sink := st.qs.length }).set tl { ttl with down := some n' },
        st.qs.set tt.sink (.branch ttl.sink st.qs.length (.X sg.cMin sg.cMax)) ++ [.sink ti]⟩
        si sg n' tl ti pre' post' ex ∧
      P.h (A.c n') < P.h (A.c ni) ∧
      (∃ L R, Nex P A' ni L R ∧ (L = some si ∨ R = some si)) ∧
      ∀ w q, P.U w → Trk P A st.qs A'
        (st.qs.set tt.sink (.branch ttl.sink st.qs.length (.X sg.cMin sg.cMax)) ++ [.sink ti]) w q
        (if P.h (A.c n') < P.h w ∧ P.h w < P.h (A.c ni) then 1 else 0) (Beside si) := by
  have hI := h.reach.inv
  have hL := h.link
  have hnN := h.reach.nN
  have hI' := extL_inv hI hnN hx
  obtain ⟨hti, htiU⟩ := hI.rowD ni hnN ti (by rw [hx.downs]; simp)
  obtain ⟨htl, htlD⟩ := h.reach.tlM
  obtain ⟨hn'N, hmem⟩ := hI.downM ti hti n' hx.tiD
  have hlow := hI.ht ti hti ni n' htiU hx.tiD
  have hnn : n' ≠ ni := by rintro rfl; exact lt_irrefl _ hlow
  have htitl : ti ≠ tl := by
    rintro rfl
    exact lt_irrefl _ (hI.ht ti hti ni ni htiU htlD)
  obtain ⟨L', R', hN'⟩ := hI.nex n' hn'N
  obtain ⟨pre', post', hspl, hp1, hp2⟩ := split_at hmem hN'.nodupU
  have hEq := h.sgE
  have hTt : A.T ti = ⟨tt.left, tt.right, tt.down, tt.up⟩ := hL.tr ti tt htt
  have hTl : A.T tl = ⟨ttl.left, ttl.right, ttl.down, ttl.up⟩ := hL.tr tl ttl httl
  set A' := A.extL si ni n' ti tl (tr :: post) with hA'
  have hs : SameS A A' := ⟨rfl, rfl, rfl, rfl, rfl, rfl⟩
  have hT1 : A'.T tl = { A.T tl with down := some n' } := Function.update_self _ _ _
  have hT2 : A'.T ti = { A.T ti with left := some si } := by
    show Function.update _ _ _ _ = _
    rw [Function.update_of_ne htitl, Function.update_self]
  have hT3 : ∀ i, i ≠ ti → i ≠ tl → A'.T i = A.T i := by
    intro i h1 h2
    show Function.update _ _ _ _ = _
    rw [Function.update_of_ne h2, Function.update_of_ne h1]
  have hleft : ∀ i, i ≠ ti → (A'.T i).left = (A.T i).left := by
    intro i h2
    by_cases h1 : i = tl
    · subst h1; rw [hT1]
    · rw [hT3 i h2 h1]
  have hup : ∀ i, (A'.T i).up = (A.T i).up := by
    intro i
    by_cases h1 : i = tl
    · subst h1; rw [hT1]
    · by_cases h2 : i = ti
      · subst h2; rw [hT2]
      · rw [hT3 i h2 h1]
  have hmn : ∀ i, i ≠ si → A'.mn i = A.mn i := fun i hi => Function.update_of_ne hi _ _
  have hU1 : A'.ups n' = pre' ++ tl :: ti :: post' := by
    show Function.update _ _ _ _ = _
    rw [Function.update_self, hspl, insertBefore_split hp1 hp2]
  have hU2 : A'.ups ni = tr :: post := by
    show Function.update _ _ _ _ = _
    rw [Function.update_of_ne (Ne.symm hnn), Function.update_self]
  have hU3 : ∀ m, m ≠ n' → m ≠ ni → A'.ups m = A.ups m := by
    intro m h1 h2
    show Function.update _ _ _ _ = _
    rw [Function.update_of_ne h1, Function.update_of_ne h2]
  have hreal : Real A' (· = si) := by
    intro i hi ho
    rw [hmn i ho]; exact h.reach.real i hi ho
  have hreach : Reach P A' si n' tl ti pre' post' := by
    refine ⟨hI', h.reach.sS, Function.update_self _ _ _, hU1, ?_, ?_, ?_, hreal⟩
    · rw [hT2]
    · intro l hl
      rw [hleft tl (Ne.symm htitl)] at hl; exact h.reach.ltL l hl
    · intro r hr
      rw [hT2] at hr; exact hx.ltR r hr
  have hsd := (h.reach.side (h.ne_lo hne)).1
  have hlt0 := (h.reach.side (h.ne_lo hne)).2.2
  have hkeep : ¬ KeepL A sg ni := by
    rintro (h' | h')
    · exact hne h'
    · have h' : isLeftOfLine sg.cMin sg.cMax (A.c ni) = true := h'
      rw [hEq.1, hEq.2] at h'
      exact lt_asymm hside (hsd.2 h')
  have hpre0 := h.reach.pre_nil hside
  have hold : NexLink A (A.ups n') (A.downs n') (· = si) n' nx' := by
    have := hL.nex n' nx' hnx'
    rwa [upNow, Function.update_of_ne hnn] at this
  have hpre : ¬ KeepL A sg n' → pre' = [] := by
    intro hk
    have hne' : n' ≠ sg.niMin := fun e => hk (.inl e)
    obtain ⟨-, -, h3, h4⟩ := hL.seg si sg h.seg
    have hne2 : A'.c n' ≠ (A'.sg si).1 := by
      intro e
      exact hne' (hI.cinj n' hn'N _ h3 (e.trans h4.symm))
    obtain ⟨g1, g2, g3⟩ := hreach.side hne2
    refine hreach.pre_nil (g2.resolve_right fun hlt => hk (.inr ?_))
    show isLeftOfLine sg.cMin sg.cMax (A.c n') = true
    rw [hEq.1, hEq.2]; exact g1.1 hlt
  have hnd := hI.rows_nodup hn'N
  have htidn : ti ∉ A.downs n' := by
    intro hm
    have := (hI.rowD n' hn'N ti hm).2
    rw [htiU] at this
    exact hnn (Option.some.inj this).symm
  have hnewmx : ∀ (m i : Nat), i < A'.S → A.S ≤ i → i = si ∧ A'.mx i ≠ m := by
    intro m i h1 h2
    exact absurd h1 (not_lt.2 h2)
  have htran : ∀ {m : Nat} {nx : Nexus I K} {u d : List Nat}, NexLink A u d (· = si) m nx →
      (∀ x ∈ nx.dividers.toList, x.tiRight ≠ ti) → NexLink A' u d (· = si) m nx := by
    intro m nx u d hm hxt
    exact hm.transfer rfl (le_refl _) (fun _ _ => rfl) (fun i _ hi => hmn i hi) (fun _ _ => Iff.rfl)
      (hnewmx m) (fun x hx => hleft _ (hxt x hx))
  have hlink : Link ⟨st.ns.set n' (if KeepL A sg n' then nx'.ren ti tl else nx'), st.ss,
        (st.ts.set ti { tt with left := some si, sink := st.qs.length }).set tl { ttl with down := some n' },
        st.qs.set tt.sink (.branch ttl.sink st.qs.length (.X sg.cMin sg.cMax)) ++ [.sink ti]⟩ A'
      (upNow A' sg n' tl ti pre' post') (· = si) ex := by
    refine hL.after hnx' ?_ ?_ ?_ ?_ (by simp) ?_ hs hreal
    · have e : upNow A' sg n' tl ti pre' post' n' = pre' ++ (if KeepL A sg n' then tl else ti) :: post' :=
        Function.update_self _ _ _
      rw [e]
      by_cases hk : KeepL A sg n'
      · rw [if_pos hk, if_pos hk]
        have h1 := hold.ren ti tl fun z hz hzt => by
          rw [← heq, ← hzt]; exact (hold.divs z hz).2
        rw [hspl, map_rn_split hp1 hp2, map_rn_of_not_mem htidn] at h1
        refine htran h1 ?_
        intro x hx'
        have hdl : (nx'.ren ti tl).dividers.toList =
            nx'.dividers.toList.map fun d => { d with tiRight := Nexus.rn ti tl d.tiRight } :=
          Nexus.zot_map_toList _ _
        rw [hdl] at hx'
        obtain ⟨y, -, rfl⟩ := List.mem_map.1 hx'
        show Nexus.rn ti tl y.tiRight ≠ ti
        unfold Nexus.rn
        split
        · exact Ne.symm htitl
        · assumption
      · rw [if_neg hk, if_neg hk]
        have hp := hpre hk
        rw [← hspl]
        exact htran hold fun x hx' => hold.head_up (t := ti) (post := post') (by rw [hspl, hp]; rfl) hnd hx'
    · split <;> rfl
    · split
      · exact ren_zero
      · exact id
    · intro m nx hm hnx
      have e : upNow A' sg n' tl ti pre' post' m = A'.ups m := Function.update_of_ne hm _ _
      rw [e]
      have h0 := hL.nex m nx hnx
      by_cases hmn : m = ni
      · subst hmn
        rw [hU2]
        have e : upNow A sg m tl tr pre post m = pre ++ (if KeepL A sg m then tl else tr) :: post :=
          Function.update_self _ _ _
        rw [e, if_neg hkeep, hpre0] at h0
        refine htran h0 fun x hx' => h0.head_down (t := ti) (post := dpost) hx.downs ?_ hx'
        have := hI.rows_nodup hnN
        rw [hx.ups] at this
        exact (List.nodup_cons.1 this).2
      · rw [hU3 m hm hmn]
        have e : upNow A sg ni tl tr pre post m = A.ups m := Function.update_of_ne hmn _ _
        rw [e] at h0
        have hmN := hL.lt_N hnx
        refine htran h0 fun x hx' hxt => ?_
        rcases hd : x.dir with _ | _
        · have := (hI.rowU m hmN _ (h0.asc_mem hx' hd)).2
          rw [hxt, hx.tiD] at this
          exact hm (Option.some.inj this).symm
        · have := (hI.rowD m hmN _ (h0.desc_mem hx' hd)).2
          rw [hxt, htiU] at this
          exact hmn (Option.some.inj this).symm
    · intro i t hi
      by_cases h1 : i = tl
      · subst h1
        rw [List.getElem?_set_self (by simpa using lt_of_get httl)] at hi
        cases hi
        rw [hT1, hTl]
      · rw [List.getElem?_set_ne (Ne.symm h1)] at hi
        by_cases h2 : i = ti
        · subst h2
          rw [List.getElem?_set_self (lt_of_get htt)] at hi
          cases hi
          rw [hT2, hTt]
        · rw [List.getElem?_set_ne (Ne.symm h2)] at hi
          rw [hT3 i h2 h1]; exact hL.tr i t hi
  have hQ' : Qry (st.qs.set tt.sink (.branch ttl.sink st.qs.length (.X sg.cMin sg.cMax)) ++ [.sink ti])
      ((st.ts.set ti { tt with left := some si, sink := st.qs.length }).set tl { ttl with down := some n' }) A' := by
    refine qry_ext h.qry htt httl htitl (.inr ⟨rfl, rfl⟩) ?_ ?_ ?_ hup (by rw [htiU]; simp)
    · intro i t hi
      by_cases h1 : i = tl
      · subst h1
        rw [List.getElem?_set_self (by simpa using lt_of_get httl)] at hi
        cases hi
        exact .inr ⟨Ne.symm htitl, ttl, httl, rfl⟩
      · rw [List.getElem?_set_ne (Ne.symm h1)] at hi
        by_cases h2 : i = ti
        · subst h2
          rw [List.getElem?_set_self (lt_of_get htt)] at hi
          cases hi
          exact .inl ⟨rfl, rfl⟩
        · rw [List.getElem?_set_ne (Ne.symm h2)] at hi
          exact .inr ⟨h2, t, hi, rfl⟩
    · refine ⟨{ tt with left := some si, sink := st.qs.length }, ?_, rfl⟩
      rw [List.getElem?_set_ne (Ne.symm htitl), List.getElem?_set_self (lt_of_get htt)]
    · intro i t0 hi ht0
      by_cases h1 : i = tl
      · subst h1
        rw [httl] at ht0; cases ht0
        exact ⟨{ ttl with down := some n' }, by rw [List.getElem?_set_self (by simpa using lt_of_get httl)], rfl⟩
      · exact ⟨t0, by rw [List.getElem?_set_ne (Ne.symm h1), List.getElem?_set_ne (Ne.symm hi), ht0], rfl⟩
  refine ⟨A', pre', post', hs, ?_, ⟨hreach, hlink, hQ', h.seg, h.ex⟩, hlow, ?_, ?_⟩
  · have hc : nx'.c = A.c n' := hold.c
    rw [hc]
    by_cases hk : KeepL A sg n'
    · rw [if_pos hk, if_pos hk]
      exact replaceAt_run hnx' (by rw [hold.up, hold.down]; exact hnd) (by rw [hold.up]; exact hmem)
    · rw [if_neg hk, if_neg hk, set_get_same hnx']; rfl
  · obtain ⟨L, R, hN⟩ := hI'.nex ni hnN
    refine ⟨L, R, hN, .inl ?_⟩
    have hp := hN.pathU
    rw [hU2] at hp
    have htr : tr ≠ ti := by
      rintro rfl
      exact lt_irrefl _ (hI.ht tr hti ni ni htiU h.reach.trM.2)
    have htr' : tr ≠ tl := by
      rintro rfl
      exact hI.ne tr h.reach.trM.1 si h.reach.trL h.reach.tlR
    rw [← show (A'.T tr).left = L from hp.1, hT3 tr htr htr']
    exact h.reach.trL
  · intro w q hw
    obtain ⟨r1, r2, r3⟩ := extL_region hI hnN hx hw
    have hq := h.qry.snk ti tt htt
    have hlq := lt_of_get hq
    have hso := h.qry.snk tl ttl httl
    refine Trk.split h.qry hq (fun p n => qs_set_same p n) (l := ttl.sink) (r := st.qs.length)
      (br := .X sg.cMin sg.cMax) (xl := tl) (xr := ti) ?_ ?_ ?_ ?_ (fun hr => if_pos ⟨hr.down n' hx.tiD, hr.up ni htiU⟩)
      (.inr (by rw [hT1]; exact h.reach.tlR)) (.inl (by rw [hT2])) ?_
    · rw [List.getElem?_append_left (by simpa using hlq), List.getElem?_set_self hlq]
    · refine qs_set_same _ _ ?_ hso
      intro h'
      rw [h', hq] at hso; cases hso; exact htitl rfl
    · rw [List.getElem?_append_right (by simp)]; simp
    · intro hr
      have hE := hI.sE si h.reach.sS
      have g1 : P.h (A.sg si).1 < P.h w := lt_of_le_of_lt hx.low (hr.down n' hx.tiD)
      have g2 : P.h w < P.h (A.sg si).2 := lt_trans (hr.up ni htiU) h.reach.hn.2
      have gi := P.left_iff hE hw g1 g2
      rw [← hEq.1, ← hEq.2] at gi
      show if isLeftOfLine sg.cMin sg.cMax w = true then _ else _
      by_cases hl : isLeftOfLine sg.cMin sg.cMax w = true
      · rw [if_pos hl]; exact r2.2 (.inr ⟨hr, gi.1 hl⟩)
      · rw [if_neg hl]
        refine r1.2 ⟨hr, ?_⟩
        exact lt_of_le_of_ne (not_lt.1 fun h' => hl (gi.2 h')) (P.X_ne hE hw g1 g2)
    · intro i hi hit hr
      by_cases h1 : i = tl
      · subst h1; exact ⟨r2.2 (.inl hr), .inr ⟨.inr (by rw [hT1]; exact h.reach.tlR), .inr (by rw [hT1, h.reach.tlR]; simp)⟩⟩
      · exact ⟨(r3 i hit h1).2 hr, .inl (hT3 i hit h1)⟩

/-- One iteration of the loop of `add_segment`. -/
theorem SegRun.step [DecidableEq I] (h : SegRun P A st si sg ni tl tr pre post ex) (hne : ni ≠ sg.niMin) :
    ∃ A' st' ni' tl' tr' pre' post', St.addSegmentStep si sg ⟨st, ni, tl, tr⟩ = .ok ⟨st', ni', tl', tr'⟩ ∧
      SegRun P A' st' si sg ni' tl' tr' pre' post' ex ∧ SameS A A' ∧ P.h (A.c ni') < P.h (A.c ni) ∧
      ((∃ L R, Nex P A' ni L R ∧ (L = some si ∨ R = some si)) ∧ ∀ w q, P.U w → Trk P A st.qs A' st'.qs w q
        (if P.h (A.c ni') < P.h w ∧ P.h w < P.h (A.c ni) then 1 else 0) (Beside si)) ∧
      st'.keys = st.keys ∧ st'.ss = st.ss := by
  have hI := h.reach.inv
  have hL := h.link
  have hnN := h.reach.nN
  obtain ⟨nx, hnx⟩ := hL.ns_get hnN
  obtain ⟨hse, hmx, hmnN, hcmn⟩ := hL.seg si sg h.seg
  have hEq := h.sgE
  have hmxN : sg.niMax < A.N := by rw [hmx]; exact (hI.mxN si h.reach.sS).1
  obtain ⟨ti, hget, hpos⟩ := getDown_pass hL hnx hmnN hmxN (Ne.symm hne) (Ne.symm h.ne_hi)
  obtain ⟨hsd, hor, hlt0⟩ := h.reach.side (h.ne_lo hne)
  obtain ⟨L, R, hN⟩ := hI.nex ni hnN
  obtain ⟨ttl, httl⟩ := hL.ts_get h.reach.tlM.1
  obtain ⟨ttr, httr⟩ := hL.ts_get h.reach.trM.1
  have hTr := hL.tr tr ttr httr
  have hTl := hL.tr tl ttl httl
  have hkeys : ∀ (n' : Nat) (nx' z : Nexus I K), st.ns[n']? = some nx' → z.key = nx'.key →
      (st.ns.set n' z).map Nexus.key = st.ns.map Nexus.key := by
    intro n' nx' z h1 h2
    exact map_set_same (a := nx') (b := z) h1 h2
  rw [hEq.1, hEq.2] at hpos
  rcases hor with hside | hside
  · -- left of the vertex
    have hnl : ¬ isLeftOfLine (A.sg si).1 (A.sg si).2 (A.c ni) = true := fun h' => lt_asymm hside (hsd.2 h')
    rw [if_neg hnl] at hpos
    obtain ⟨dpost, hd⟩ : ∃ dpost, A.downs ni = ti :: dpost := by
      rcases hc : A.downs ni with _ | ⟨y, ys⟩
      · exact absurd hc hN.neD
      · rw [hc] at hpos; cases hpos; exact ⟨ys, rfl⟩
    obtain ⟨heq, ⟨n', hx⟩, hmerge⟩ := h.reach.contL hside hlt0 hmnN hcmn hd
    obtain ⟨hti, htiU⟩ := hI.rowD ni hnN ti (by rw [hd]; simp)
    obtain ⟨tt, htt⟩ := hL.ts_get hti
    have hTt := hL.tr ti tt htt
    obtain ⟨hn'N, -⟩ := hI.downM ti hti n' hx.tiD
    obtain ⟨nx', hnx'⟩ := hL.ns_get hn'N
    obtain ⟨A', pre', post', hs, hrep, hrun, hlow, hgood⟩ := h.stepL hne hside hx heq htt httl hnx'
    have e1 : tt.down = some n' := by have := hx.tiD; rwa [hTt] at this
    have e2 : ¬ tt.right = ttr.right := by
      intro e
      obtain ⟨g1, g2⟩ := hmerge (by rw [hTt, hTr]; exact e)
      have h0 := hL.nex ni nx hnx
      have e3 : upNow A sg ni tl tr pre post ni = pre ++ (if KeepL A sg ni then tl else tr) :: post :=
        Function.update_self _ _ _
      rw [e3, h.reach.pre_nil hside, g2, hd, g1] at h0
      have hz : nx.dividers = .zero := by
        have u1 := h0.up
        have u2 := h0.down
        rw [Nexus.iter_eq] at u1 u2
        simp at u1 u2
        rcases hz : nx.dividers with _ | d0 | ⟨d0, d1⟩
        · rfl
        all_goals
          have hm : d0 ∈ nx.dividers.toList := by rw [hz]; simp [Zot.toList]
          rcases hdir : d0.dir with _ | _
          · have := Nexus.mem_divs.2 ⟨hm, hdir⟩
            rw [u1.2] at this; cases this
          · have := Nexus.mem_divs.2 ⟨hm, hdir⟩
            rw [u2.2] at this; cases this
      rcases h.ex ni (hL.bare ni nx hnx hz) with h' | h'
      · exact hne h'
      · exact h.ne_hi h'
    have e3 : tt.left = ttl.left := by have := heq; rwa [hTt, hTl] at this
    have htitl : ti ≠ tl := by
      rintro rfl
      exact lt_irrefl _ (hI.ht ti hti ni ni htiU h.reach.tlM.2)
    refine ⟨A', _, n', tl, ti, pre', post', ?_, hrun, hs, hlow, hgood, ?_, rfl⟩
    · have hq := h.qry.snk ti tt htt
      simp only [St.addSegmentStep, getU, getP, modP, hnx, hget, htt, httl, httr, hq, e1, bind, Except.bind,
        if_neg e2, if_pos e3, List.getElem?_set_self (lt_of_get htt), Trapezoid.setSink, Trapezoid.setLeft,
        Trapezoid.setDown, List.getElem?_set_ne htitl, hnx', hrep, List.set_set]
    · refine hkeys n' nx' _ hnx' ?_
      split <;> rfl
  · have hl : isLeftOfLine (A.sg si).1 (A.sg si).2 (A.c ni) = true := hsd.1 hside
    rw [if_pos hl] at hpos
    obtain ⟨dpre, hd⟩ : ∃ dpre, A.downs ni = dpre ++ [ti] := by
      rcases List.eq_nil_or_concat' (A.downs ni) with hc | ⟨ys, y, hc⟩
      · exact absurd hc hN.neD
      · rw [hc] at hpos; simp at hpos; subst hpos; exact ⟨ys, hc⟩
    obtain ⟨heq, n', hx⟩ := h.reach.contR hside hlt0 hmnN hcmn hd
    obtain ⟨hti, htiU⟩ := hI.rowD ni hnN ti (by rw [hd]; simp)
    obtain ⟨tt, htt⟩ := hL.ts_get hti
    have hTt := hL.tr ti tt htt
    obtain ⟨hn'N, -⟩ := hI.downM ti hti n' hx.tiD
    obtain ⟨nx', hnx'⟩ := hL.ns_get hn'N
    obtain ⟨A', pre', post', hs, hrep, hrun, hlow, hgood⟩ := h.stepR hne hside hx htt httr hnx'
    have e1 : tt.down = some n' := by have := hx.tiD; rwa [hTt] at this
    have e2 : tt.right = ttr.right := by have := heq; rwa [hTt, hTr] at this
    have htitr : ti ≠ tr := by
      rintro rfl
      exact lt_irrefl _ (hI.ht ti hti ni ni htiU h.reach.trM.2)
    refine ⟨A', _, n', ti, tr, pre', post', ?_, hrun, hs, hlow, hgood, ?_, rfl⟩
    · have hq := h.qry.snk ti tt htt
      simp only [St.addSegmentStep, getU, getP, modP, hnx, hget, htt, httl, httr, hq, e1, bind, Except.bind,
        if_pos e2, List.getElem?_set_self (lt_of_get htt), Trapezoid.setSink, Trapezoid.setRight,
        Trapezoid.setDown, List.getElem?_set_ne htitr, hnx', hrep, List.set_set]
    · refine hkeys n' nx' _ hnx' ?_
      split <;> rfl

end

end Tri
