import Verif.Proof.RunStep
import Verif.Proof.RunCheck
import Verif.Proof.Nearest
import Verif.Proof.CostErase

/-!
# `add_segment` on a state described by the invariant
-/

set_option linter.unusedSectionVars false

namespace Tri

variable {I V K : Type} [Field K] [LinearOrder K] [IsStrictOrderedRing K]

attribute [local instance] exact

open Abs

variable {P : Plane K}

/-- The vertices that the loop of `add_segment` passes, in a state with the edges `F`: each is different, and the segment
`e` is next to each on its left or right side. -/
structure Passes (P : Plane K) (F : Coords K × Coords K → Prop) (A : Abs K) (e : Coords K × Coords K)
    (ps : List Nat) : Prop where
  nodup : ps.Nodup
  lt : ∀ n ∈ ps, n < A.N
  near : ∀ n ∈ ps, NearL P F (A.c n) e ∨ NearR P F (A.c n) e

theorem Passes.nil {F : Coords K × Coords K → Prop} {A : Abs K} {e : Coords K × Coords K} : Passes P F A e [] :=
  ⟨List.nodup_nil, by simp, by simp⟩

theorem Passes.cons {F : Coords K × Coords K → Prop} {A : Abs K} {e : Coords K × Coords K} {n : Nat} {ps : List Nat}
    (h : Passes P F A e ps) (h1 : n ∉ ps) (h2 : n < A.N) (h3 : NearL P F (A.c n) e ∨ NearR P F (A.c n) e) :
    Passes P F A e (n :: ps) := by
  refine ⟨List.nodup_cons.2 ⟨h1, h.nodup⟩, fun m hm => ?_, fun m hm => ?_⟩ <;> rcases List.mem_cons.1 hm with rfl | hm
  exacts [h2, h.lt m hm, h3, h.near m hm]

theorem SameS.edges {A A' : Abs K} (h : SameS A A') : Edges A' = Edges A := by
  funext e; unfold Edges; rw [h.S, h.sg]

/-- The loop of `add_segment` ends at the lower end of the segment. -/
theorem SegRun.loop [DecidableEq I] {si : Nat} {sg : Segment K} {ex : Nat → Prop} (m : Nat) :
    ∀ {A : Abs K} {st : St I K} {ni tl tr : Nat} {pre post : List Nat},
      SegRun P A st si sg ni tl tr pre post ex →
      ((List.range A.N).filter fun k => P.h (A.c k) < P.h (A.c ni)).length ≤ m →
    ∃ A' st' tl' tr' pre' post' ps, (∀ fuel ≥ m + 1, St.addSegmentLoopC si sg fuel ⟨st, ni, tl, tr⟩ =
        .ok (⟨st', sg.niMin, tl', tr'⟩, ps.length)) ∧
      Passes P (Edges A) A (A.sg si) ps ∧ (∀ n ∈ ps, P.h (A.c n) ≤ P.h (A.c ni)) ∧
      SegRun P A' st' si sg sg.niMin tl' tr' pre' post' ex ∧ SameS A A' ∧
      (∀ w q, P.U w → Trk P A st.qs A' st'.qs w q (if P.h w < P.h (A.c ni) then 1 else 0) (Beside si)) ∧
      st'.keys = st.keys ∧ st'.ss = st.ss := by
  have base : ∀ {A : Abs K} {st : St I K} {tl tr : Nat} {pre post : List Nat} (m : Nat),
      SegRun P A st si sg sg.niMin tl tr pre post ex → ∃ A' st' tl' tr' pre' post' ps,
      (∀ fuel ≥ m + 1, St.addSegmentLoopC si sg fuel ⟨st, sg.niMin, tl, tr⟩ =
        .ok (⟨st', sg.niMin, tl', tr'⟩, ps.length)) ∧
      Passes P (Edges A) A (A.sg si) ps ∧ (∀ n ∈ ps, P.h (A.c n) ≤ P.h (A.c sg.niMin)) ∧
      SegRun P A' st' si sg sg.niMin tl' tr' pre' post' ex ∧ SameS A A' ∧
      (∀ w q, P.U w → Trk P A st.qs A' st'.qs w q (if P.h w < P.h (A.c sg.niMin) then 1 else 0) (Beside si)) ∧
      st'.keys = st.keys ∧ st'.ss = st.ss := by
    intro A st tl tr pre post m h
    refine ⟨A, st, tl, tr, pre, post, [], fun fuel hf => ?_, ⟨List.nodup_nil, by simp, by simp⟩, by simp, h,
      ⟨rfl, rfl, rfl, rfl, rfl, rfl⟩, fun _ _ _ => Trk.refl _ _ _ _ _ _ _, rfl, rfl⟩
    obtain ⟨k, rfl⟩ : ∃ k, fuel = k + 1 := ⟨fuel - 1, by omega⟩
    simp [St.addSegmentLoopC]
  induction m with
  | zero =>
    intro A st ni tl tr pre post h hm
    by_cases hne : ni = sg.niMin
    · subst hne; exact base 0 h
    · exfalso
      obtain ⟨-, -, h3, h4⟩ := h.link.seg si sg h.seg
      have hlt := (h.reach.side (h.ne_lo hne)).2.2
      have hmem : sg.niMin ∈ (List.range A.N).filter fun k => P.h (A.c k) < P.h (A.c ni) := by
        simp [h3, h4, hlt]
      exact List.not_mem_nil (by rw [List.length_eq_zero_iff.1 (Nat.le_zero.1 hm)] at hmem; exact hmem)
  | succ m ih =>
    intro A st ni tl tr pre post h hm
    by_cases hne : ni = sg.niMin
    · subst hne; exact base _ h
    · obtain ⟨A1, st1, ni1, tl1, tr1, pre1, post1, hrun, h1, hs1, hlow, ⟨⟨L, R, hN, hLR⟩, hg1⟩, hk1, hss1⟩ := h.step hne
      have hN1 : ni1 < A.N := by have := h1.reach.nN; rwa [hs1.N] at this
      have hless : ((List.range A1.N).filter fun k => P.h (A1.c k) < P.h (A1.c ni1)).length ≤ m := by
        rw [hs1.N, hs1.c]
        have : ((List.range A.N).filter fun k => P.h (A.c k) < P.h (A.c ni1)).length <
            ((List.range A.N).filter fun k => P.h (A.c k) < P.h (A.c ni)).length := by
          have hsub : (List.range A.N).filter (fun k => decide (P.h (A.c k) < P.h (A.c ni1))) =
              ((List.range A.N).filter (fun k => decide (P.h (A.c k) < P.h (A.c ni)))).filter
                (fun k => decide (P.h (A.c k) < P.h (A.c ni1))) := by
            rw [List.filter_filter]
            refine List.filter_congr fun k _ => ?_
            by_cases h' : P.h (A.c k) < P.h (A.c ni1)
            · simp [h', lt_trans h' hlow]
            · simp [h']
          rw [hsub]
          refine List.length_filter_lt_length_iff_exists.2 ⟨ni1, ?_, ?_⟩
          · simp [hN1, hlow]
          · simp
        omega
      obtain ⟨A', st', tl', tr', pre', post', ps, hrun', hps, hle, h', hs', hg', hk', hss'⟩ := ih h1 hless
      rw [hs1.edges, hs1.sg] at hps
      rw [hs1.c] at hle
      have hlo : ∀ i < A1.S, P.h (A1.sg i).1 < P.h (A1.c ni) → P.h (A1.c (A1.mn i)) < P.h (A1.c ni) := by
        intro i hi hh
        by_cases his : i = si
        · rw [his, h1.reach.mn, hs1.c]; exact hlow
        · rw [h1.reach.real i hi his]; exact hh
      have hnear : NearL P (Edges A) (A.c ni) (A.sg si) ∨ NearR P (Edges A) (A.c ni) (A.sg si) := by
        rw [← hs1.edges, ← hs1.sg, ← hs1.c]
        have hn : ni < A1.N := by rw [hs1.N]; exact h.reach.nN
        have hsep := h1.link.sepD h1.reach.inv
        rcases hLR with e | e
        · exact .inl (h1.reach.inv.nex_nearL hsep hn hN hlo e h1.reach.sS)
        · exact .inr (h1.reach.inv.nex_nearR hsep hn hN hlo e h1.reach.sS)
      refine ⟨A', st', tl', tr', pre', post', ni :: ps, fun fuel hf => ?_, ⟨?_, ?_, ?_⟩, ?_, h', hs1.trans hs', ?_,
        hk'.trans hk1, hss'.trans hss1⟩
      · obtain ⟨k, rfl⟩ : ∃ k, fuel = k + 1 := ⟨fuel - 1, by omega⟩
        rw [St.addSegmentLoopC]
        rw [if_neg hne]
        simp only [hrun, bind, Except.bind]
        rw [hrun' k (by omega)]
        rfl
      · exact List.nodup_cons.2 ⟨fun h => absurd (hle _ h) (not_le.2 hlow), hps.nodup⟩
      · intro n hn
        rcases List.mem_cons.1 hn with rfl | hn
        · exact h.reach.nN
        · have := hps.lt n hn; rwa [hs1.N] at this
      · intro n hn
        rcases List.mem_cons.1 hn with rfl | hn
        · exact hnear
        · have := hps.near n hn; rwa [hs1.c] at this
      · intro n hn
        rcases List.mem_cons.1 hn with rfl | hn
        · exact le_refl _
        · exact (hle n hn).trans hlow.le
      · intro w q hw
        refine ((hg1 w q hw).trans (hg' w q hw) (fun _ h => h) (fun _ h => h)).mono ?_ (fun _ h => h)
        rw [hs1.c]
        by_cases c1 : P.h w < P.h (A.c ni1)
        · rw [if_neg (fun c => absurd c1 (not_lt.2 c.1.le)), if_pos c1, if_pos (c1.trans hlow)]
        · rw [if_neg c1]
          by_cases c2 : P.h w < P.h (A.c ni)
          · rw [if_pos c2]; split <;> omega
          · rw [if_neg (fun c => c2 c.2), if_neg c2]

section ends
variable {A : Abs K} {st : St I K} {ex : Nat → Prop} {e : Coords K × Coords K}

/-- Two distinct edges with the same upper end are ordered below it. -/
theorem hi_cases {e f : Coords K × Coords K} (he : P.E e) (hf : P.E f) (hne : e ≠ f) (h2 : e.2 = f.2) :
    (isLeftOfLine e.1 e.2 f.1 = true ∧ isLeftOfLine f.1 f.2 e.1 = false ∧ P.Lt f e) ∨
    (isLeftOfLine e.1 e.2 f.1 = false ∧ isLeftOfLine f.1 f.2 e.1 = true ∧ P.Lt e f) := by
  obtain ⟨m, hm, h1, h3, h4⟩ : ∃ m, P.U m ∧ P.h e.1 ≤ P.h m ∧ P.h f.1 ≤ P.h m ∧ P.h m < P.h e.2 := by
    rcases le_total (P.h e.1) (P.h f.1) with h | h
    · exact ⟨f.1, P.lo_U hf, h, le_refl _, by rw [h2]; exact P.E_lt hf⟩
    · exact ⟨e.1, P.lo_U he, le_refl _, h, P.E_lt he⟩
  have h5 : P.h m < P.h f.2 := by rw [← h2]; exact h4
  have a1 := P.left_hi he hf hne h2 hm h1 h3 h4
  have a2 := P.left_hi hf he (Ne.symm hne) h2.symm hm h3 h1 h5
  have hX : P.X e m ≠ P.X f m := by
    intro hx
    obtain ⟨b1, b2⟩ := P.nc_eq he hf hne hm h1 h4.le h3 h5.le hx
    have c1 := b1.resolve_right (Plane.ne_of_h h4)
    have c2 := b2.resolve_right (Plane.ne_of_h h5)
    exact hne (Prod.ext (c1.symm.trans c2) h2)
  rcases lt_or_gt_of_ne hX with h | h
  · refine .inr ⟨?_, a2.2 h, m, hm, ⟨h1, h4.le⟩, ⟨h3, h5.le⟩, h⟩
    rw [← Bool.not_eq_true]; exact fun h' => lt_asymm h (a1.1 h')
  · refine .inl ⟨a1.2 h, ?_, m, hm, ⟨h3, h5.le⟩, ⟨h1, h4.le⟩, h⟩
    rw [← Bool.not_eq_true]; exact fun h' => lt_asymm h (a2.1 h')

/-- Two distinct edges with the same lower end are ordered above it. -/
theorem lo_cases {e f : Coords K × Coords K} (he : P.E e) (hf : P.E f) (h1 : e.1 = f.1) (hlt : P.Lt e f) :
    isLeftOfLine e.1 e.2 f.2 = false ∧ isLeftOfLine f.1 f.2 e.2 = true := by
  have hne := hlt.ne
  obtain ⟨m, hm, h2, h3, h4, hmm⟩ : ∃ m, P.U m ∧ P.h m ≤ P.h e.2 ∧ P.h m ≤ P.h f.2 ∧ P.h e.1 < P.h m ∧
      (m = e.2 ∨ m = f.2) := by
    rcases le_total (P.h e.2) (P.h f.2) with h | h
    · exact ⟨e.2, P.hi_U he, le_refl _, h, P.E_lt he, .inl rfl⟩
    · exact ⟨f.2, P.hi_U hf, h, le_refl _, by rw [h1]; exact P.E_lt hf, .inr rfl⟩
  have h5 : P.h f.1 < P.h m := by rw [← h1]; exact h4
  have a1 := P.left_lo he hf hne h1 hm h2 h3 h4
  have a2 := P.left_lo hf he (Ne.symm hne) h1.symm hm h3 h2 h5
  have hX : P.X e m < P.X f m := by
    refine lt_of_le_of_ne (hlt.le he hf hm ⟨h4.le, h2⟩ ⟨h5.le, h3⟩) fun hx => ?_
    obtain ⟨b1, b2⟩ := P.nc_eq he hf hne hm h4.le h2 h5.le h3 hx
    have c1 := b1.resolve_left (Plane.ne_of_h' h4)
    have c2 := b2.resolve_left (Plane.ne_of_h' h5)
    exact hne (Prod.ext h1 (c1.symm.trans c2))
  refine ⟨?_, a2.2 hX⟩
  rw [← Bool.not_eq_true]; exact fun h' => lt_asymm hX (a1.1 h')

theorem getSegmentDirection_desc {ss : List (Segment K)} {si n : Nat} {s : Segment K} (h : ss[si]? = some s)
    (hn : s.niMax = n) : Nexus.getSegmentDirection ss n si = .ok .desc := by
  simp only [Nexus.getSegmentDirection, getP, h, bind, Except.bind]
  rw [if_pos hn.symm]

theorem getSegmentDirection_asc {ss : List (Segment K)} {si n : Nat} {s : Segment K} (h : ss[si]? = some s)
    (hn : s.niMin = n) (hn' : s.niMax ≠ n) : Nexus.getSegmentDirection ss n si = .ok .asc := by
  simp only [Nexus.getSegmentDirection, getP, h, bind, Except.bind]
  rw [if_neg (Ne.symm hn'), if_pos hn.symm]

/-- What `Nexus::add_segment` does to a nexus. -/
structure NexAdded (nx nx' : Nexus I K) (x : Divider) : Prop where
  vi : nx'.vi = nx.vi
  c : nx'.c = nx.c
  perm : nx'.dividers.toList.Perm (x :: nx.dividers.toList)
  ord : ∀ d0 d1, nx'.dividers = .two d0 d1 → ¬ (d0.dir = .desc ∧ d1.dir = .asc)
  nz : nx'.dividers ≠ .zero

/-- The upper end of a new segment. -/
theorem start_nexus [DecidableEq I] (hI : Inv P A) (hL : Link st A A.ups (fun _ => False) ex) (hE : P.E e)
    (hnew : ∀ i < A.S, A.sg i ≠ e) {a b : Nat} (hb : b < A.N) (hca : A.c a = e.2) (hcb : A.c b = e.1)
    {nx : Nexus I K} (hnx : st.ns[a]? = some nx) :
    ∃ t, nx.getDownTrapezoidInDirection st.ns (st.ss ++ [⟨b, a, e.1, e.2⟩]) ⟨b, a, e.1, e.2⟩ = .ok t ∧
      t ∈ A.downs a ∧ Fits P A e t ∧
      ∃ nx', Nexus.addSegment st.ns (st.ss ++ [⟨b, a, e.1, e.2⟩]) a st.ss.length st.ts.length = .ok (st.ns.set a nx') ∧
        NexAdded nx nx' ⟨A.S, A.M, .desc⟩ ∧ nx'.iterTrapezoids .asc = A.ups a ∧
        nx'.iterTrapezoids .desc = insertAfter t A.M (A.downs a) := by
  have hNL := hL.nex a nx hnx
  have haN := hL.lt_N hnx
  obtain ⟨L, R, hN⟩ := hI.nex a haN
  have hab : a ≠ b := by
    rintro rfl
    have := P.E_lt hE
    rw [← hca, ← hcb] at this; exact lt_irrefl _ this
  obtain ⟨nb, hnb⟩ := hL.ns_get hb
  have vb : nb.vi ≠ nx.vi := fun h => hab (hL.vi _ _ _ _ hnx hnb h.symm)
  have cb : nb.c = e.1 := by rw [(hL.nex b nb hnb).c, hcb]
  have hsL := hL.ssL
  have hsS : (st.ss ++ [(⟨b, a, e.1, e.2⟩ : Segment K)])[st.ss.length]? = some ⟨b, a, e.1, e.2⟩ := by simp
  have hdir := getSegmentDirection_desc (n := a) hsS rfl
  have h0 : P.X e (A.c a) = (A.c a).x := by rw [hca]; exact P.X_hi hE
  have hinE : P.In e (A.c a) := by rw [hca]; exact Plane.In.hi hE
  have hLlt : ∀ l, L = some l → l < A.S → P.Lt (A.sg l) e := by
    intro l hl hS
    obtain ⟨g1, g2, g3⟩ := hN.passL l hl
    exact ⟨A.c a, hI.cU a haN, ⟨by linarith [(hI.mnN l hS).2.1], g2.le⟩, hinE, by rw [h0]; exact g3⟩
  have hRlt : ∀ r, R = some r → r < A.S → P.Lt e (A.sg r) := by
    intro l hl hS
    obtain ⟨g1, g2, g3⟩ := hN.passR l hl
    exact ⟨A.c a, hI.cU a haN, hinE, ⟨by linarith [(hI.mnN l hS).2.1], g2.le⟩, by rw [h0]; exact g3⟩
  have hup := hNL.up
  have hdn := hNL.down
  rw [Nexus.iter_eq] at hup hdn
  have hpD := hN.pathD
  rcases hz : nx.dividers with _ | d0 | ⟨d0, d1⟩
  · have hd0 : ∀ dir, nx.divs dir = [] := fun dir => by simp [Nexus.divs, hz, Zot.toList]
    rw [hd0] at hdn hup
    simp only [List.map_nil] at hdn hup
    rw [← hdn] at hpD
    have htd : nx.tiDownleft ∈ A.downs a := by rw [← hdn]; simp [Nexus.leftmost]
    refine ⟨nx.tiDownleft, ?_, htd, ⟨fun l hl => hLlt l (by rw [← hpD.1]; exact hl) (hI.leftS _ (hI.rowD a haN _ htd).1 l hl),
      fun r hr => hRlt r (by rw [← hpD.2]; exact hr) (hI.rightS _ (hI.rowD a haN _ htd).1 r hr)⟩,
      { nx with dividers := .one ⟨st.ss.length, st.ts.length, .desc⟩ }, ?_, ⟨rfl, rfl, ?_, ?_, ?_⟩, ?_, ?_⟩
    · unfold Nexus.getDownTrapezoidInDirection
      rw [Nexus.filterDividers_last, hd0]; rfl
    · simp only [Nexus.addSegment, hdir, getP, hnx, hz, bind, Except.bind]
    · simp [hz, Zot.toList, hsL, hL.tsL]
    · intro x y h; cases h
    · intro h; cases h
    · rw [← hup, Nexus.iter_eq]; simp [Nexus.divs, Zot.toList, Nexus.leftmost]
    · rw [← hdn, Nexus.iter_eq]; simp [Nexus.divs, Zot.toList, Nexus.leftmost, insertAfter, hL.tsL]
  · have hm0 : d0 ∈ nx.dividers.toList := by rw [hz]; simp [Zot.toList]
    obtain ⟨hd0S, hd0L⟩ := hNL.divs d0 hm0
    rcases hdd : d0.dir with _ | _
    · -- the other segment is above
      have hdD : nx.divs .desc = [] := by simp [Nexus.divs, hz, Zot.toList, hdd]
      have hdA : nx.divs .asc = [d0] := by simp [Nexus.divs, hz, Zot.toList, hdd]
      rw [hdD] at hdn
      rw [hdA] at hup
      simp only [List.map_nil] at hdn
      rw [← hdn] at hpD
      have htd : nx.tiDownleft ∈ A.downs a := by rw [← hdn]; simp [Nexus.leftmost]
      refine ⟨nx.tiDownleft, ?_, htd, ⟨fun l hl => hLlt l (by rw [← hpD.1]; exact hl) (hI.leftS _ (hI.rowD a haN _ htd).1 l hl),
        fun r hr => hRlt r (by rw [← hpD.2]; exact hr) (hI.rightS _ (hI.rowD a haN _ htd).1 r hr)⟩,
        { nx with dividers := .two d0 ⟨st.ss.length, st.ts.length, .desc⟩ }, ?_, ⟨rfl, rfl, ?_, ?_, ?_⟩, ?_, ?_⟩
      · unfold Nexus.getDownTrapezoidInDirection
        rw [Nexus.filterDividers_last, hdD]; rfl
      · simp [Nexus.addSegment, hdir, getP, hnx, hz, bind, Except.bind, Nexus.swapDividers, hdd]
      · rw [hz]; simp only [Zot.toList, hsL, hL.tsL]; exact List.Perm.swap _ _ _
      · intro x y h; cases h; simp
      · intro h; cases h
      · rw [← hup, Nexus.iter_eq]; simp [Nexus.divs, Zot.toList, Nexus.leftmost, hdd]
      · rw [← hdn, Nexus.iter_eq]; simp [Nexus.divs, Zot.toList, Nexus.leftmost, insertAfter, hL.tsL, hdd]
    · -- the other segment is below
      have hdD : nx.divs .desc = [d0] := by simp [Nexus.divs, hz, Zot.toList, hdd]
      have hdA : nx.divs .asc = [] := by simp [Nexus.divs, hz, Zot.toList, hdd]
      rw [hdD] at hdn
      rw [hdA] at hup
      simp only [List.map_cons, List.map_nil, Nexus.leftmost] at hdn
      rw [← hdn] at hpD
      have hnd := hN.nodupD
      rw [← hdn] at hnd
      have hne12 : nx.tiDownleft ≠ d0.tiRight := by simpa using hnd
      have htd1 : nx.tiDownleft ∈ A.downs a := by rw [← hdn]; simp
      have htd2 : d0.tiRight ∈ A.downs a := by rw [← hdn]; simp
      have hEd := hI.sE _ hd0S
      have hmx := hNL.desc d0 hm0 hdd
      have htop : (A.sg d0.si).2 = e.2 := by rw [← (hI.mxN _ hd0S).2, hmx, hca]
      obtain ⟨sr, hsr⟩ := hL.ss_get hd0S
      obtain ⟨q1, -, q3, q4⟩ := hL.seg _ sr hsr
      have hsr' : (st.ss ++ [(⟨b, a, e.1, e.2⟩ : Segment K)])[d0.si]? = some sr := by
        rw [List.getElem?_append_left (lt_of_get hsr), hsr]
      obtain ⟨nr, hnr⟩ := hL.ns_get q3
      have cr : nr.c = (A.sg d0.si).1 := by rw [(hL.nex _ nr hnr).c, q4]
      have hon : ∀ c, sr.isOnLeft c = isLeftOfLine (A.sg d0.si).1 (A.sg d0.si).2 c := by
        intro c; rw [← q1]; rfl
      have hget : nx.getDownTrapezoidInDirection st.ns (st.ss ++ [⟨b, a, e.1, e.2⟩]) ⟨b, a, e.1, e.2⟩ =
          if isLeftOfLine e.1 e.2 (A.sg d0.si).1 = true then .ok d0.tiRight else .ok nx.tiDownleft := by
        unfold Nexus.getDownTrapezoidInDirection
        rw [Nexus.filterDividers_last, hdD]
        simp only [List.getLast?_singleton, Nexus.downTestCoords, getP, hnb, hnx, if_neg vb, if_pos, hsr', hnr, bind,
          Except.bind, cr]
        rfl
      have hadd : ∀ v, isLeftOfLine (A.sg d0.si).1 (A.sg d0.si).2 e.1 = v →
          Nexus.addSegment st.ns (st.ss ++ [⟨b, a, e.1, e.2⟩]) a st.ss.length st.ts.length =
          if v = true then .ok (st.ns.set a { nx with dividers := .two ⟨st.ss.length, st.ts.length, .desc⟩ d0 })
            else .ok (st.ns.set a { nx with dividers := .two d0 ⟨st.ss.length, st.ts.length, .desc⟩ }) := by
        intro v hv
        simp only [Nexus.addSegment, hdir, getP, hnx, hz, bind, Except.bind, Nexus.swapDividers, hdd, if_pos, hsr', hsS,
          hnb, hon, cb, hv]
      rcases hi_cases hE hEd (fun h => hnew _ hd0S h.symm) htop.symm with ⟨g1, g2, g3⟩ | ⟨g1, g2, g3⟩
      · refine ⟨d0.tiRight, by rw [hget, if_pos g1], htd2, ⟨fun l hl => ?_, fun r hr => hRlt r (by rw [← hpD.2.2]; exact hr)
          (hI.rightS _ (hI.rowD a haN _ htd2).1 r hr)⟩,
          { nx with dividers := .two d0 ⟨st.ss.length, st.ts.length, .desc⟩ }, ?_, ⟨rfl, rfl, ?_, ?_, ?_⟩, ?_, ?_⟩
        · rw [hd0L] at hl; cases hl; exact g3
        · rw [hadd _ g2]; rfl
        · rw [hz]; simp only [Zot.toList, hsL, hL.tsL]; exact List.Perm.swap _ _ _
        · intro x y h; cases h; simp
        · intro h; cases h
        · rw [← hup, Nexus.iter_eq]; simp [Nexus.divs, Zot.toList, Nexus.leftmost, hdd]
        · rw [← hdn, Nexus.iter_eq]; simp [Nexus.divs, Zot.toList, Nexus.leftmost, insertAfter, hL.tsL, hdd, hne12]
      · refine ⟨nx.tiDownleft, by rw [hget, if_neg (by rw [g1]; simp)], htd1, ⟨fun r hr => hLlt r (by rw [← hpD.1]; exact hr)
          (hI.leftS _ (hI.rowD a haN _ htd1).1 r hr), fun l hl => ?_⟩,
          { nx with dividers := .two ⟨st.ss.length, st.ts.length, .desc⟩ d0 }, ?_, ⟨rfl, rfl, ?_, ?_, ?_⟩, ?_, ?_⟩
        · rw [← hpD.2.1, hd0L] at hl; cases hl; exact g3
        · rw [hadd _ g2]; rfl
        · rw [hz]; simp only [Zot.toList, hsL, hL.tsL]; exact List.Perm.refl _
        · intro x y h; cases h; simp [hdd]
        · intro h; cases h
        · rw [← hup, Nexus.iter_eq]; simp [Nexus.divs, Zot.toList, Nexus.leftmost, hdd]
        · rw [← hdn, Nexus.iter_eq]; simp [Nexus.divs, Zot.toList, Nexus.leftmost, insertAfter, hL.tsL, hdd, Ne.symm hne12]
  · exact absurd hz (hNL.not_two hI hL.real hE (.inr hca) fun x hx => hnew _ (hNL.divs x hx).1)

/-- The nexus after `Nexus::add_segment`. -/
theorem NexLink.added {A A' : Abs K} {u d u' d' : List Nat} {op op' : Nat → Prop} {n : Nat} {nx nx' : Nexus I K}
    {x : Divider} (h : NexLink A u d op n nx) (ha : NexAdded nx nx' x) (hc : A'.c n = A.c n) (hS : A.S ≤ A'.S)
    (hmx : ∀ i < A.S, A'.mx i = A.mx i) (hmn : ∀ i < A.S, A'.mn i = A.mn i)
    (hleft : ∀ y ∈ nx.dividers.toList, (A'.T y.tiRight).left = (A.T y.tiRight).left)
    (hx : x.si < A'.S ∧ (A'.T x.tiRight).left = some x.si) (hxn : ∀ y ∈ nx.dividers.toList, y.si ≠ x.si)
    (hxd : x.dir = .desc → A'.mx x.si = n) (hxa : x.dir = .asc → A'.mn x.si = n ∧ ¬ op' x.si)
    (hop : ∀ i < A.S, i ≠ x.si → (op' i ↔ op i))
    (hD : ∀ i < A'.S, A'.mx i = n → i < A.S ∨ (i = x.si ∧ x.dir = .desc))
    (hA : ∀ i < A'.S, A'.mn i = n → ¬ op' i → (i < A.S ∧ ¬ op i) ∨ (i = x.si ∧ x.dir = .asc))
    (hu : nx'.iterTrapezoids .asc = u') (hd : nx'.iterTrapezoids .desc = d') : NexLink A' u' d' op' n nx' := by
  have hmem : ∀ y, y ∈ nx'.dividers.toList ↔ y = x ∨ y ∈ nx.dividers.toList := by
    intro y; rw [ha.perm.mem_iff, List.mem_cons]
  refine ⟨by rw [ha.c, h.c, hc], hu, hd, ?_, ?_, ?_, ?_, ha.ord, ?_, ?_⟩
  · intro y hy
    rcases (hmem y).1 hy with rfl | hy
    · exact hx
    · exact ⟨lt_of_lt_of_le (h.divs y hy).1 hS, by rw [hleft y hy]; exact (h.divs y hy).2⟩
  · intro y hy hdir
    rcases (hmem y).1 hy with rfl | hy
    · exact hxa hdir
    · have h1 := (h.divs y hy).1
      obtain ⟨h2, h3⟩ := h.asc y hy hdir
      exact ⟨by rw [hmn _ h1]; exact h2, fun h' => h3 ((hop _ h1 (hxn y hy)).1 h')⟩
  · intro y hy hdir
    rcases (hmem y).1 hy with rfl | hy
    · exact hxd hdir
    · rw [hmx _ (h.divs y hy).1]; exact h.desc y hy hdir
  · have := ha.perm.map (·.si)
    rw [this.nodup_iff, List.map_cons, List.nodup_cons]
    refine ⟨fun hm => ?_, h.dn⟩
    obtain ⟨y, hy, e⟩ := List.mem_map.1 hm
    exact hxn y hy e
  · intro i hi hm
    by_cases hix : i = x.si ∧ x.dir = .desc
    · exact ⟨x, (hmem x).2 (.inl rfl), hix.1.symm, hix.2⟩
    · have hlt := (hD i hi hm).resolve_right hix
      rw [hmx i hlt] at hm
      obtain ⟨y, hy, h1, h2⟩ := h.hasD i hlt hm
      exact ⟨y, (hmem y).2 (.inr hy), h1, h2⟩
  · intro i hi hm ho
    by_cases hix : i = x.si ∧ x.dir = .asc
    · exact ⟨x, (hmem x).2 (.inl rfl), hix.1.symm, hix.2⟩
    · obtain ⟨hlt, ho'⟩ := (hA i hi hm ho).resolve_right hix
      rw [hmn i hlt] at hm
      obtain ⟨y, hy, h1, h2⟩ := h.hasA i hlt hm ho'
      exact ⟨y, (hmem y).2 (.inr hy), h1, h2⟩

/-- `add_segment` up to the loop. -/
theorem addSegmentStart_run [DecidableEq I] (hI : Inv P A) (hL : Link st A A.ups (fun _ => False) ex)
    (hQ : Qry st.qs st.ts A) (hE : P.E e)
    (hnew : ∀ i < A.S, A.sg i ≠ e) {a b : Nat} (ha : a < A.N) (hb : b < A.N) (hca : A.c a = e.2) (hcb : A.c b = e.1)
    (hex : ∀ n, ex n → n = a ∨ n = b) :
    ∃ A' st' ni tl tr pre post, st.addSegmentStart b a e.1 e.2 = .ok ⟨st', ni, tl, tr⟩ ∧
      SegRun P A' st' A.S ⟨b, a, e.1, e.2⟩ ni tl tr pre post (fun n => ex n ∧ n ≠ a) ∧
      (A'.N = A.N ∧ A'.c = A.c ∧ A'.S = A.S + 1 ∧ A'.sg = Function.update A.sg A.S e) ∧
      (∀ w q, P.U w → Trk P A st.qs A' st'.qs w q (if P.h (A.c ni) < P.h w then 1 else 0) (Beside A.S)) ∧
      st'.keys = st.keys ∧ st'.ss = st.ss ++ [⟨b, a, e.1, e.2⟩] := by
  obtain ⟨nx, hnx⟩ := hL.ns_get ha
  obtain ⟨t, hget, htd, hfit, nxa, hadd, hAd, hia, hid⟩ := start_nexus hI hL hE hnew hb hca hcb hnx
  obtain ⟨htM, htU⟩ := hI.rowD a ha t htd
  obtain ⟨n, htD, hlow⟩ := hfit.down hI hE htM htU (by rw [hca]; exact P.E_lt hE) (by rw [hca]) hb hcb
  have hok : OpenOk P A e a n t := ⟨hE, hnew, hca, htM, htU, htD, hlow, hfit.ltL, hfit.ltR⟩
  have hI' := openS_inv hI hok
  obtain ⟨hnN, htn⟩ := hI.downM t htM n htD
  have hht := hI.ht t htM a n htU htD
  have hna : n ≠ a := by rintro rfl; exact lt_irrefl _ hht
  obtain ⟨tt, htt⟩ := hL.ts_get htM
  have hTt : A.T t = ⟨tt.left, tt.right, tt.down, tt.up⟩ := hL.tr t tt htt
  obtain ⟨nn, hnn⟩ := hL.ns_get hnN
  obtain ⟨L', R', hN'⟩ := hI.nex n hnN
  obtain ⟨pre, post, hspl, hp1, hp2⟩ := split_at htn hN'.nodupU
  set s : Segment K := ⟨b, a, e.1, e.2⟩ with hs
  set A' := A.openS e a n t with hA'
  have hMN : st.ts.length = A.M := hL.tsL
  have hSS : st.ss.length = A.S := hL.ssL
  have hT1 : A'.T A.M = { A.T t with left := some A.S } := openS_T_new
  have hT2 : A'.T t = { A.T t with right := some A.S } := openS_T_t htM
  have hT3 : ∀ i < A.M, i ≠ t → A'.T i = A.T i := fun i h1 h2 => openS_T_old h1 h2
  have hleft : ∀ i < A.M, (A'.T i).left = (A.T i).left := by
    intro i hi
    by_cases h2 : i = t
    · subst h2; rw [hT2]
    · rw [hT3 i hi h2]
  have hU1 : A'.ups n = pre ++ t :: A.M :: post := by
    show Function.update _ _ _ _ = _
    rw [Function.update_self, hspl, insertAfter_split hp1 hp2]
  have hU3 : ∀ m, m ≠ n → A'.ups m = A.ups m := fun m h1 => Function.update_of_ne h1 _ _
  have hD1 : A'.downs a = insertAfter t A.M (A.downs a) := Function.update_self _ _ _
  have hD3 : ∀ m, m ≠ a → A'.downs m = A.downs m := fun m h1 => Function.update_of_ne h1 _ _
  have hmx : ∀ i < A.S, A'.mx i = A.mx i := fun i hi => openS_mx_old hi
  have hmn : ∀ i < A.S, A'.mn i = A.mn i := fun i hi => openS_mn_old hi
  have hreal : Real A' (· = A.S) := by
    intro i hi ho
    have hlt : i < A.S := by
      have : i < A.S + 1 := hi
      omega
    rw [hmn i hlt]
    have := hL.real i hlt (fun h => h)
    rw [show A'.sg i = A.sg i from openS_sg_old hlt]
    exact this
  have hltS : ∀ {l i : Nat}, i < A.M → (A.T i).left = some l → A'.sg l = A.sg l :=
    fun h1 h2 => openS_sg_old (hI.leftS _ h1 _ h2)
  have hreach : Reach P A' A.S n t A.M pre post := by
    have hsgS : A'.sg A.S = e := openS_sg_new
    refine ⟨hI', Nat.lt_succ_self _, openS_mn_new, hU1, by rw [hT1], ?_, ?_, hreal⟩
    · intro l hl
      rw [hleft t htM] at hl
      rw [hsgS, hltS htM hl]
      exact hfit.ltL l hl
    · intro r hr
      rw [hT1] at hr
      rw [hsgS, show A'.sg r = A.sg r from openS_sg_old (hI.rightS t htM r hr)]
      exact hfit.ltR r hr
  have hsgS : A'.sg A.S = e := openS_sg_new
  have hold : NexLink A (A.ups n) (A.downs n) (fun _ => False) n nn := hL.nex n nn hnn
  have hpre : ¬ KeepL A s n → pre = [] := by
    intro hk
    have hne2 : A'.c n ≠ (A'.sg A.S).1 := by
      rw [hsgS]
      intro e'
      exact hk (.inl (hI.cinj n hnN _ hb (e'.trans hcb.symm)))
    obtain ⟨g1, g2, g3⟩ := hreach.side hne2
    refine hreach.pre_nil (g2.resolve_right fun hlt => hk (.inr ?_))
    have := g1.1 hlt
    rw [hsgS] at this; exact this
  have hnd := hI.rows_nodup hnN
  have htdn : t ∉ A.downs n := by
    intro hm
    have := (hI.rowD n hnN t hm).2
    rw [htU] at this
    exact hna (Option.some.inj this).symm
  have hlowM : ∀ (m : Nat) (nx : Nexus I K), st.ns[m]? = some nx → ∀ x ∈ nx.dividers.toList, x.tiRight < A.M := by
    intro m nx hm x hx
    have h0 := hL.nex m nx hm
    rcases hd : x.dir with _ | _
    · exact (hI.rowU m (hL.lt_N hm) _ (h0.asc_mem hx hd)).1
    · exact (hI.rowD m (hL.lt_N hm) _ (h0.desc_mem hx hd)).1
  have htran : ∀ {m : Nat} {nx : Nexus I K} {u d : List Nat}, NexLink A u d (fun _ => False) m nx → m ≠ a →
      (∀ x ∈ nx.dividers.toList, x.tiRight < A.M) → NexLink A' u d (· = A.S) m nx := by
    intro m nx u d hm hma hxt
    refine hm.transfer rfl (Nat.le_succ _) hmx (fun i hi _ => hmn i hi) ?_ ?_ (fun x hx => hleft _ (hxt x hx))
    · intro i hi
      constructor
      · intro h; omega
      · exact False.elim
    · intro i h1 h2
      have : i < A.S + 1 := h1
      have : i = A.S := by omega
      subst this
      refine ⟨rfl, ?_⟩
      rw [show A'.mx A.S = a from openS_mx_new]
      exact Ne.symm hma
  have hlinkA : NexLink A' (A'.ups a) (A'.downs a) (· = A.S) a nxa := by
    refine (hL.nex a nx hnx).added hAd rfl (Nat.le_succ _) hmx hmn (fun y hy => hleft _ (hlowM a nx hnx y hy)) ?_ ?_ ?_ ?_
      ?_ ?_ ?_ ?_ ?_
    · exact ⟨Nat.lt_succ_self _, by rw [hT1]⟩
    · intro y hy
      exact Nat.ne_of_lt ((hL.nex a nx hnx).divs y hy).1
    · intro _; exact openS_mx_new
    · intro h; cases h
    · intro i hi hne
      exact ⟨fun h => absurd h hne, False.elim⟩
    · intro i hi _
      have : i < A.S + 1 := hi
      by_cases h : i < A.S
      · exact .inl h
      · exact .inr ⟨by show i = A.S; omega, rfl⟩
    · intro i hi _ ho
      have : i < A.S + 1 := hi
      exact .inl ⟨by omega, fun h => h⟩
    · rw [hia, hU3 a (Ne.symm hna)]
    · rw [hid, hD1]
  generalize hzz : (if KeepL A s n then nn else nn.ren t A.M) = z
  have hz : NexLink A' (upNow A' s n t A.M pre post n) (A'.downs n) (· = A.S) n z := by
    have e : upNow A' s n t A.M pre post n = pre ++ (if KeepL A s n then t else A.M) :: post :=
      Function.update_self _ _ _
    rw [e, hD3 n hna, ← hzz]
    by_cases hk : KeepL A s n
    · rw [if_pos hk, if_pos hk, ← hspl]
      exact htran hold hna (hlowM n nn hnn)
    · rw [if_neg hk, if_neg hk]
      have hp := hpre hk
      have h1 := (htran hold hna (hlowM n nn hnn)).ren t A.M fun z hz hzt => by
        exact absurd hzt (hold.head_up (t := t) (post := post) (by rw [hspl, hp]; rfl) hnd hz)
      rwa [hspl, map_rn_split hp1 hp2, map_rn_of_not_mem htdn] at h1
  have hzvi : z.vi = nn.vi ∧ z.key = nn.key ∧ (z.dividers = .zero → nn.dividers = .zero) := by
    rw [← hzz]
    split
    · exact ⟨rfl, rfl, id⟩
    · exact ⟨rfl, rfl, ren_zero⟩
  have hnn' : (st.ns.set a nxa)[n]? = some nn := by
    rw [List.getElem?_set_ne (Ne.symm hna), hnn]
  have hgetN : ∀ (m : Nat) (y : Nexus I K), ((st.ns.set a nxa).set n z)[m]? = some y →
      (m = n ∧ y = z) ∨ (m = a ∧ y = nxa) ∨ (m ≠ n ∧ m ≠ a ∧ st.ns[m]? = some y) := by
    intro m y hm
    by_cases h1 : m = n
    · subst h1
      rw [List.getElem?_set_self (lt_of_get hnn')] at hm
      exact .inl ⟨rfl, (Option.some.inj hm).symm⟩
    · rw [List.getElem?_set_ne (Ne.symm h1)] at hm
      by_cases h2 : m = a
      · subst h2
        rw [List.getElem?_set_self (lt_of_get hnx)] at hm
        exact .inr (.inl ⟨rfl, (Option.some.inj hm).symm⟩)
      · rw [List.getElem?_set_ne (Ne.symm h2)] at hm
        exact .inr (.inr ⟨h1, h2, hm⟩)
  generalize hst' : (⟨(st.ns.set a nxa).set n z, st.ss ++ [s],
      st.ts.set t { tt with right := some A.S, sink := st.qs.length } ++
        [{ left := some A.S, right := tt.right, down := tt.down, up := tt.up, sink := st.qs.length + 1 }],
      st.qs.set tt.sink (.branch st.qs.length (st.qs.length + 1) (.X e.1 e.2)) ++ [.sink t, .sink st.ts.length]⟩ :
      St I K) = st'
  have hlink : Link st' A' (upNow A' s n t A.M pre post) (· = A.S) (fun n => ex n ∧ n ≠ a) := by
    rw [← hst']
    refine ⟨by simp [hL.nsL]; rfl, by simp [hL.ssL]; rfl, by simp [hL.tsL]; rfl, ?_, ?_, ?_, ?_, ?_, hreal⟩
    · intro m y hm
      rcases hgetN m y hm with ⟨rfl, rfl⟩ | ⟨rfl, rfl⟩ | ⟨h1, h2, h3⟩
      · exact hz
      · have e : upNow A' s n t A.M pre post m = A'.ups m := Function.update_of_ne (Ne.symm hna) _ _
        rw [e]; exact hlinkA
      · have e : upNow A' s n t A.M pre post m = A'.ups m := Function.update_of_ne h1 _ _
        rw [e, hU3 m h1, hD3 m h2]
        exact htran (hL.nex m y h3) h2 (hlowM m y h3)
    · intro m y hm h0
      rcases hgetN m y hm with ⟨rfl, rfl⟩ | ⟨rfl, rfl⟩ | ⟨h1, h2, h3⟩
      · exact ⟨hL.bare _ nn hnn (hzvi.2.2 h0), hna⟩
      · exact absurd h0 hAd.nz
      · exact ⟨hL.bare _ y h3 h0, h2⟩
    · intro i x hx
      have hx : (st.ss ++ [s])[i]? = some x := hx
      by_cases h1 : i < st.ss.length
      · rw [List.getElem?_append_left h1] at hx
        obtain ⟨h2, h3, h4, h5⟩ := hL.seg i x hx
        have hiS : i < A.S := by omega
        rw [show A'.sg i = A.sg i from openS_sg_old hiS, hmx i hiS]
        exact ⟨h2, h3, h4, h5⟩
      · have h2 := lt_of_get hx
        simp at h2
        have : i = A.S := by omega
        subst this
        rw [← hSS] at hx
        simp at hx
        subst hx
        rw [show A'.sg A.S = e from openS_sg_new, show A'.mx A.S = a from openS_mx_new]
        exact ⟨rfl, rfl, hb, hcb⟩
    · intro i x hx
      rcases getElem?_set_append hx (lt_of_get htt) with ⟨rfl, rfl⟩ | ⟨rfl, rfl⟩ | ⟨h1, h2, h3⟩
      · rw [hMN, hT1, hTt]
      · rw [hT2, hTt]
      · rw [hT3 i (by omega) h1]; exact hL.tr i x h3
    · have hold' : ∀ (m : Nat) (y : Nexus I K), ((st.ns.set a nxa).set n z)[m]? = some y →
          ∃ y0, st.ns[m]? = some y0 ∧ y.vi = y0.vi := by
        intro m y hm
        rcases hgetN m y hm with ⟨rfl, rfl⟩ | ⟨rfl, rfl⟩ | ⟨h1, h2, h3⟩
        · exact ⟨nn, hnn, hzvi.1⟩
        · exact ⟨nx, hnx, hAd.vi⟩
        · exact ⟨y, h3, rfl⟩
      intro m k y y' hm hk hv
      obtain ⟨x0, e1, e2⟩ := hold' m y hm
      obtain ⟨y0, f1, f2⟩ := hold' k y' hk
      exact hL.vi m k x0 y0 e1 f1 (by rw [← e2, ← f2, hv])
  have hQ' : Qry st'.qs st'.ts A' := by
    rw [← hst']
    refine qry_open hQ htt rfl rfl ?_ (by rw [htU]; simp)
    intro i hi
    by_cases h2 : i = t
    · subst h2; rw [hT2]
    · rw [hT3 i (by omega) h2]
  refine ⟨A', st', n, t, A.M, pre, post, ?_, ⟨hreach, hlink, hQ', ?_, ?_⟩, ⟨rfl, rfl, rfl, rfl⟩, ?_, ?_, ?_⟩
  · have hq := hQ.snk t tt htt
    have e1 : tt.down = some n := by have := htD; rwa [hTt] at this
    have hrep : St.replaceAt (st.ns.set a nxa) (if n ≠ b ∧ s.isOnLeft nn.c = false then some n else none) t st.ts.length =
        .ok ((st.ns.set a nxa).set n z) := by
      have hc : nn.c = A.c n := hold.c
      rw [hc]
      by_cases hk : KeepL A s n
      · have : ¬ (n ≠ b ∧ s.isOnLeft (A.c n) = false) := by
          rintro ⟨h1, h2⟩
          rcases hk with hk | hk
          · exact h1 hk
          · rw [h2] at hk; cases hk
        rw [if_neg this, ← hzz, if_pos hk, set_get_same hnn']; rfl
      · have : n ≠ b ∧ s.isOnLeft (A.c n) = false := by
          refine ⟨fun e => hk (.inl e), ?_⟩
          rw [← Bool.not_eq_true]
          exact fun e => hk (.inr e)
        rw [if_pos this, ← hzz, if_neg hk, hMN]
        exact replaceAt_run hnn' (by rw [hold.up, hold.down]; exact hnd) (by rw [hold.up]; exact htn)
    have e2 : ((st.ts.set t { tt with right := some A.S, sink := st.qs.length }) ++
        [({ left := some A.S, right := tt.right, down := tt.down, up := tt.up, sink := st.qs.length + 1 } : Trapezoid)])[t]? =
        some { tt with right := some A.S, sink := st.qs.length } := by
      rw [List.getElem?_append_left (by simpa using lt_of_get htt), List.getElem?_set_self (lt_of_get htt)]
    simp only [St.addSegmentStart, getU, getP, modP, hnx, ← hs, hget, htt, hq, bind, Except.bind,
      List.getElem?_set_self (lt_of_get htt), Trapezoid.setSink, Trapezoid.splitVertical, List.set_set, hadd, hSS]
    rw [hSS] at hadd
    rw [e1] at e2
    rw [hMN] at hrep hadd
    simp only [e1, e2, hMN, hadd, hnn', hrep]
    rw [← hst', hMN, e1]
  · rw [← hst', ← hSS]; simp
  · rintro m ⟨h1, h2⟩
    exact (hex m h1).symm
  · intro w q hw
    obtain ⟨r1, r2, r3⟩ := openS_region hI hok hw
    have hq := hQ.snk t tt htt
    have hlq := lt_of_get hq
    rw [← hst']
    refine Trk.split hQ hq (fun p n => qs_set_same p n) (l := st.qs.length) (r := st.qs.length + 1)
      (br := .X e.1 e.2) (xl := t) (xr := A.M) ?_ ?_ ?_ ?_ ?_ ?_ ?_ ?_
    · rw [List.getElem?_append_left (by simpa using hlq), List.getElem?_set_self hlq]
    · rw [List.getElem?_append_right (by simp)]; simp
    · rw [List.getElem?_append_right (by simp)]; simp [hMN]
    · intro hr
      have g1 : P.h e.1 < P.h w := lt_of_le_of_lt hlow (hr.down n htD)
      have g2 : P.h w < P.h e.2 := by rw [← hca]; exact hr.up a htU
      have gi := P.left_iff hE hw g1 g2
      show if isLeftOfLine e.1 e.2 w = true then _ else _
      by_cases hl : isLeftOfLine e.1 e.2 w = true
      · rw [if_pos hl]; exact r1.2 ⟨hr, gi.1 hl⟩
      · rw [if_neg hl]
        refine r2.2 ⟨hr, ?_⟩
        exact lt_of_le_of_ne (not_lt.1 fun h' => hl (gi.2 h')) (P.X_ne hE hw g1 g2)
    · intro hr
      exact if_pos (hr.down n htD)
    · exact .inr (by rw [hT2])
    · exact .inl (by rw [hT1])
    · intro i hi hit hr
      exact ⟨(r3 i (by omega) hit).2 hr, .inl (hT3 i (by omega) hit)⟩
  · rw [← hst']
    show ((st.ns.set a nxa).set n z).map Nexus.key = st.ns.map Nexus.key
    rw [map_set_same (a := nn) (b := z) hnn' hzvi.2.1, map_set_same (a := nx) (b := nxa) hnx]
    simp only [Nexus.key, hAd.vi, hAd.c]
  · rw [← hst']

/-- The lower end of a segment. -/
theorem SegRun.finish {si tl tr : Nat} {sg : Segment K} {pre post : List Nat}
    (h : SegRun P A st si sg sg.niMin tl tr pre post ex) :
    ∃ ns, Nexus.addSegment st.ns st.ss sg.niMin si tr = .ok ns ∧
      Link { st with ns := ns } A A.ups (fun _ => False) (fun n => ex n ∧ n ≠ sg.niMin) ∧
      ns.map Nexus.key = st.ns.map Nexus.key := by
  have hI := h.reach.inv
  have hL := h.link
  have hbN := h.reach.nN
  have hne := h.ne_hi
  have hEq := h.sgE
  obtain ⟨nx, hnx⟩ := hL.ns_get hbN
  obtain ⟨hse, hmx, hmnN, hcmn⟩ := hL.seg si sg h.seg
  have hE := hI.sE si h.reach.sS
  have hNL := hL.nex _ nx hnx
  have e0 : upNow A sg sg.niMin tl tr pre post sg.niMin = pre ++ tl :: post := by
    rw [upNow, Function.update_self, if_pos (.inl rfl)]
  rw [e0] at hNL
  have hdir := getSegmentDirection_asc (n := sg.niMin) h.seg rfl (Ne.symm hne)
  obtain ⟨na, hna⟩ := hL.ns_get (n := sg.niMax) (by rw [hmx]; exact (hI.mxN si h.reach.sS).1)
  have ca : na.c = (A.sg si).2 := by
    have : upNow A sg sg.niMin tl tr pre post sg.niMax = A.ups sg.niMax := Function.update_of_ne (Ne.symm hne) _ _
    rw [(hL.nex _ na hna).c, hmx, (hI.mxN si h.reach.sS).2]
  have hsi : ∀ x ∈ nx.dividers.toList, x.si ≠ si := by
    intro x hx e
    rcases hd : x.dir with _ | _
    · exact (hNL.asc x hx hd).2 e
    · have := hNL.desc x hx hd
      rw [e, ← hmx] at this
      exact hne this.symm
  have hup := hNL.up
  have hdn := hNL.down
  rw [Nexus.iter_eq] at hup hdn
  obtain ⟨L, R, hN⟩ := hI.nex _ hbN
  have key : ∃ nx', Nexus.addSegment st.ns st.ss sg.niMin si tr = .ok (st.ns.set sg.niMin nx') ∧
      NexAdded nx nx' ⟨si, tr, .asc⟩ ∧ nx'.iterTrapezoids .asc = A.ups sg.niMin ∧
      nx'.iterTrapezoids .desc = A.downs sg.niMin := by
    rw [h.reach.ups]
    rcases hz : nx.dividers with _ | d0 | ⟨d0, d1⟩
    · have hd0 : ∀ dir, nx.divs dir = [] := fun dir => by simp [Nexus.divs, hz, Zot.toList]
      rw [hd0] at hdn hup
      simp only [List.map_nil, Nexus.leftmost] at hdn hup
      obtain ⟨rfl, rfl, rfl⟩ : pre = [] ∧ tl = nx.tiUpleft ∧ post = [] := by
        rcases pre with _ | ⟨p, ps⟩
        · simp at hup; exact ⟨rfl, hup.1.symm, hup.2.symm ▸ rfl⟩
        · simp at hup
      refine ⟨{ nx with dividers := .one ⟨si, tr, .asc⟩ }, ?_, ⟨rfl, rfl, ?_, ?_, ?_⟩, ?_, ?_⟩
      · simp only [Nexus.addSegment, hdir, getP, hnx, hz, bind, Except.bind]
      · simp [hz, Zot.toList]
      · intro x y h; cases h
      · intro h; cases h
      · rw [Nexus.iter_eq]; simp [Nexus.divs, Zot.toList, Nexus.leftmost]
      · rw [← hdn, Nexus.iter_eq]; simp [Nexus.divs, Zot.toList, Nexus.leftmost]
    · have hm0 : d0 ∈ nx.dividers.toList := by rw [hz]; simp [Zot.toList]
      obtain ⟨hd0S, hd0L⟩ := hNL.divs d0 hm0
      rcases hdd : d0.dir with _ | _
      · have hdD : nx.divs .desc = [] := by simp [Nexus.divs, hz, Zot.toList, hdd]
        have hdA : nx.divs .asc = [d0] := by simp [Nexus.divs, hz, Zot.toList, hdd]
        rw [hdD] at hdn
        rw [hdA] at hup
        simp only [List.map_nil, List.map_cons, Nexus.leftmost] at hdn hup
        have hE0 := hI.sE _ hd0S
        obtain ⟨a1, a2⟩ := hNL.asc d0 hm0 hdd
        have hlo : (A.sg d0.si).1 = (A.sg si).1 := by
          rw [← h.reach.real _ hd0S a2, a1, hcmn]
        obtain ⟨sr, hsr⟩ := hL.ss_get hd0S
        obtain ⟨q1, -, q3, q4⟩ := hL.seg _ sr hsr
        have hon : ∀ c, sr.isOnLeft c = isLeftOfLine (A.sg d0.si).1 (A.sg d0.si).2 c := by
          intro c; rw [← q1]; rfl
        have hadd : ∀ v, isLeftOfLine (A.sg d0.si).1 (A.sg d0.si).2 (A.sg si).2 = v →
            Nexus.addSegment st.ns st.ss sg.niMin si tr =
            if v = true then .ok (st.ns.set sg.niMin { nx with dividers := .two ⟨si, tr, .asc⟩ d0 })
              else .ok (st.ns.set sg.niMin { nx with dividers := .two d0 ⟨si, tr, .asc⟩ }) := by
          intro v hv
          simp only [Nexus.addSegment, hdir, getP, hnx, hz, bind, Except.bind, Nexus.swapDividers, hdd, if_pos, hsr, h.seg,
            hna, hon, ca, hv]
        have hpath := hN.pathU
        rw [h.reach.ups] at hpath
        rcases pre with _ | ⟨p, ps⟩
        · simp at hup
          obtain ⟨rfl, rfl⟩ := hup
          have hlt : P.Lt (A.sg si) (A.sg d0.si) := h.reach.ltR _ (by rw [← hpath.2.2.1]; exact hd0L)
          have hv := (lo_cases hE hE0 hlo.symm hlt).2
          refine ⟨{ nx with dividers := .two ⟨si, tr, .asc⟩ d0 }, by rw [hadd _ hv]; rfl, ⟨rfl, rfl, ?_, ?_, ?_⟩, ?_, ?_⟩
          · rw [hz]; exact List.Perm.refl _
          · intro x y h; cases h; simp
          · intro h; cases h
          · rw [Nexus.iter_eq]; simp [Nexus.divs, Zot.toList, Nexus.leftmost, hdd]
          · rw [← hdn, Nexus.iter_eq]; simp [Nexus.divs, Zot.toList, Nexus.leftmost, hdd]
        · rcases ps with _ | ⟨p', ps⟩
          · simp at hup
            obtain ⟨rfl, rfl, rfl⟩ := hup
            have hlt : P.Lt (A.sg d0.si) (A.sg si) := h.reach.ltL _ hd0L
            have hv := (lo_cases hE0 hE hlo hlt).1
            refine ⟨{ nx with dividers := .two d0 ⟨si, tr, .asc⟩ }, by rw [hadd _ hv]; rfl, ⟨rfl, rfl, ?_, ?_, ?_⟩, ?_, ?_⟩
            · rw [hz]; exact List.Perm.swap _ _ _
            · intro x y h; cases h; simp [hdd]
            · intro h; cases h
            · rw [Nexus.iter_eq]; simp [Nexus.divs, Zot.toList, Nexus.leftmost, hdd]
            · rw [← hdn, Nexus.iter_eq]; simp [Nexus.divs, Zot.toList, Nexus.leftmost, hdd]
          · simp at hup
      · have hdD : nx.divs .desc = [d0] := by simp [Nexus.divs, hz, Zot.toList, hdd]
        have hdA : nx.divs .asc = [] := by simp [Nexus.divs, hz, Zot.toList, hdd]
        rw [hdD] at hdn
        rw [hdA] at hup
        simp only [List.map_nil, List.map_cons, Nexus.leftmost] at hdn hup
        obtain ⟨rfl, rfl, rfl⟩ : pre = [] ∧ tl = nx.tiUpleft ∧ post = [] := by
          rcases pre with _ | ⟨p, ps⟩
          · simp at hup; exact ⟨rfl, hup.1.symm, hup.2.symm ▸ rfl⟩
          · simp at hup
        refine ⟨{ nx with dividers := .two ⟨si, tr, .asc⟩ d0 }, ?_, ⟨rfl, rfl, ?_, ?_, ?_⟩, ?_, ?_⟩
        · simp [Nexus.addSegment, hdir, getP, hnx, hz, bind, Except.bind, Nexus.swapDividers, hdd]
        · rw [hz]; exact List.Perm.refl _
        · intro x y h; cases h; simp
        · intro h; cases h
        · rw [Nexus.iter_eq]; simp [Nexus.divs, Zot.toList, Nexus.leftmost, hdd]
        · rw [← hdn, Nexus.iter_eq]; simp [Nexus.divs, Zot.toList, Nexus.leftmost, hdd]
    · refine absurd hz (hNL.not_two hI hL.real hE (.inl hcmn) fun x hx e => ?_)
      exact hsi x hx (hI.sinj _ (hNL.divs x hx).1 _ h.reach.sS e)
  obtain ⟨nx', hadd, hAd, hia, hid⟩ := key
  refine ⟨st.ns.set sg.niMin nx', hadd, ?_, ?_⟩
  · have hlt := lt_of_get hnx
    have hget : ∀ (m : Nat) (y : Nexus I K), (st.ns.set sg.niMin nx')[m]? = some y →
        (m = sg.niMin ∧ y = nx') ∨ (m ≠ sg.niMin ∧ st.ns[m]? = some y) := by
      intro m y h
      by_cases hm : m = sg.niMin
      · subst hm
        rw [List.getElem?_set_self hlt] at h
        exact .inl ⟨rfl, (Option.some.inj h).symm⟩
      · rw [List.getElem?_set_ne (Ne.symm hm)] at h
        exact .inr ⟨hm, h⟩
    refine ⟨by simp [hL.nsL], hL.ssL, hL.tsL, ?_, ?_, hL.seg, hL.tr, ?_, ?_⟩
    · intro m y hm
      rcases hget m y hm with ⟨rfl, rfl⟩ | ⟨h1, h2⟩
      · refine hNL.added hAd rfl (le_refl _) (fun _ _ => rfl) (fun _ _ => rfl) (fun _ _ => rfl)
          ⟨h.reach.sS, h.reach.trL⟩ hsi ?_ ?_ ?_ ?_ ?_ hia hid
        · intro h'; cases h'
        · intro _; exact ⟨h.reach.mn, fun h' => h'⟩
        · intro i _ hi; exact ⟨False.elim, fun h' => hi h'⟩
        · intro i hi _; exact .inl hi
        · intro i hi _ _
          by_cases h' : i = si
          · exact .inr ⟨h', rfl⟩
          · exact .inl ⟨hi, h'⟩
      · have h0 := hL.nex m y h2
        have e : upNow A sg sg.niMin tl tr pre post m = A.ups m := Function.update_of_ne h1 _ _
        rw [e] at h0
        refine ⟨h0.c, h0.up, h0.down, h0.divs, fun x hx hd => ⟨(h0.asc x hx hd).1, fun h' => h'⟩, h0.desc, h0.dn, h0.ord,
          h0.hasD, fun i hi hm' _ => h0.hasA i hi hm' fun e' => ?_⟩
        rw [e', h.reach.mn] at hm'
        exact h1 hm'.symm
    · intro m y hm h0
      rcases hget m y hm with ⟨rfl, rfl⟩ | ⟨h1, h2⟩
      · exact absurd h0 hAd.nz
      · exact ⟨hL.bare m y h2 h0, h1⟩
    · have hold : ∀ (m : Nat) (y : Nexus I K), (st.ns.set sg.niMin nx')[m]? = some y →
          ∃ y0, st.ns[m]? = some y0 ∧ y.vi = y0.vi := by
        intro m y hm
        rcases hget m y hm with ⟨rfl, rfl⟩ | ⟨h1, h2⟩
        · exact ⟨nx, hnx, hAd.vi⟩
        · exact ⟨y, h2, rfl⟩
      intro m k y y' hm hk hv
      obtain ⟨x0, e1, e2⟩ := hold m y hm
      obtain ⟨y0, f1, f2⟩ := hold k y' hk
      exact hL.vi m k x0 y0 e1 f1 (by rw [← e2, ← f2, hv])
    · intro i hi _
      by_cases h' : i = si
      · subst h'; rw [h.reach.mn]; exact hcmn
      · exact h.reach.real i hi h'
  · rw [map_set_same (a := nx) (b := nx') hnx]
    simp only [Nexus.key, hAd.vi, hAd.c]

/-- `add_segment` on a state described by the invariant. -/
theorem addSegment_run [DecidableEq I] (hI : Inv P A) (hL : Link st A A.ups (fun _ => False) ex)
    (hQ : Qry st.qs st.ts A) (hE : P.E e)
    (hnew : ∀ i < A.S, A.sg i ≠ e) {a b : Nat} (ha : a < A.N) (hb : b < A.N) (hca : A.c a = e.2) (hcb : A.c b = e.1)
    (hex : ∀ n, ex n → n = a ∨ n = b) :
    ∃ N A' st' ps, (∀ cfg, ∀ fuel ≥ N, st.addSegmentC cfg fuel b a e.1 e.2 = .ok (st', ps.length)) ∧
      Passes P (Edges A') A' e ps ∧ Inv P A' ∧ Link st' A' A'.ups (fun _ => False) (fun _ => False) ∧ Qry st'.qs st'.ts A' ∧
      (A'.N = A.N ∧ A'.c = A.c ∧ A'.S = A.S + 1 ∧ A'.sg = Function.update A.sg A.S e) ∧
      (∀ w q, P.U w → Trk P A st.qs A' st'.qs w q 1 (Beside A.S)) ∧ st'.keys = st.keys ∧
      st'.ss = st.ss ++ [⟨b, a, e.1, e.2⟩] := by
  obtain ⟨A1, st1, ni, tl, tr, pre, post, hstart, hrun1, ⟨p1, p2, p3, p4⟩, hg1, hk1, hss1⟩ :=
    addSegmentStart_run hI hL hQ hE hnew ha hb hca hcb hex
  obtain ⟨A2, st2, tl2, tr2, pre2, post2, ps, hloop, hps, -, hrun2, hs2, hg2, hk2, hss2⟩ := hrun1.loop _ (le_refl _)
  obtain ⟨ns, hadd, hlink, hkeys⟩ := hrun2.finish
  have hlink' : Link { st2 with ns := ns } A2 A2.ups (fun _ => False) (fun _ => False) := by
    refine ⟨hlink.nsL, hlink.ssL, hlink.tsL, hlink.nex, ?_, hlink.seg, hlink.tr, hlink.vi, hlink.real⟩
    intro n nx hn h0
    obtain ⟨⟨h1, h2⟩, h3⟩ := hlink.bare n nx hn h0
    rcases hex n h1 with h | h
    · exact h2 h
    · exact h3 h
  obtain ⟨N, hchk⟩ : ∃ N, ∀ (cfg : Cfg), ∀ fuel ≥ N,
      ({ st2 with ns := ns } : St I K).debugCheck cfg fuel = .ok () := by
    obtain ⟨N, hN⟩ := debugCheck_run hrun2.reach.inv hlink' hrun2.qry ⟨fun _ _ => [], fun _ _ => 0, true⟩
    refine ⟨N, fun cfg fuel hf => ?_⟩
    have := hN fuel hf
    simp only [St.debugCheck, if_true] at this
    unfold St.debugCheck
    split
    · exact this
    · rfl
  refine ⟨max N (((List.range A1.N).filter fun k => P.h (A1.c k) < P.h (A1.c ni)).length + 1), A2,
    { st2 with ns := ns }, ps, ?_, ?_, hrun2.reach.inv, hlink', hrun2.qry, ?_, ?_, ?_, ?_⟩
  · intro cfg fuel hf
    simp only [St.addSegmentC, hstart, bind, Except.bind]
    rw [hL.ssL, hloop fuel (le_trans (le_max_right _ _) hf)]
    simp only [hadd]
    rw [hchk cfg fuel (le_trans (le_max_left _ _) hf)]
  · have he : A1.sg A.S = e := by rw [p4, Function.update_self]
    rw [he] at hps
    refine ⟨hps.nodup, fun n hn => by rw [hs2.N]; exact hps.lt n hn, fun n hn => ?_⟩
    rw [hs2.edges, hs2.c]; exact hps.near n hn
  · rw [hs2.N, hs2.c, hs2.S, hs2.sg]; exact ⟨p1, p2, p3, p4⟩
  · intro w q hw
    refine ((hg1 w q hw).trans (hg2 w q hw) (fun _ h => h) (fun _ h => h)).mono ?_ (fun _ h => h)
    rw [p2]
    by_cases c : P.h w < P.h (A.c ni)
    · rw [if_neg (not_lt.2 c.le), if_pos c]
    · rw [if_neg c]; split <;> omega
  · exact hkeys.trans (hk2.trans hk1)
  · exact hss2.trans hss1

end ends

end Tri
