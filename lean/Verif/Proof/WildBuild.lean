import Verif.Proof.WildSegment

/-!
# Trapezoidation with arbitrary user code: no undefined behaviour, and it ends

`Locs.lean` and `RankedBuild.lean` for the model in which every call of user code has an arbitrary result.
-/

set_option linter.unusedSectionVars false

namespace Tri

variable {I V C : Type}

/-- A location is in range. -/
def LocW (N Q : Nat) : VLoc I C → Prop
  | .pending _ _ q => q < Q
  | .inserted _ ni => ni < N

theorem LocW.mono {N N' Q Q' : Nat} (hN : N ≤ N') (hQ : Q ≤ Q') {vl : VLoc I C} (h : LocW N Q vl) : LocW N' Q' vl := by
  cases vl with
  | pending c vi q => exact Nat.lt_of_lt_of_le h hQ
  | inserted c ni => exact Nat.lt_of_lt_of_le h hN

/-- All locations are in range. -/
def VlsW (st : St I C) (vls : List (VLoc I C)) : Prop := ∀ vl ∈ vls, LocW st.ns.length st.qs.length vl

theorem pend_len_ins {vls : List (VLoc I C)} {i : Nat} {c : Coords C} {vi : I} {q : Nat}
    (h : vls[i]? = some (.pending c vi q)) (c' : Coords C) (ni : Nat) :
    (pend (vls.set i (.inserted c' ni))).length + 1 = (pend vls).length := by
  have := (pend_set_none (b := .inserted c' ni) h rfl rfl).length_eq
  simp only [List.length_cons] at this
  omega

theorem pend_len_same {vls : List (VLoc I C)} {i : Nat} {c c' : Coords C} {vi vi' : I} {q q' : Nat}
    (h : vls[i]? = some (.pending c vi q)) :
    (pend (vls.set i (.pending c' vi' q'))).length = (pend vls).length := by
  rw [pend_length_eq, pend_length_eq, List.length_set]
  congr 1
  apply List.map_congr_left
  intro j _
  exact pendAt_set h j

/-- What holds between two user-visible steps: the state is in range, searches and walks in it end, and at most `N`
vertices will be inserted. -/
structure InvW (N : Nat) (st : St I C) (vls : List (VLoc I C)) : Prop where
  wf : WF AnyKey st
  tidy : Tidy N st
  ok : VlsW st vls
  size : st.ns.length + (pend vls).length ≤ N

/-- From `(st, vls)` to `(st', vls')`, `k` vertices were inserted. -/
structure GrowW (N : Nat) (st : St I C) (vls : List (VLoc I C)) (k : Nat) (st' : St I C) (vls' : List (VLoc I C)) :
    Prop where
  inv : InvW N st' vls'
  ns : st'.ns.length = st.ns.length + k
  pend : (pend vls').length + k = (pend vls).length
  ss : st'.ss.length = st.ss.length
  len : vls'.length = vls.length

variable {up : Bool} {E : Fault IErr → Prop}

theorem addVertexVL_W (hE : ∀ e, E (.err e)) (hU : up = true → E .panic) {N : Nat} {st : St I C}
    {vls : List (VLoc I C)} (h : InvW N st vls) (cfg : Cfg) (hP : cfg.debug = true → E .panic) {fuel : Nat}
    (hf : FuelOK E (enough N) fuel) (hs : st.ss.length ≤ N) {i : Nat} {c : Coords C} {vi : I}
    {q : Nat} (hi : vls[i]? = some (.pending c vi q)) :
    EnsW E (fun r => GrowW N st vls 1 r.1 r.2.1 ∧ r.2.2 < r.1.ns.length ∧ r.2.1 = vls.set i (.inserted c r.2.2))
      (Wild.addVertexVL up cfg fuel st vls i q) := by
  have hpos := pend_len_ins hi c 0
  have hsz := h.size
  have hq : q < st.qs.length := h.ok _ (mem_of_get hi)
  unfold Wild.addVertexVL
  refine EnsW.bind ((addVertex_rankedW hE hU h.wf h.tidy cfg hP (hf.le fun hf => ?_) hq).with
    (addVertex_safeW (up := up) h.wf cfg fuel hq)) ?_
  · unfold enough at hf; omega
  rintro ⟨st', ni⟩ ⟨ht, hwf, hn, hss, hqs, hni⟩
  simp only at ht hwf hn hss hqs hni
  subst hni
  refine EnsW.bind (EnsW.getP_lt (lt_of_get hi)) fun vl hvl => ?_
  rw [hi] at hvl
  cases hvl
  have hp := pend_len_ins hi c st.ns.length
  refine EnsW.pure ⟨⟨⟨hwf, ht, ?_, ?_⟩, hn, ?_, by rw [hss], ?_⟩, ?_, rfl⟩
  · refine forall_set (fun vl hvl => (h.ok vl hvl).mono (by show _ ≤ st'.ns.length; omega) hqs) ?_
    show st.ns.length < st'.ns.length
    omega
  · show st'.ns.length + (pend (vls.set i (.inserted c st.ns.length))).length ≤ N
    omega
  · exact hp
  · simp
  · show st.ns.length < st'.ns.length
    omega

theorem addEnds_W (hE : ∀ e, E (.err e)) (hU : up = true → E .panic) {N : Nat} {st : St I C}
    {vls : List (VLoc I C)} (h : InvW N st vls) (cfg : Cfg) (hP : cfg.debug = true → E .panic) {fuel : Nat}
    (hf : FuelOK E (enough N) fuel) (hs : st.ss.length ≤ N) (hlen : 2 ≤ vls.length) {si : Nat}
    (hsi : si < vls.length) :
    EnsW E (fun r => GrowW N st vls r.2.2.2.2 r.1 r.2.1 ∧ r.2.2.1 < r.1.ns.length ∧ r.2.2.2.1 < r.1.ns.length)
      (Wild.addEnds up cfg fuel st vls si) := by
  unfold Wild.addEnds
  simp only
  have hsj : (si + 1) % vls.length < vls.length := Nat.mod_lt _ (by omega)
  refine EnsW.bind (EnsW.getP_lt hsi) fun vl0 h0 => ?_
  refine EnsW.bind (EnsW.call hU) fun _ _ => ?_
  refine EnsW.bind (EnsW.getP_lt hsj) fun vl1 h1 => ?_
  refine EnsW.bind (EnsW.call hU) fun _ _ => ?_
  have hne : si ≠ (si + 1) % vls.length := ne_succ_mod hlen hsi
  generalize (si + 1) % vls.length = sj at h1 hne hsj ⊢
  have two : ∀ i j c0 i0 q0 c1 i1 q1, i ≠ j →
      vls[i]? = some (.pending c0 i0 q0) →
      vls[j]? = some (.pending c1 i1 q1) →
      ∀ (Q : St I C × List (VLoc I C) × Nat × Nat × Nat → Prop) (f : Nat → Nat → Nat × Nat × Nat),
      (∀ st' vls' a b, GrowW N st vls 2 st' vls' → a < st'.ns.length → b < st'.ns.length → Q (st', vls', f a b)) →
      EnsW E Q (do
        let (st, vls, ni0) ← Wild.addVertexVL up cfg fuel st vls i q0
        let (st, vls, ni1) ← Wild.addVertexVL up cfg fuel st vls j q1
        pure (st, vls, f ni0 ni1)) := by
    intro i j c0 i0 q0 c1 i1 q1 hij hi hj Q f hQ
    refine EnsW.bind (addVertexVL_W hE hU h cfg hP hf hs hi) ?_
    rintro ⟨sta, vlsa, na⟩ ⟨hga, hna, hva⟩
    simp only at hga hna hva
    have hj2 : vlsa[j]? = some (.pending c1 i1 q1) := by
      rw [hva, List.getElem?_set]; simp [hij, hj]
    refine EnsW.bind (addVertexVL_W hE hU hga.inv cfg hP hf (by rw [hga.ss]; exact hs) hj2) ?_
    rintro ⟨stb, vlsb, nb⟩ ⟨hgb, hnb, hvb⟩
    simp only at hgb hnb hvb
    have e1 := hga.ns
    have e2 := hgb.ns
    have e3 := hga.pend
    have e4 := hgb.pend
    refine EnsW.pure (hQ stb vlsb na nb ⟨hgb.inv, by omega, by omega, hgb.ss.trans hga.ss, hgb.len.trans hga.len⟩
      (by omega) hnb)
  rcases vl0 with ⟨c0, i0, q0⟩ | ⟨c0, ni0⟩ <;> rcases vl1 with ⟨c1, i1, q1⟩ | ⟨c1, ni1⟩
  · refine EnsW.bind (EnsW.call hU) fun less _ => EnsW.ite (fun _ => ?_) fun _ => ?_
    · exact two si sj c0 i0 q0 c1 i1 q1 hne h0 h1 _ (fun a b => (a, b, 2)) fun st' vls' a b hg ha hb => ⟨hg, ha, hb⟩
    · exact two sj si c1 i1 q1 c0 i0 q0 (Ne.symm hne) h1 h0 _ (fun a b => (b, a, 2))
        fun st' vls' a b hg ha hb => ⟨hg, hb, ha⟩
  · refine EnsW.bind (addVertexVL_W hE hU h cfg hP hf hs h0) ?_
    rintro ⟨sta, vlsa, na⟩ ⟨hga, hna, hva⟩
    simp only at hga hna hva
    have : ni1 < st.ns.length := h.ok _ (mem_of_get h1)
    have := hga.ns
    exact EnsW.pure ⟨hga, hna, by show ni1 < sta.ns.length; omega⟩
  · refine EnsW.bind (addVertexVL_W hE hU h cfg hP hf hs h1) ?_
    rintro ⟨sta, vlsa, na⟩ ⟨hga, hna, hva⟩
    simp only at hga hna hva
    have : ni0 < st.ns.length := h.ok _ (mem_of_get h0)
    have := hga.ns
    exact EnsW.pure ⟨hga, by show ni0 < sta.ns.length; omega, hna⟩
  · have a0 : ni0 < st.ns.length := h.ok _ (mem_of_get h0)
    have a1 : ni1 < st.ns.length := h.ok _ (mem_of_get h1)
    exact EnsW.pure ⟨⟨h, rfl, rfl, rfl, rfl⟩, a0, a1⟩

theorem addNthSegment_W (hE : ∀ e, E (.err e)) (hU : up = true → E .panic) {N : Nat} {st : St I C}
    {vls : List (VLoc I C)} (h : InvW N st vls) (cfg : Cfg) (hP : cfg.debug = true → E .panic) {fuel : Nat}
    (hf : FuelOK E (enough N) fuel) (hs : st.ss.length < N) (hlen : 2 ≤ vls.length) {si : Nat}
    (hsi : si < vls.length) :
    EnsW E (fun r => InvW N r.1 r.2.1 ∧ r.1.ss.length = st.ss.length + 1 ∧ r.2.1.length = vls.length ∧
        0 < r.1.ns.length ∧ (pend r.2.1).length + r.2.2 = (pend vls).length ∧
        r.1.ns.length = st.ns.length + r.2.2)
      (Wild.addNthSegment up cfg fuel st vls si) := by
  unfold Wild.addNthSegment
  refine EnsW.bind (addEnds_W hE hU h cfg hP hf (by omega) hlen hsi) ?_
  rintro ⟨st', vls', ni0, ni1, added⟩ ⟨hg, hl0, hl1⟩
  simp only at hg hl0 hl1 ⊢
  refine EnsW.bind (EnsW.getU hl0) fun n0 hn0 => ?_
  refine EnsW.bind (EnsW.getU hl1) fun n1 hn1 => ?_
  refine EnsW.bind (EnsW.call hU) fun less _ => ?_
  have hsz := hg.inv.size
  have hsg : ∀ a b, a < st'.ns.length → b < st'.ns.length → ∀ c d,
      EnsW E (fun st'' => Tidy N st'' ∧ WF AnyKey st'' ∧ st''.ns.length = st'.ns.length ∧
        st''.ss.length = st'.ss.length + 1 ∧ st'.qs.length ≤ st''.qs.length)
        (Wild.addSegment up cfg fuel st' a b c d) := fun a b ha hb c d =>
    (addSegment_rankedW hE hU hg.inv.wf hg.inv.tidy (by omega) cfg hP
      (hf.le fun hf => by rw [hg.ss]; unfold enough at hf; omega) ha hb c d).with
      (addSegment_safeW (up := up) hg.inv.wf cfg fuel ha hb c d)
  refine EnsW.bind (EnsW.ite (fun _ => hsg _ _ hl0 hl1 _ _) fun _ => hsg _ _ hl1 hl0 _ _) ?_
  rintro st'' ⟨ht, hwf, hn, hss, hq⟩
  refine EnsW.pure ⟨⟨hwf, ht, fun vl hvl => (hg.inv.ok vl hvl).mono (by show _ ≤ st''.ns.length; omega) hq, ?_⟩, ?_, hg.len, ?_, hg.pend, ?_⟩
  · show st''.ns.length + (pend vls').length ≤ N
    omega
  · show st''.ss.length = _
    rw [hss, hg.ss]
  · show 0 < st''.ns.length
    omega
  · show st''.ns.length = _
    rw [hn, hg.ns]

theorem between_W (hU : up = true → E .panic) (n : Nexus I C) (dir : Dir) :
    EnsW E (· ∈ n.iterTrapezoids dir) (Wild.between up n dir) := by
  unfold Wild.between
  split
  · exact EnsW.pure (leftmost_iter n dir)
  · rename_i d hd
    refine EnsW.bind (EnsW.call hU) fun b _ => EnsW.ite (fun _ => EnsW.pure ?_) fun _ => EnsW.pure ?_
    · exact filterDividers_iter (zot_last_mem hd)
    · exact leftmost_iter n dir

theorem walk_W (hE : ∀ e, E (.err e)) (hU : up = true → E .panic) {st : St I C} (h : WF AnyKey st)
    {ρ : Nat → Nat} (hρ : ∀ i, i < st.ns.length → ρ i < st.ns.length)
    (hr : Ranked ρ st.ns st.ts) (dir : Dir) (fuel ti : Nat)
    (hti : ti < st.ts.length) (hf : FuelOK E 1 fuel)
    (hm : ∀ t, st.ts[ti]? = some t → ∀ i, t.endOf dir = some i →
      FuelOK E (leftIn ρ st.ns.length i dir + 1) fuel) :
    EnsW E (· < st.ts.length) (Wild.walk up st dir fuel ti) := by
  induction fuel generalizing ti with
  | zero =>
    rcases hf with hf | hf
    · exact EnsW.stop hf
    · omega
  | succ k ih =>
    unfold Wild.walk
    refine EnsW.bind (EnsW.getU hti) fun t ht => ?_
    have hok := h.ts t (mem_of_get ht)
    have hend : ∀ i, (match dir with | .asc => t.up | .desc => t.down) = some i →
        i < st.ns.length := by
      cases dir
      · exact hok.up
      · exact hok.down
    have hreach : EnsW E (fun _ => True) (Wild.reached up st.ns t dir) := by
      unfold Wild.reached
      split
      · exact EnsW.pure trivial
      · rename_i ni hni
        exact EnsW.bind (EnsW.getP_lt (hend ni hni)) fun _ _ => EnsW.call hU
    refine EnsW.bind hreach fun done _ => EnsW.ite (fun _ => EnsW.pure hti) fun _ => ?_
    split
    · exact EnsW.stopOr (hE _) hU
    · rename_i ni hni
      have hni' := hend ni hni
      have hlt := hm t ht ni (by cases dir <;> exact hni)
      have hρi := hρ ni hni'
      refine EnsW.bind (EnsW.getU hni') fun n hn => ?_
      refine EnsW.bind (between_W hU n dir) fun tj hit => ?_
      refine ih _ ((h.ns n (mem_of_get hn)).iter_lt hit) (hlt.le fun hlt => ?_) ?_
      · cases dir <;> simp only [leftIn] at hlt <;> omega
      · intro t' ht' i hi
        refine hlt.le fun hlt => ?_
        cases dir with
        | asc =>
          have := hr.above ni n hn _ hit t' ht' i hi
          simp only [leftIn] at hlt ⊢
          omega
        | desc =>
          have := hr.below ni n hn _ hit t' ht' i hi
          simp only [leftIn] at hlt ⊢
          omega

theorem startTrapezoid_W (hE : ∀ e, E (.err e)) (hU : up = true → E .panic) {st : St I C} (h : WF AnyKey st)
    {loc : St.Loc} (hloc : RLocOK st loc) (dir : Dir) :
    EnsW E (· < st.ts.length) (Wild.startTrapezoid up st loc dir) := by
  unfold Wild.startTrapezoid
  split
  · refine EnsW.bind (EnsW.getU hloc) fun n hn => ?_
    have hn0 := h.ns n (mem_of_get hn)
    unfold Wild.toward
    split
    · exact EnsW.pure (leftmost_ok hn0 dir)
    · rename_i d hd
      have hdv := hn0.divs d (filterDividers_mem (by rw [hd]; simp [Zot.toList])).1
      refine EnsW.bind (EnsW.getP_lt hdv.2) fun s hs => ?_
      have hso := h.ss s (mem_of_get hs)
      refine EnsW.bind (EnsW.getP_lt hso.1) fun _ _ => ?_
      refine EnsW.bind (EnsW.getP_lt hso.2) fun _ _ => ?_
      refine EnsW.bind (EnsW.call hU) fun b _ => ?_
      exact EnsW.ite (fun _ => EnsW.pure (leftmost_ok hn0 dir)) fun _ => EnsW.pure hdv.1
    · exact EnsW.stop (hE _)
  · exact EnsW.pure hloc

theorem relocStep_W (hE : ∀ e, E (.err e)) (hU : up = true → E .panic) {N : Nat} {st : St I C}
    (h : WF AnyKey st) (ht : Tidy N st) {fuel : Nat} (hf : FuelOK E (st.ns.length + 2) fuel) {L : Nat}
    (r : St.Reloc I C) (hvl : VlsW st r.vls) (hloc : RLocOK st r.loc)
    (hpos : 0 < r.vls.length) (h0 : r.unlocated ≠ 0) (hL : r.unlocated = ahead r.vls r.target (L + 1)) :
    EnsW E (fun r' => VlsW st r'.vls ∧ RLocOK st r'.loc ∧ (pend r'.vls).length = (pend r.vls).length ∧
      r'.vls.length = r.vls.length ∧ r'.unlocated = ahead r'.vls r'.target L)
      (Wild.relocStep up fuel st r) := by
  have hlt : (r.target + 1) % r.vls.length < r.vls.length := Nat.mod_lt _ hpos
  unfold Wild.relocStep
  refine EnsW.bind (EnsW.getP_lt hlt) fun vl hget => ?_
  have hl := hvl vl (mem_of_get hget)
  rw [ahead] at hL
  cases vl with
  | inserted c ni =>
    refine EnsW.bind (EnsW.getU hl) fun n hn => EnsW.pure ⟨hvl, hl, rfl, rfl, ?_⟩
    rw [hL, pendAt, hget]
    simp
  | pending c vi q =>
    refine EnsW.bind (EnsW.call hU) fun asc _ => ?_
    simp only
    generalize (if asc = true then Dir.asc else Dir.desc) = dir
    refine EnsW.bind (startTrapezoid_W hE hU h hloc dir) fun ti hti => ?_
    obtain ⟨ρ, hρ, hr⟩ := ht.rank
    refine EnsW.bind (walk_W hE hU h hρ hr _ fuel ti hti (hf.le (by omega)) ?_) fun ti hti => ?_
    · intro t ht i hi
      have hok := h.ts t (mem_of_get ht)
      refine hf.le fun hf => ?_
      cases dir with
      | asc => simp only [leftIn]; omega
      | desc =>
        have := hρ i (hok.down i hi)
        simp only [leftIn]; omega
    refine EnsW.bind (EnsW.subP_le (by omega)) fun u hu => ?_
    refine EnsW.bind (EnsW.getU hti) fun t ht => ?_
    refine EnsW.bind (EnsW.call hU) fun vi' _ => ?_
    refine EnsW.pure ⟨forall_set hvl ?_, hti, pend_len_same hget, by simp, ?_⟩
    · exact (h.ts t (mem_of_get ht)).sink
    · simp only
      rw [pendAt_congr (vls := r.vls) (by simp) (pendAt_set hget), hu, hL, pendAt, hget]
      simp

theorem relocLoop_W (hE : ∀ e, E (.err e)) (hU : up = true → E .panic) {N : Nat} {st : St I C}
    (h : WF AnyKey st) (ht : Tidy N st) {fuel : Nat} (hf : FuelOK E (st.ns.length + 2) fuel)
    {L k : Nat} (hk : FuelOK E (L + 1) k)
    (r : St.Reloc I C) (hvl : VlsW st r.vls) (hloc : RLocOK st r.loc)
    (hpos : 0 < r.vls.length) (hL : r.unlocated = ahead r.vls r.target L) :
    EnsW E (fun vls' => VlsW st vls' ∧ (pend vls').length = (pend r.vls).length ∧ vls'.length = r.vls.length)
      (Wild.relocLoop up fuel st k r) := by
  induction k generalizing r L with
  | zero =>
    rcases hk with hk | hk
    · exact EnsW.stop hk
    · omega
  | succ k ih =>
    unfold Wild.relocLoop
    refine EnsW.ite (fun _ => EnsW.pure ⟨hvl, rfl, rfl⟩) fun h0 => ?_
    cases L with
    | zero => exact absurd hL h0
    | succ L =>
      refine EnsW.bind (relocStep_W hE hU h ht hf r hvl hloc hpos h0 hL) ?_
      rintro r' ⟨h1, h2, h3, h4, h5⟩
      refine (ih (hk.le (by omega)) r' h1 h2 (by omega) h5).imp ?_
      rintro vls' ⟨a, b, c⟩
      exact ⟨a, b.trans h3, c.trans h4⟩

/-- Invariant of the loop of `add_polygon`: `k` of `L` sides have been added, starting from `st0`. -/
structure PolyW (N : Nat) (st0 : St I C) (L k : Nat) (l : St.PolyLoop I C) : Prop where
  inv : InvW N l.st l.vls
  len : l.vls.length = L
  ss : l.st.ss.length = st0.ss.length + k
  ns : l.st.ns.length + (pend l.vls).length = st0.ns.length + L
  pending : l.pending = (pend l.vls).length

theorem polyStep_W (hE : ∀ e, E (.err e)) (hU : up = true → E .panic) {N : Nat}
    (cfg : Cfg) (hP : cfg.debug = true → E .panic) {fuel : Nat} (hf : FuelOK E (enough N) fuel)
    {st0 : St I C} {len k : Nat} (hlen : 2 ≤ len) (hN : len ≤ N) {l : St.PolyLoop I C} (h : PolyW N st0 len k l)
    (hs : st0.ss.length + k < N) {si : Nat} (hsi : si < len) :
    EnsW E (PolyW N st0 len (k + 1)) (Wild.polyStep up cfg fuel l si) := by
  have big := enough_big N
  have hll := h.len
  have hns := h.ns
  have hpd := h.pending
  unfold Wild.polyStep
  refine EnsW.bind (addNthSegment_W hE hU h.inv cfg hP hf (by rw [h.ss]; exact hs) (by omega) (by omega)) ?_
  rintro ⟨st', vls', added⟩ ⟨hi, hss, hl, hpos, hp, hn⟩
  simp only at hi hss hl hpos hp hn ⊢
  refine EnsW.bind (EnsW.subP_le (by omega)) fun pd hpd' => ?_
  have hss' : st'.ss.length = st0.ss.length + (k + 1) := by rw [hss, h.ss]; rfl
  refine EnsW.ite (fun _ => ?_) fun _ => EnsW.pure ⟨hi, by simp only; omega, hss', by simp only; omega, by simp only; omega⟩
  have hsz := hi.size
  have hrel : EnsW E (fun vls'' => VlsW st' vls'' ∧ (pend vls'').length = (pend vls').length ∧
      vls''.length = vls'.length) (Wild.relocate up fuel st' vls' si pd) := by
    refine EnsW.bind (EnsW.call hU) fun c _ => relocLoop_W hE hU hi.wf hi.tidy (L := vls'.length) (fuel := fuel)
      (k := fuel) (hf.le (by omega)) (hf.le (by omega)) ⟨vls', pd, si, .nexus 0, c⟩ hi.ok hpos
      (by show 0 < vls'.length; omega) ?_
    show pd = ahead vls' si vls'.length
    rw [ahead_cycle _ _ (by omega)]
    omega
  refine EnsW.bind hrel ?_
  rintro vls'' ⟨a, b, c⟩
  exact EnsW.pure ⟨⟨hi.wf, hi.tidy, a, by show st'.ns.length + (pend vls'').length ≤ N; omega⟩, by simp only; omega, hss', by simp only; omega,
    by simp only; omega⟩

theorem addPolygon_W (hE : ∀ e, E (.err e)) (hU : up = true → E .panic) {N : Nat}
    (cfg : Cfg) (hcfg : cfg.Valid) (hP : cfg.debug = true → E .panic) {fuel : Nat} (hf : FuelOK E (enough N) fuel)
    (k : Nat) {st : St I C} {vls : List (VLoc I C)} (h : InvW N st vls) (hlen : 2 ≤ vls.length)
    (hpend : (pend vls).length = vls.length) (hs : st.ss.length + vls.length ≤ N) :
    EnsW E (fun st' => WF AnyKey st' ∧ Tidy N st' ∧ st'.ns.length ≤ st.ns.length + vls.length ∧
        st'.ss.length = st.ss.length + vls.length)
      (Wild.addPolygon up cfg fuel k st vls) := by
  have hol : (cfg.order k vls.length).length = vls.length := by
    rw [(hcfg k vls.length).length_eq, List.length_range]
  unfold Wild.addPolygon
  refine EnsW.bind (EnsW.foldlM (fun rest l => ∃ done, cfg.order k vls.length = done ++ rest ∧
    PolyW N st vls.length done.length l) ?_ _ _ ⟨[], rfl, h, rfl, rfl, by simp only; omega, hpend.symm⟩) ?_
  · rintro a rest l ⟨done, hd, hi⟩
    have hmem : a ∈ cfg.order k vls.length := by rw [hd]; simp
    have ha : a < vls.length := List.mem_range.1 ((hcfg k vls.length).subset hmem)
    have hdl : done.length < vls.length := by
      rw [hd] at hol
      simp only [List.length_append, List.length_cons] at hol
      omega
    refine (polyStep_W hE hU cfg hP hf hlen (by omega) hi (by omega) ha).imp ?_
    intro l' hl'
    exact ⟨done ++ [a], by simp [hd], by simpa using hl'⟩
  · rintro l ⟨done, hd, hi⟩
    rw [List.append_nil] at hd
    rw [hd] at hol
    have := hi.ns
    exact EnsW.pure ⟨hi.inv.wf, hi.inv.tidy, by omega, by rw [hi.ss, hol]⟩

/-- The invariant of the element loop. -/
structure BuildW (N : Nat) (rest : List (Option (Elem I))) (l : St.BuildLoop I C) : Prop where
  wf : WF AnyKey l.st
  tidy : Tidy N l.st
  ok : VlsW l.st l.vLookup
  pend : (pend l.vLookup).length = l.vLookup.length
  ns : l.st.ns.length + l.vLookup.length + conts rest ≤ N
  ss : l.st.ss.length + l.vLookup.length + conts rest ≤ N

theorem buildStep_W {E : Fault TrapErr → Prop} (hE : ∀ e, E (.err e)) (hU : up = true → E .panic) {N : Nat}
    (cfg : Cfg) (hcfg : cfg.Valid) (hP : cfg.debug = true → E .panic) {fuel : Nat} (hf : FuelOK E (enough N) fuel)
    {e : Option (Elem I)} (he : e = none → E .panic) {rest : List (Option (Elem I))} {l : St.BuildLoop I C}
    (h : BuildW N (e :: rest) l) : EnsW E (BuildW N rest) (Wild.buildStep up cfg fuel l e) := by
  have hns := h.ns
  have hss := h.ss
  have hpd := h.pend
  unfold Wild.buildStep
  split
  · exact EnsW.stop (he rfl)
  · rename_i i
    have hc : conts (some (.cont i) :: rest) = conts rest + 1 := by simp [conts]
    refine EnsW.bind (EnsW.call hU) fun c _ => EnsW.pure ⟨h.wf, h.tidy, ?_, ?_, ?_, ?_⟩
    · refine forall_append h.ok ?_
      intro vl hvl
      rw [List.mem_singleton.1 hvl]
      exact h.wf.root
    · simp only [Tri.pend, List.filterMap_append, List.length_append] at hpd ⊢
      rw [hpd]
      rfl
    · simp only [List.length_append, List.length_cons, List.length_nil]
      omega
    · simp only [List.length_append, List.length_cons, List.length_nil]
      omega
  · have hc : conts (some (.newPolygon : Elem I) :: rest) = conts rest := by simp [conts]
    refine EnsW.ite (fun _ => EnsW.ite (fun _ => EnsW.stop (hE _)) fun hlen => ?_) fun _ =>
      EnsW.pure ⟨h.wf, h.tidy, h.ok, h.pend, by omega, by omega⟩
    refine EnsW.bind (EnsW.mapErr (E := fun e => match e with
        | .err _ => True | .panic => E .panic | .timeout => E .timeout | .ub => E .ub)
      (addPolygon_W (fun _ => trivial) hU cfg hcfg hP (fuel := fuel) ?_ l.k ⟨h.wf, h.tidy, h.ok, by omega⟩ (by omega)
        h.pend (by omega)) (fun _ _ => hE _) (fun h => h) (fun h => h) (fun h => h)) ?_
    · exact hf
    · rintro st' ⟨h1, h2, h3, h4⟩
      refine EnsW.pure ⟨h1, h2, ?_, rfl, ?_, ?_⟩
      · intro vl hvl
        cases hvl
      · simp only [List.length_nil]
        omega
      · simp only [List.length_nil]
        omega

theorem trapezoidize_W {E : Fault TrapErr → Prop} (hE : ∀ e, E (.err e)) (hU : up = true → E .panic)
    (cfg : Cfg) (hcfg : cfg.Valid) (hP : cfg.debug = true → E .panic) (es : List (Option (Elem I)))
    {fuel : Nat} (hf : FuelOK E (enough (conts es)) fuel) (he : none ∈ es → E .panic) :
    EnsW E (fun st : St I C => WF AnyKey st ∧ Tidy (conts es) st ∧ st.ns.length ≤ conts es ∧ st.ss.length ≤ conts es)
      (Wild.trapezoidize up cfg fuel es) := by
  unfold Wild.trapezoidize
  refine EnsW.bind (EnsW.foldlM (fun rest l => (none ∈ rest → E .panic) ∧ BuildW (conts es) rest l) ?_ _ _
    (⟨?_, ?_⟩ : (none ∈ es ++ [some .newPolygon] → E .panic) ∧
      BuildW (conts es) (es ++ [some .newPolygon]) ⟨St.init, [], 0⟩)) ?_
  · rintro e rest l ⟨h1, h2⟩
    refine (buildStep_W hE hU cfg hcfg hP hf (fun h => h1 (by simp [h])) h2).imp fun l' hl' => ⟨?_, hl'⟩
    exact fun h => h1 (by simp [h])
  · intro h
    simp only [List.mem_append, List.mem_singleton, reduceCtorEq, or_false] at h
    exact he h
  · refine ⟨WF.init, Tidy.init _, ?_, rfl, ?_, ?_⟩
    · intro vl hvl
      cases hvl
    · simp [St.init, conts]
    · simp [St.init, conts]
  · rintro l ⟨-, h⟩
    have := h.ns
    have := h.ss
    exact EnsW.pure ⟨h.wf, h.tidy, by omega, by omega⟩

end Tri
