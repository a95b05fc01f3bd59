import Verif.Proof.Safe
import Verif.Proof.Build
import Mathlib.Data.List.Forall2

/-!
# Vertex locations: which vertices and edges are in the trapezoidation

For an arbitrary `Scalar`.
-/

set_option linter.unusedSectionVars false

namespace Tri

variable {I V C : Type}

/-- The location `vl` describes vertex `v`. -/
def LocOK (keys : List (I × Coords C)) (Q : Nat) (v : I × Coords C) : VLoc I C → Prop
  | .pending c vi q => v = (vi, c) ∧ q < Q
  | .inserted c ni => v.2 = c ∧ keys[ni]? = some v

/-- The locations `vls` describe the polygon `vs`. -/
structure VlsOK (keys : List (I × Coords C)) (Q : Nat) (vs : List (I × Coords C))
    (vls : List (VLoc I C)) : Prop where
  len : vls.length = vs.length
  loc : ∀ (i : Nat) (v : I × Coords C) (vl : VLoc I C), vs[i]? = some v → vls[i]? = some vl → LocOK keys Q v vl

/-- The vertex of a pending location. -/
def VLoc.pend : VLoc I C → Option (I × Coords C)
  | .pending c vi _ => some (vi, c)
  | .inserted _ _ => none

/-- The vertices not inserted yet. -/
def pend (vls : List (VLoc I C)) : List (I × Coords C) := vls.filterMap VLoc.pend

/-- Vertex number `i` is inserted. -/
def InsAt (vls : List (VLoc I C)) (i : Nat) : Prop := ∃ c ni, vls[i]? = some (.inserted c ni)

theorem LocOK.mono {keys keys' : List (I × Coords C)} {Q Q' : Nat} {v : I × Coords C} {vl : VLoc I C}
    (h : LocOK keys Q v vl) (hk : keys <+: keys') (hQ : Q ≤ Q') : LocOK keys' Q' v vl := by
  cases vl with
  | pending c vi q => exact ⟨h.1, Nat.lt_of_lt_of_le h.2 hQ⟩
  | inserted c ni =>
    refine ⟨h.1, ?_⟩
    obtain ⟨t, rfl⟩ := hk
    rw [List.getElem?_append_left (lt_of_get h.2)]
    exact h.2

theorem VlsOK.mono {keys keys' : List (I × Coords C)} {Q Q' : Nat} {vs : List (I × Coords C)}
    {vls : List (VLoc I C)} (h : VlsOK keys Q vs vls) (hk : keys <+: keys') (hQ : Q ≤ Q') :
    VlsOK keys' Q' vs vls :=
  ⟨h.len, fun i v vl h1 h2 => (h.loc i v vl h1 h2).mono hk hQ⟩

theorem VlsOK.set {keys : List (I × Coords C)} {Q : Nat} {vs : List (I × Coords C)}
    {vls : List (VLoc I C)} (h : VlsOK keys Q vs vls) {i : Nat} {vl : VLoc I C}
    (hi : ∀ v, vs[i]? = some v → LocOK keys Q v vl) : VlsOK keys Q vs (vls.set i vl) := by
  refine ⟨by simp [h.len], fun j v vl' h1 h2 => ?_⟩
  rw [List.getElem?_set] at h2
  split at h2
  · rename_i hij
    subst hij
    split at h2
    · cases h2; exact hi v h1
    · cases h2
  · exact h.loc j v vl' h1 h2

theorem pend_set_none {vls : List (VLoc I C)} {i : Nat} {a b : VLoc I C} {v : I × Coords C}
    (h : vls[i]? = some a) (ha : a.pend = some v) (hb : b.pend = none) :
    (pend vls).Perm (v :: pend (vls.set i b)) := by
  induction vls generalizing i with
  | nil => simp at h
  | cons x xs ih =>
    cases i with
    | zero =>
      simp only [List.getElem?_cons_zero, Option.some.injEq] at h
      subst h
      simp [pend, ha, hb]
    | succ i =>
      simp only [List.getElem?_cons_succ] at h
      have := ih h
      simp only [pend, List.set_cons_succ, List.filterMap_cons] at this ⊢
      split
      · exact this
      · exact (List.Perm.cons _ this).trans (List.Perm.swap ..)

theorem pend_set_same {vls : List (VLoc I C)} {i : Nat} {a b : VLoc I C}
    (h : vls[i]? = some a) (hb : b.pend = a.pend) : pend (vls.set i b) = pend vls := by
  induction vls generalizing i with
  | nil => simp at h
  | cons x xs ih =>
    cases i with
    | zero =>
      simp only [List.getElem?_cons_zero, Option.some.injEq] at h
      subst h
      simp only [pend, List.set_cons_zero, List.filterMap_cons, hb]
    | succ i =>
      simp only [List.getElem?_cons_succ] at h
      have := ih h
      simp only [pend, List.set_cons_succ, List.filterMap_cons] at this ⊢
      rw [this]

variable {A : I × Coords C → Prop}

/-- From `(st, vls)` to `(st', vls')` only vertices of the polygon `vs` were inserted. -/
structure Grow (A : I × Coords C → Prop) (vs : List (I × Coords C)) (st : St I C)
    (vls : List (VLoc I C)) (st' : St I C) (vls' : List (VLoc I C)) : Prop where
  wf : WF A st'
  ok : VlsOK st'.keys st'.qs.length vs vls'
  keys : st.keys <+: st'.keys
  perm : (st'.keys ++ pend vls').Perm (st.keys ++ pend vls)
  ss : st'.ss = st.ss
  qs : st.qs.length ≤ st'.qs.length
  ins : ∀ i, InsAt vls i → InsAt vls' i

theorem Grow.refl {vs : List (I × Coords C)} {st : St I C} {vls : List (VLoc I C)} (h : WF A st)
    (h' : VlsOK st.keys st.qs.length vs vls) : Grow A vs st vls st vls :=
  ⟨h, h', List.prefix_refl _, .refl _, rfl, Nat.le_refl _, fun _ h => h⟩

theorem Grow.trans {vs : List (I × Coords C)} {st st' st'' : St I C}
    {vls vls' vls'' : List (VLoc I C)} (h : Grow A vs st vls st' vls')
    (h' : Grow A vs st' vls' st'' vls'') : Grow A vs st vls st'' vls'' :=
  ⟨h'.wf, h'.ok, h.keys.trans h'.keys, h'.perm.trans h.perm, h'.ss.trans h.ss, Nat.le_trans h.qs h'.qs,
    fun i hi => h'.ins i (h.ins i hi)⟩

theorem keys_length (st : St I C) : st.keys.length = st.ns.length := by simp [St.keys]

theorem keys_get {st : St I C} {i : Nat} {n : Nexus I C} {v : I × Coords C}
    (h : st.keys[i]? = some v) (hn : st.ns[i]? = some n) : n.key = v := by
  simp only [St.keys, List.getElem?_map, hn, Option.map_some, Option.some.injEq] at h
  exact h

theorem InsAt.set {vls : List (VLoc I C)} {i : Nat} (h : i < vls.length) (c : Coords C) (ni : Nat) :
    InsAt (vls.set i (.inserted c ni)) i := ⟨c, ni, by simp [h]⟩

variable [Scalar C] [DecidableEq I]

/-- Where vertices come from: `A` and the vertex lookup. -/
def Src (A : I × Coords C → Prop) (p : PolyList I V) (xy : V → Coords C) (v : I × Coords C) : Prop :=
  A v ∧ p.coords (ε := IErr) xy v.1 = .ok v.2

theorem addVertexVL_safe {st : St I C} (h : WF A st) (cfg : Cfg) (fuel : Nat) (p : PolyList I V)
    (xy : V → Coords C) {vs : List (I × Coords C)} (hvs : ∀ v ∈ vs, Src A p xy v)
    {vls : List (VLoc I C)} (hvl : VlsOK st.keys st.qs.length vs vls) {i : Nat} {c : Coords C} {vi : I}
    {q : Nat} (hi : vls[i]? = some (.pending c vi q)) :
    Safe (fun r => Grow A vs st vls r.1 r.2.1 ∧ r.1.keys[r.2.2]? = vs[i]? ∧
      r.2.1 = vls.set i (.inserted c r.2.2)) (St.addVertexVL cfg fuel p xy st vls i vi q) := by
  have hlt := lt_of_get hi
  obtain ⟨v, hv⟩ : ∃ v, vs[i]? = some v := ⟨_, List.getElem?_eq_getElem (by rw [← hvl.len]; exact hlt)⟩
  have hloc := hvl.loc i v _ hv hi
  obtain ⟨rfl, hq⟩ := hloc
  have hs := hvs _ (mem_of_get hv)
  unfold St.addVertexVL
  refine Ens.bind (h.addVertex_safe cfg fuel p xy hs.1 hs.2 hq) fun r hr => ?_
  obtain ⟨st', ni⟩ := r
  obtain ⟨hwf, hk, hss, hqs, hni⟩ := hr
  simp only at hwf hk hss hqs hni
  subst hni
  refine Ens.bind (Ens.getP (by simp)) fun vl hvl' => ?_
  rw [hi] at hvl'
  cases hvl'
  have hlast : st'.keys[st.ns.length]? = some (vi, c) := by
    rw [hk, ← keys_length]; simp
  refine ⟨⟨hwf, ?_, ?_, ?_, hss, hqs, ?_⟩, ?_, rfl⟩
  · refine (hvl.mono (by rw [hk]; exact List.prefix_append ..) hqs).set fun v' hv' => ?_
    rw [hv] at hv'
    cases hv'
    exact ⟨rfl, hlast⟩
  · rw [hk]; exact List.prefix_append ..
  · have hp := pend_set_none (b := .inserted c st.ns.length) hi rfl rfl
    show (st'.keys ++ pend (vls.set i (.inserted c st.ns.length))).Perm _
    rw [hk, List.append_assoc]
    exact List.Perm.append_left _ hp.symm
  · rintro j ⟨c', ni', hj⟩
    by_cases hij : i = j
    · subst hij; exact InsAt.set hlt _ _
    · exact ⟨c', ni', by simp [hij, hj]⟩
  · show st'.keys[st.ns.length]? = _
    rw [hlast, hv]

theorem ne_succ_mod {i n : Nat} (hn : 2 ≤ n) (hi : i < n) : i ≠ (i + 1) % n := by
  intro h
  by_cases h' : i + 1 = n
  · rw [h', Nat.mod_self] at h; omega
  · rw [Nat.mod_eq_of_lt (by omega)] at h; omega

theorem addEnds_safe {st : St I C} (h : WF A st) (cfg : Cfg) (fuel : Nat) (p : PolyList I V)
    (xy : V → Coords C) {vs : List (I × Coords C)} (hvs : ∀ v ∈ vs, Src A p xy v)
    {vls : List (VLoc I C)} (hvl : VlsOK st.keys st.qs.length vs vls) (hlen : 2 ≤ vs.length) (si : Nat) :
    Safe (fun r => Grow A vs st vls r.1 r.2.1 ∧
      r.1.keys[r.2.2.1]? = vs[si]? ∧ r.1.keys[r.2.2.2.1]? = vs[(si + 1) % vs.length]? ∧ si < vs.length ∧
      InsAt r.2.1 si ∧ InsAt r.2.1 ((si + 1) % vs.length) ∧
      r.2.2.2.2 + (pend r.2.1).length = (pend vls).length)
      (St.addEnds cfg fuel p xy st vls si) := by
  unfold St.addEnds
  simp only
  refine Ens.bind (Ens.getP (by simp)) fun vl0 h0 => ?_
  refine Ens.bind (Ens.getP (by simp)) fun vl1 h1 => ?_
  rw [hvl.len] at h1 ⊢
  have hsi : si < vs.length := by rw [← hvl.len]; exact lt_of_get h0
  have hne := ne_succ_mod hlen hsi
  generalize hj : (si + 1) % vs.length = sj at h1 hne ⊢
  have hsj : sj < vs.length := by rw [← hvl.len]; exact lt_of_get h1
  have pl : ∀ (vls : List (VLoc I C)) (i : Nat) c vi q ni, vls[i]? = some (.pending c vi q) →
      1 + (pend (vls.set i (.inserted c ni))).length = (pend vls).length := by
    intro vls i c vi q ni hi
    have := (pend_set_none (b := .inserted c ni) hi rfl rfl).length_eq
    simp only [List.length_cons] at this
    omega
  have two : ∀ i j c0 i0 q0 c1 i1 q1, i ≠ j → i < vls.length → j < vls.length →
      vls[i]? = some (.pending c0 i0 q0) →
      vls[j]? = some (.pending c1 i1 q1) →
      ∀ (Q : St I C × List (VLoc I C) × Nat × Nat × Nat → Prop) (f : Nat → Nat → Nat × Nat × Nat),
      (∀ st' vls' a b, Grow A vs st vls st' vls' → st'.keys[a]? = vs[i]? → st'.keys[b]? = vs[j]? →
        InsAt vls' i → InsAt vls' j → 2 + (pend vls').length = (pend vls).length →
        Q (st', vls', f a b)) →
      Safe Q (do
        let (st, vls, ni0) ← St.addVertexVL cfg fuel p xy st vls i i0 q0
        let (st, vls, ni1) ← St.addVertexVL cfg fuel p xy st vls j i1 q1
        .ok (st, vls, f ni0 ni1)) := by
    intro i j c0 i0 q0 c1 i1 q1 hij hi' hj' hi hj Q f hQ
    refine Ens.bind (addVertexVL_safe h cfg fuel p xy hvs hvl hi) ?_
    rintro ⟨sta, vlsa, na⟩ ⟨hga, hka, hva⟩
    simp only at hga hka hva
    have hj2 : vlsa[j]? = some (.pending c1 i1 q1) := by
      rw [hva, List.getElem?_set]; simp [hij, hj]
    refine Ens.bind (addVertexVL_safe hga.wf cfg fuel p xy hvs hga.ok hj2) ?_
    rintro ⟨stb, vlsb, nb⟩ ⟨hgb, hkb, hvb⟩
    simp only at hgb hkb hvb
    refine hQ stb vlsb na nb (hga.trans hgb) ?_ hkb ?_ ?_ ?_
    · obtain ⟨t, ht⟩ := hgb.keys
      have hlt : na < sta.keys.length := by
        refine lt_of_get (a := vs[i]'(by rw [← hvl.len]; exact hi')) ?_
        rw [hka, List.getElem?_eq_getElem]
      rw [← ht, List.getElem?_append_left hlt, hka]
    · exact hgb.ins i (by rw [hva]; exact InsAt.set hi' _ _)
    · rw [hvb]; exact InsAt.set (by rw [hva]; simpa using hj') _ _
    · have e1 := pl vls i c0 i0 q0 na hi
      have e2 := pl vlsa j c1 i1 q1 nb hj2
      rw [← hva] at e1
      rw [← hvb] at e2
      omega
  have hsi' : si < vls.length := by rw [hvl.len]; exact hsi
  have hsj' : sj < vls.length := by rw [hvl.len]; exact hsj
  obtain ⟨v0, hv0⟩ : ∃ v, vs[si]? = some v := ⟨_, List.getElem?_eq_getElem hsi⟩
  obtain ⟨v1, hv1⟩ : ∃ v, vs[sj]? = some v := ⟨_, List.getElem?_eq_getElem hsj⟩
  have l0 := hvl.loc si v0 vl0 hv0 h0
  have l1 := hvl.loc sj v1 vl1 hv1 h1
  have ext : ∀ {st' : St I C} {ni : Nat} {v : I × Coords C}, st.keys <+: st'.keys →
      st.keys[ni]? = some v → st'.keys[ni]? = some v := by
    rintro st' ni v ⟨t, ht⟩ hk
    rw [← ht, List.getElem?_append_left (lt_of_get hk)]
    exact hk
  rcases vl0 with ⟨c0, i0, q0⟩ | ⟨c0, ni0⟩ <;> rcases vl1 with ⟨c1, i1, q1⟩ | ⟨c1, ni1⟩
  · refine Ens.ite (fun _ => ?_) fun _ => ?_
    · refine two si sj c0 i0 q0 c1 i1 q1 hne hsi' hsj' h0 h1 _ (fun a b => (a, b, 2)) ?_
      intro st' vls' a b hg ha hb ia ib hp
      exact ⟨hg, ha, hb, hsi, ia, ib, hp⟩
    · refine two sj si c1 i1 q1 c0 i0 q0 (Ne.symm hne) hsj' hsi' h1 h0 _ (fun a b => (b, a, 2)) ?_
      intro st' vls' a b hg ha hb ia ib hp
      exact ⟨hg, hb, ha, hsi, ib, ia, hp⟩
  · refine Ens.bind (addVertexVL_safe h cfg fuel p xy hvs hvl h0) ?_
    rintro ⟨sta, vlsa, na⟩ ⟨hga, hka, hva⟩
    simp only at hga hka hva
    refine ⟨hga, hka, ?_, hsi, by rw [hva]; exact InsAt.set hsi' _ _, hga.ins _ ⟨_, _, h1⟩, ?_⟩
    · rw [hv1]; exact ext hga.keys l1.2
    · rw [hva]; exact pl _ _ _ _ _ _ h0
  · refine Ens.bind (addVertexVL_safe h cfg fuel p xy hvs hvl h1) ?_
    rintro ⟨sta, vlsa, na⟩ ⟨hga, hka, hva⟩
    simp only at hga hka hva
    refine ⟨hga, ?_, hka, hsi, hga.ins _ ⟨_, _, h0⟩, by rw [hva]; exact InsAt.set hsj' _ _, ?_⟩
    · rw [hv0]; exact ext hga.keys l0.2
    · rw [hva]; exact pl _ _ _ _ _ _ h1
  · exact ⟨.refl h hvl, by rw [hv0]; exact l0.2, by rw [hv1]; exact l1.2, hsi, ⟨_, _, h0⟩, ⟨_, _, h1⟩,
      by simp⟩

/-- After `add_nth_segment` for side `si`. -/
structure NthPost (A : I × Coords C → Prop) (vs : List (I × Coords C)) (st : St I C)
    (vls : List (VLoc I C)) (si : Nat) (st' : St I C) (vls' : List (VLoc I C)) : Prop where
  wf : WF A st'
  ok : VlsOK st'.keys st'.qs.length vs vls'
  keys : st.keys <+: st'.keys
  perm : (st'.keys ++ pend vls').Perm (st.keys ++ pend vls)
  qs : st.qs.length ≤ st'.qs.length
  ins : ∀ i, InsAt vls i → InsAt vls' i
  ins0 : InsAt vls' si
  ss : ∃ s a b, st'.ss = st.ss ++ [s] ∧ vs[si]? = some a ∧ vs[(si + 1) % vs.length]? = some b ∧
    Joins st'.keys s (a, b)

theorem addNthSegment_safe {st : St I C} (h : WF A st) (cfg : Cfg) (fuel : Nat) (p : PolyList I V)
    (xy : V → Coords C) {vs : List (I × Coords C)} (hvs : ∀ v ∈ vs, Src A p xy v)
    {vls : List (VLoc I C)} (hvl : VlsOK st.keys st.qs.length vs vls) (hlen : 2 ≤ vs.length) (si : Nat) :
    Safe (fun r => NthPost A vs st vls si r.1 r.2.1 ∧
        r.2.2 + (pend r.2.1).length = (pend vls).length)
      (St.addNthSegment cfg fuel p xy st vls si) := by
  unfold St.addNthSegment
  refine Ens.bind (addEnds_safe h cfg fuel p xy hvs hvl hlen si) ?_
  rintro ⟨st', vls', ni0, ni1, added⟩ ⟨hg, hk0, hk1, hsi, hi0, hi1, hp⟩
  simp only at hg hk0 hk1 hi0 hi1 hp ⊢
  have hsj : (si + 1) % vs.length < vs.length := Nat.mod_lt _ (by omega)
  obtain ⟨v0, hv0⟩ : ∃ v, vs[si]? = some v := ⟨_, List.getElem?_eq_getElem hsi⟩
  obtain ⟨v1, hv1⟩ : ∃ v, vs[(si + 1) % vs.length]? = some v := ⟨_, List.getElem?_eq_getElem hsj⟩
  rw [hv0] at hk0
  rw [hv1] at hk1
  have hl0 := lt_of_get hk0
  have hl1 := lt_of_get hk1
  rw [keys_length] at hl0 hl1
  refine Ens.bind (Ens.getU hl0) fun n0 hn0 => ?_
  refine Ens.bind (Ens.getU hl1) fun n1 hn1 => ?_
  have hc0 : n0.c = v0.2 := by rw [← keys_get hk0 hn0]; rfl
  have hc1 : n1.c = v1.2 := by rw [← keys_get hk1 hn1]; rfl
  have fin : ∀ st'' : St I C, ∀ s, WF A st'' ∧ st''.keys = st'.keys ∧
      st''.ss = st'.ss ++ [s] ∧ st'.qs.length ≤ st''.qs.length → Joins st'.keys s (v0, v1) →
      NthPost A vs st vls si st'' vls' ∧ added + (pend vls').length = (pend vls).length := by
    rintro st'' s ⟨a, b, c, d⟩ hj
    refine ⟨⟨a, ?_, ?_, ?_, Nat.le_trans hg.qs d, hg.ins, hi0, ⟨s, v0, v1, ?_, hv0, hv1, ?_⟩⟩, hp⟩
    · rw [b]; exact hg.ok.mono (List.prefix_refl _) d
    · rw [b]; exact hg.keys
    · rw [b]; exact hg.perm
    · rw [c, hg.ss]
    · rw [b]; exact hj
  rw [hc0, hc1]
  by_cases hlt : v0.2.ltB v1.2
  · simp only [hlt, if_true]
    refine Ens.bind (hg.wf.addSegment_safe' cfg fuel hl0 hl1 _ _) fun st'' h'' => ?_
    refine fin st'' _ h'' ?_
    simp [Joins, sortEnds, hlt, hk0, hk1]
  · simp only [hlt]
    refine Ens.bind (hg.wf.addSegment_safe' cfg fuel hl1 hl0 _ _) fun st'' h'' => ?_
    refine fin st'' _ h'' ?_
    simp [Joins, sortEnds, hlt, hk0, hk1]

theorem walk_safe {st : St I C} (h : WF A st) (dir : Dir) (c0 c1 : Coords C) (fuel ti : Nat)
    (hti : ti < st.ts.length) : Safe (· < st.ts.length) (st.walk dir c0 c1 fuel ti) := by
  induction fuel generalizing ti with
  | zero => simp [St.walk, Ens]
  | succ k ih =>
    unfold St.walk
    refine Ens.bind (Ens.getU hti) fun t ht => ?_
    have hok := h.ts t (mem_of_get ht)
    have hr : Safe (fun _ => True) (St.reached st.ns t dir c1) := by
      unfold St.reached
      split
      · exact trivial
      · exact Ens.bind (Ens.getP (by simp)) fun _ _ => trivial
    refine Ens.bind hr fun done _ => Ens.ite (fun _ => hti) fun _ => ?_
    split
    · simp [Ens]
    · rename_i ni hni
      have hni' : ni < st.ns.length := by
        cases dir
        · exact hok.up ni hni
        · exact hok.down ni hni
      refine Ens.bind (Ens.getU hni') fun n hn => ih _ ?_
      have hn0 := h.ns n (mem_of_get hn)
      unfold Nexus.getTrapezoidBetweenCoords
      split
      · exact leftmost_ok hn0 dir
      · rename_i d hd
        have h1 := (hn0.divs d (filterDividers_mem (zot_last_mem hd)).1).1
        have h2 := leftmost_ok hn0 dir
        cases dir <;> simp only at h1 h2 ⊢ <;> split <;> assumption

/-- Where the relocation stands is in range. -/
def RLocOK (st : St I C) : St.Loc → Prop
  | .nexus ni => ni < st.ns.length
  | .trapezoid ti => ti < st.ts.length

theorem relocLoop_safe {st : St I C} (h : WF A st) {vs : List (I × Coords C)} (fuel k : Nat)
    (r : St.Reloc I C) (hvl : VlsOK st.keys st.qs.length vs r.vls) (hloc : RLocOK st r.loc) :
    Safe (fun vls' => VlsOK st.keys st.qs.length vs vls' ∧ pend vls' = pend r.vls ∧
      ∀ i, InsAt r.vls i → InsAt vls' i) (St.relocLoop fuel st k r) := by
  induction k generalizing r with
  | zero => simp [St.relocLoop, Ens]
  | succ k ih =>
    unfold St.relocLoop
    refine Ens.ite (fun _ => ⟨hvl, rfl, fun _ h => h⟩) fun _ => ?_
    have step : Safe (fun r' : St.Reloc I C => VlsOK st.keys st.qs.length vs r'.vls ∧
        RLocOK st r'.loc ∧ pend r'.vls = pend r.vls ∧ ∀ i, InsAt r.vls i → InsAt r'.vls i)
        (St.relocStep fuel st r) := by
      unfold St.relocStep
      refine Ens.bind (Ens.getP (by simp)) fun vl hget => ?_
      have hlt := lt_of_get hget
      obtain ⟨v, hv⟩ : ∃ v, vs[(r.target + 1) % r.vls.length]? = some v :=
        ⟨_, List.getElem?_eq_getElem (by rw [← hvl.len]; exact hlt)⟩
      have hl := hvl.loc _ v vl hv hget
      cases vl with
      | inserted c ni =>
        have hni : ni < st.ns.length := by rw [← keys_length]; exact lt_of_get hl.2
        exact Ens.bind (Ens.getU hni) fun n hn => ⟨hvl, hni, rfl, fun _ h => h⟩
      | pending c vi q =>
        have hst : ∀ dir, Safe (· < st.ts.length) (St.startTrapezoid st r.loc dir c) := by
          intro dir
          unfold St.startTrapezoid
          split
          · rename_i ni hlo
            rw [hlo] at hloc
            refine Ens.bind (Ens.getU hloc) fun n hn => ?_
            have hn0 := h.ns n (mem_of_get hn)
            unfold Nexus.getTrapezoidTowardCoords
            split
            · exact leftmost_ok hn0 dir
            · rename_i d hd
              refine Ens.bind (Ens.getP (by simp)) fun _ _ => ?_
              refine Ens.bind (Ens.getP (by simp)) fun _ _ => ?_
              refine Ens.bind (Ens.getP (by simp)) fun _ _ => ?_
              show (if _ then _ else _) < _
              split
              · exact leftmost_ok hn0 dir
              · exact (hn0.divs d (filterDividers_mem (by rw [hd]; simp [Zot.toList])).1).1
            · simp [Ens]
          · rename_i ti hlo
            rw [hlo] at hloc
            exact hloc
        refine Ens.bind (hst _) fun ti hti => ?_
        refine Ens.bind (walk_safe h _ _ _ _ _ hti) fun ti hti => ?_
        refine Ens.bind (Ens.subP (by simp)) fun u _ => ?_
        refine Ens.bind (Ens.getU hti) fun t ht => ?_
        refine ⟨hvl.set fun v' hv' => ?_, hti, pend_set_same hget rfl, ?_⟩
        · rw [hv] at hv'; cases hv'
          exact ⟨hl.1, (h.ts t (mem_of_get ht)).sink⟩
        · rintro j ⟨c', ni', hj⟩
          refine ⟨c', ni', ?_⟩
          show (r.vls.set _ _)[j]? = _
          rw [List.getElem?_set]
          split
          · rename_i hij
            subst hij
            rw [hget] at hj; cases hj
          · exact hj
    refine Ens.bind step fun r' hr' => ?_
    refine Ens.imp (ih r' hr'.1 hr'.2.1) fun vls' hv' => ?_
    exact ⟨hv'.1, hv'.2.1.trans hr'.2.2.1, fun i hi => hv'.2.2 i (hr'.2.2.2 i hi)⟩

/-- Invariant of the loop of `add_polygon`: the sides `done` have been added. -/
structure PolyInv (A : I × Coords C → Prop) (vs : List (I × Coords C)) (st0 : St I C) (done : List Nat)
    (l : St.PolyLoop I C) : Prop where
  wf : WF A l.st
  ok : VlsOK l.st.keys l.st.qs.length vs l.vls
  keys : st0.keys <+: l.st.keys
  perm : (l.st.keys ++ pend l.vls).Perm (st0.keys ++ vs)
  ins : ∀ i ∈ done, InsAt l.vls i
  pending : l.pending = (pend l.vls).length
  ss : ∃ segs, l.st.ss = st0.ss ++ segs ∧
    List.Forall₂ (fun s i => ∃ a b, vs[i]? = some a ∧ vs[(i + 1) % vs.length]? = some b ∧
      Joins l.st.keys s (a, b)) segs done

theorem Joins.mono {keys keys' : List (I × Coords C)} {s : Segment C}
    {e : (I × Coords C) × (I × Coords C)} (h : Joins keys s e) (hk : keys <+: keys') :
    Joins keys' s e := by
  obtain ⟨t, rfl⟩ := hk
  obtain ⟨h1, h2, h3, h4⟩ := h
  exact ⟨by rw [List.getElem?_append_left (lt_of_get h1)]; exact h1,
    by rw [List.getElem?_append_left (lt_of_get h2)]; exact h2, h3, h4⟩

theorem polyStep_safe (cfg : Cfg) (fuel : Nat) (p : PolyList I V) (xy : V → Coords C)
    {vs : List (I × Coords C)} (hvs : ∀ v ∈ vs, Src A p xy v) (hlen : 2 ≤ vs.length) {st0 : St I C}
    {done : List Nat} {l : St.PolyLoop I C} (h : PolyInv A vs st0 done l) (si : Nat) :
    Safe (PolyInv A vs st0 (done ++ [si])) (St.polyStep cfg fuel p xy l si) := by
  unfold St.polyStep
  refine Ens.bind (addNthSegment_safe h.wf cfg fuel p xy hvs h.ok hlen si) ?_
  rintro ⟨st', vls', added⟩ ⟨hn, hp⟩
  simp only at hn hp ⊢
  refine Ens.bind (Ens.subP (by simp)) fun pd hpd => ?_
  have hpd' : pd = (pend vls').length := by
    have := h.pending; omega
  have hss : ∃ segs, st'.ss = st0.ss ++ segs ∧
      List.Forall₂ (fun s i => ∃ a b, vs[i]? = some a ∧ vs[(i + 1) % vs.length]? = some b ∧
        Joins st'.keys s (a, b)) segs (done ++ [si]) := by
    obtain ⟨segs, hs1, hs2⟩ := h.ss
    obtain ⟨s, a, b, e1, e2, e3, e4⟩ := hn.ss
    refine ⟨segs ++ [s], by rw [e1, hs1, List.append_assoc], ?_⟩
    refine List.rel_append ?_ (.cons ⟨a, b, e2, e3, e4⟩ .nil)
    exact hs2.imp fun s i ⟨a, b, h1, h2, h3⟩ => ⟨a, b, h1, h2, h3.mono hn.keys⟩
  have hpos : 0 < st'.ns.length := by
    obtain ⟨s, a, b, e1, e2, e3, e4⟩ := hn.ss
    have := lt_of_get e4.1
    rw [keys_length] at this
    omega
  have hins : ∀ vls'' : List (VLoc I C), (∀ i, InsAt vls' i → InsAt vls'' i) →
      ∀ i ∈ done ++ [si], InsAt vls'' i := by
    intro vls'' hv i hi
    rcases List.mem_append.1 hi with hi | hi
    · exact hv i (hn.ins i (h.ins i hi))
    · rw [List.mem_singleton.1 hi]; exact hv si hn.ins0
  refine Ens.ite (fun _ => ?_) fun _ => ?_
  · refine Ens.bind (relocLoop_safe hn.wf (vs := vs) fuel fuel _ hn.ok hpos) fun vls'' hv => ?_
    refine ⟨hn.wf, hv.1, h.keys.trans hn.keys, ?_, hins _ hv.2.2, ?_, hss⟩
    · show (st'.keys ++ pend vls'').Perm _
      rw [hv.2.1]; exact hn.perm.trans h.perm
    · show pd = (pend vls'').length
      rw [hv.2.1, hpd']
  · exact ⟨hn.wf, hn.ok, h.keys.trans hn.keys, hn.perm.trans h.perm, hins _ fun _ h => h, hpd', hss⟩

/-- The locations of a polygon before anything is inserted. -/
def startLocs (vs : List (I × Coords C)) : List (VLoc I C) := vs.map fun v => .pending v.2 v.1 0

theorem pend_startLocs (vs : List (I × Coords C)) : pend (startLocs vs) = vs := by
  induction vs with
  | nil => rfl
  | cons v vs ih =>
    simp only [pend, startLocs, List.map_cons, List.filterMap_cons, VLoc.pend] at ih ⊢
    rw [ih]

theorem addPolygon_safe {st : St I C} (h : WF A st) (cfg : Cfg) (fuel : Nat) (p : PolyList I V)
    (xy : V → Coords C) (k : Nat) {vs : List (I × Coords C)} (hvs : ∀ v ∈ vs, Src A p xy v)
    (hlen : 2 ≤ vs.length) :
    Safe (fun st' => ∃ l : St.PolyLoop I C, l.st = st' ∧ PolyInv A vs st (cfg.order k vs.length) l)
      (St.addPolygon cfg fuel p xy k st (startLocs vs)) := by
  unfold St.addPolygon
  have hl : (startLocs vs).length = vs.length := by simp [startLocs]
  rw [hl]
  have h0 : PolyInv A vs st [] ⟨st, startLocs vs, vs.length, 0, 1, cfg.mathN vs.length 1⟩ := by
    refine ⟨h, ⟨hl, ?_⟩, List.prefix_refl _, ?_, by simp, ?_, ⟨[], by simp, .nil⟩⟩
    · intro i v vl h1 h2
      simp only [startLocs, List.getElem?_map, h1, Option.map_some, Option.some.injEq] at h2
      subst h2
      exact ⟨rfl, h.root⟩
    · show (st.keys ++ pend (startLocs vs)).Perm _
      rw [pend_startLocs]
    · show _ = (pend (startLocs vs)).length
      rw [pend_startLocs]
  refine Ens.bind (Ens.foldlM (fun rest l => ∃ done, cfg.order k vs.length = done ++ rest ∧
    PolyInv A vs st done l) ?_ _ _ ⟨[], rfl, h0⟩) ?_
  · rintro a l s ⟨done, hd, hi⟩
    exact Ens.imp (polyStep_safe cfg fuel p xy hvs hlen hi a) fun l' hl' =>
      ⟨done ++ [a], by simp [hd], hl'⟩
  · rintro l ⟨done, hd, hi⟩
    rw [List.append_nil] at hd
    exact ⟨l, rfl, hd ▸ hi⟩

end Tri
