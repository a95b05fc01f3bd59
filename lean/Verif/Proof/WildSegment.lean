import Verif.Proof.WildSafe

/-!
# Trapezoidation with arbitrary user code: threading a segment ends

`Ranked.lean` and `RankedSegment.lean` for the model in which every call of user code has an arbitrary result.
-/

set_option linter.unusedSectionVars false

namespace Tri

variable {I V C : Type}

/-- Running out of steps is allowed, or `n` steps are available. -/
def FuelOK {ε : Type} (E : Fault ε → Prop) (n fuel : Nat) : Prop := E .timeout ∨ n ≤ fuel

theorem FuelOK.le {ε : Type} {E : Fault ε → Prop} {n m fuel fuel' : Nat} (h : FuelOK E n fuel)
    (hm : n ≤ fuel → m ≤ fuel') : FuelOK E m fuel' := h.imp_right hm

theorem Ens.weaken {ε α : Type} {E E' : Fault ε → Prop} {P : α → Prop} {r : Res ε α} (h : Ens E P r)
    (hE : ∀ e, E e → E' e) : Ens E' P r := by
  cases r with
  | ok a => exact h
  | error e => exact hE e h

theorem nexusAddSegment_rankedW {up : Bool} {E : Fault IErr → Prop} (hE : ∀ e, E (.err e)) (hU : up = true → E .panic)
    {ns : List (Nexus I C)} {ss : List (Segment C)} (hss : ∀ s ∈ ss, SegOK ns.length s)
    (hns : ∀ n ∈ ns, ∀ d ∈ n.dividers.toList, d.si < ss.length)
    {ni si : Nat} (hni : ni < ns.length) {s : Segment C} (hs : ss[si]? = some s) (ti : Nat) :
    EnsW E (ListedAt ni ti (if ni = s.niMax then .desc else .asc) ns)
      (Wild.nexusAddSegment up ns ss ni si ti) := by
  unfold Wild.nexusAddSegment
  have hdir : Ens E (fun d => d = if ni = s.niMax then .desc else .asc)
      (Nexus.getSegmentDirection ss ni si) := by
    refine Ens.bind (Ens.getP_lt (lt_of_get hs)) fun s' hs' => ?_
    rw [hs] at hs'
    cases hs'
    refine Ens.ite (fun h => by simp [Ens, h]) fun h =>
      Ens.ite (fun _ => by simp [Ens, h]) fun _ => hE _
  refine EnsW.bind (EnsW.lift hdir) fun dir hd => ?_
  subst hd
  generalize (if ni = s.niMax then Dir.desc else Dir.asc) = dir
  refine EnsW.bind (EnsW.getP_lt hni) fun n hn => ?_
  have key : ∀ z : Zot Divider,
      (∀ d ∈ z.toList, d ∈ n.dividers.toList ∨ d = ⟨si, ti, dir⟩) →
      (DOrd n → DOrd { n with dividers := z }) →
      ListedAt ni ti dir ns (ns.set ni { n with dividers := z }) := by
    intro z hz hdo
    refine ⟨by simp, fun i m hm => ?_⟩
    rw [List.getElem?_set] at hm
    split at hm
    · rename_i hij
      subst hij
      cases hm
      refine ⟨n, hn, hdo, fun d t ht => ?_⟩
      rw [mem_iter] at ht
      simp only [mem_iter]
      rcases ht with rfl | ⟨x, hx, hxd, rfl⟩
      · exact .inl (.inl (by cases d <;> rfl))
      · rcases hz x hx with h | rfl
        · exact .inl (.inr ⟨x, h, hxd, rfl⟩)
        · exact .inr ⟨trivial, rfl, hxd.symm⟩
    · exact ⟨m, hm, fun h => h, fun dir t ht => .inl ht⟩
  split
  · exact EnsW.pure <| key _ (by simp [Zot.toList]) fun _ d0 d1 h => by simp at h
  · rename_i d0 hz
    have hd0 := hns n (mem_of_get hn) d0 (by simp [hz, Zot.toList])
    have hsw : EnsW E (fun b => d0.dir = dir ∨ b = decide (dir = .asc))
        (Wild.swapDividers up ns ss d0 ⟨si, ti, dir⟩) := by
      unfold Wild.swapDividers
      refine EnsW.ite (fun h => ?_) fun _ => EnsW.pure (.inr rfl)
      refine EnsW.bind (EnsW.getP_lt hd0) fun s0 _ => ?_
      refine EnsW.bind (EnsW.getP_lt (lt_of_get hs)) fun s1 hs1 => ?_
      have := hss s1 (mem_of_get hs1)
      refine EnsW.bind (EnsW.getP_lt ?_) fun _ _ => (EnsW.call hU).imp fun _ _ => .inl h
      cases dir
      · exact this.2
      · exact this.1
    refine EnsW.bind hsw fun sw hsw => ?_
    refine EnsW.ite (fun hs => EnsW.pure (key _ ?_ ?_)) fun hs => EnsW.pure (key _ ?_ ?_)
    · simp only [Zot.toList, List.mem_cons, List.not_mem_nil, or_false, hz]
      rintro d (rfl | rfl)
      · exact .inr rfl
      · exact .inl rfl
    · rintro - e0 e1 h h0
      simp only [Zot.two.injEq] at h
      obtain ⟨rfl, rfl⟩ := h
      subst hs
      simp only at h0
      rcases hsw with h | h
      · rw [h, h0]
      · simp [h0] at h
    · simp only [Zot.toList, List.mem_cons, List.not_mem_nil, or_false, hz]
      rintro d (rfl | rfl)
      · exact .inl rfl
      · exact .inr rfl
    · rintro - e0 e1 h h0
      simp only [Zot.two.injEq] at h
      obtain ⟨rfl, rfl⟩ := h
      rcases hsw with h | h
      · exact h.symm.trans h0
      · cases dir
        · simp [h] at hs
        · rfl
  · exact EnsW.stop (hE _)

theorem find_rankedW {up : Bool} {E : Fault IErr → Prop} (hU : up = true → E .panic) {D : Nat}
    {qs : List (QueryNode C)} (h : Deep D qs) {T : Nat} (hq : ∀ q ∈ qs, QOK qs.length T q)
    (fuel qi : Nat) (hqi : qi < qs.length) (hf : FuelOK E (D + 1) fuel) :
    EnsW E (fun r => qs[r.1]? = some (.sink r.2)) (Wild.find up qs fuel qi) := by
  obtain ⟨δ, h1, h2⟩ := h
  replace hf : FuelOK E (D + 1) (fuel + δ qi) := hf.le (by omega)
  induction fuel generalizing qi with
  | zero =>
    rcases hf with hf | hf
    · exact EnsW.stop hf
    · have := h1 qi; omega
  | succ k ih =>
    unfold Wild.find
    refine EnsW.bind (EnsW.getU hqi) fun q hq' => ?_
    have := hq q (mem_of_get hq')
    cases q with
    | branch l r b =>
      have hm := h2 qi l r b hq'
      refine EnsW.bind (EnsW.call hU) fun b _ => ?_
      split
      · exact ih _ this.1 (hf.le (by omega))
      · exact ih _ this.2 (hf.le (by omega))
    | sink t => exact EnsW.pure hq'

theorem debugCheck_rankedW {E : Fault IErr → Prop} (hE : ∀ e, E (.err e)) {st : St I C} (h : WF AnyKey st) {D : Nat} (ho : Deep D st.qs)
    (cfg : Cfg) (hP : cfg.debug = true → E .panic) {fuel : Nat} (hf : FuelOK E (D + 1) fuel) :
    Ens E (fun _ => True) (st.debugCheck cfg fuel) := by
  rcases hf with hf | hf
  · cases hd : cfg.debug with
    | false =>
      unfold St.debugCheck
      rw [hd]
      trivial
    | true =>
      refine (h.debugCheck_safe cfg fuel).weaken fun e he => ?_
      cases e with
      | err e => exact hE e
      | panic => exact hP hd
      | timeout => exact hf
      | ub => exact absurd rfl he
  · exact debugCheck_ranked h ho cfg hP hf

theorem downDir_rankedW {up : Bool} {E : Fault IErr → Prop} (hE : ∀ e, E (.err e)) (hU : up = true → E .panic)
    {T : Nat} {n : Nexus I C}
    {ns : List (Nexus I C)} {ss : List (Segment C)} (h : NexusOK T ss.length AnyKey n)
    (hss : ∀ s ∈ ss, SegOK ns.length s) {s : Segment C} (hs : SegOK ns.length s) :
    EnsW E (· ∈ n.iterTrapezoids .desc) (Wild.downDir up n ns ss s) := by
  unfold Wild.downDir
  split
  · exact EnsW.pure (leftmost_iter n .desc)
  · rename_i d hd
    have hd' := zot_last_mem hd
    have h0 : EnsW E (fun _ => True) (Wild.downTest up ns ss s d) := by
      refine EnsW.bind (EnsW.getP_lt hs.1) fun _ _ => ?_
      refine EnsW.bind (EnsW.call hU) fun b _ => ?_
      refine EnsW.ite (fun _ => EnsW.stop (hE _)) fun _ => ?_
      refine EnsW.bind (EnsW.getP_lt hs.2) fun _ _ => ?_
      refine EnsW.bind (EnsW.call hU) fun b _ => ?_
      refine EnsW.ite (fun _ => ?_) fun _ => EnsW.pure trivial
      refine EnsW.bind (EnsW.getP_lt (h.divs d (filterDividers_mem hd').1).2) fun sr hsr => ?_
      exact EnsW.bind (EnsW.getP_lt (hss sr (mem_of_get hsr)).1) fun _ _ => EnsW.pure trivial
    refine EnsW.bind h0 fun c _ => ?_
    refine EnsW.bind (EnsW.call hU) fun b _ => ?_
    exact EnsW.ite (fun _ => EnsW.pure (filterDividers_iter hd')) fun _ => EnsW.pure (leftmost_iter n .desc)

theorem addSegmentStart_rankedW {up : Bool} {E : Fault IErr → Prop} (hE : ∀ e, E (.err e))
    (hU : up = true → E .panic) {st : St I C}
    (hwf : WF AnyKey st) {ρ : Nat → Nat} (hρ : ∀ i, i < st.ns.length → ρ i < st.ns.length)
    (hr : Ranked ρ st.ns st.ts) (ho : QOrd st.ts st.qs) {niMin niMax : Nat}
    (hmin : niMin < st.ns.length) (hmax : niMax < st.ns.length) (cMin cMax : Coords C) :
    EnsW E (SegRank ρ st niMax) (Wild.addSegmentStart up st niMin niMax cMin cMax) := by
  unfold Wild.addSegmentStart
  have hss : ∀ s ∈ st.ss ++ [⟨niMin, niMax, cMin, cMax⟩], SegOK st.ns.length s := by
    refine forall_append hwf.ss ?_
    intro s hs
    rw [List.mem_singleton] at hs
    subst hs
    exact ⟨hmin, hmax⟩
  refine EnsW.bind (EnsW.getU hmax) fun nMax hnMax => ?_
  refine EnsW.bind (downDir_rankedW hE hU ((hwf.ns nMax (mem_of_get hnMax)).mono (Nat.le_refl _)
    (by simp)) hss ⟨hmin, hmax⟩) fun ti hit => ?_
  have hti := (hwf.ns nMax (mem_of_get hnMax)).iter_lt hit
  refine EnsW.bind (EnsW.getU hti) fun t0 ht0 => ?_
  have hok := hwf.ts t0 (mem_of_get ht0)
  have hown := ho.own ti t0 ht0
  refine EnsW.bind (EnsW.getP_lt hok.sink) fun qLeft hqL => ?_
  rw [hown] at hqL
  cases hqL
  refine EnsW.bind (EnsW.modP_lt hok.sink) fun qs hqs => ?_
  refine EnsW.bind (EnsW.modP_lt hti) fun ts hts => ?_
  obtain ⟨q0, hq0, rfl⟩ := hqs
  obtain ⟨t0', ht0', rfl⟩ := hts
  rw [ht0] at ht0'
  cases ht0'
  refine EnsW.bind (EnsW.getP_lt (by simpa using hti)) fun t' ht' => ?_
  have htt : t' = Trapezoid.setSink st.qs.length t0 := by
    rw [List.getElem?_set_self hti] at ht'
    exact (Option.some.inj ht').symm
  subst htt
  refine EnsW.bind (nexusAddSegment_rankedW hE hU hss (fun n hn d hd => by
      have := ((hwf.ns n hn).divs d hd).2
      simp; omega) hmax (s := ⟨niMin, niMax, cMin, cMax⟩) (by simp) _) fun ns hns => ?_
  obtain ⟨hlen, hns⟩ := hns
  simp only [if_true] at hns
  -- the trapezoids
  have hts : ∀ j t, ((st.ts.set ti (Trapezoid.setSink st.qs.length t0)).set ti
      ((Trapezoid.setSink st.qs.length t0).splitVertical st.qs.length (st.qs.length + 1)
        st.ss.length).1 ++ [((Trapezoid.setSink st.qs.length t0).splitVertical st.qs.length
          (st.qs.length + 1) st.ss.length).2])[j]? = some t →
      (j ≠ ti ∧ st.ts[j]? = some t) ∨
      (j = ti ∧ t.down = t0.down ∧ t.up = t0.up ∧ t.sink = st.qs.length) ∨
      (j = st.ts.length ∧ t.down = t0.down ∧ t.up = t0.up ∧ t.sink = st.qs.length + 1) := by
    intro j t hj
    rw [List.getElem?_append] at hj
    split at hj
    · rw [List.set_set, List.getElem?_set] at hj
      split at hj
      · rename_i hij
        subst hij
        cases hj
        exact .inr (.inl ⟨rfl, rfl, rfl, rfl⟩)
      · rename_i hij
        exact .inl ⟨fun h => hij h.symm, hj⟩
    · rename_i hge
      obtain ⟨h1, h2⟩ := List.getElem?_eq_some_iff.1 hj
      simp only [List.length_singleton, List.length_set] at h1 hge
      have : j = st.ts.length := by omega
      subst this
      simp at h2
      subst h2
      exact .inr (.inr ⟨rfl, rfl, rfl, rfl⟩)
  have hL : ((st.ts.set ti (Trapezoid.setSink st.qs.length t0)).set ti
      ((Trapezoid.setSink st.qs.length t0).splitVertical st.qs.length (st.qs.length + 1)
        st.ss.length).1 ++ [((Trapezoid.setSink st.qs.length t0).splitVertical st.qs.length
          (st.qs.length + 1) st.ss.length).2]).length = st.ts.length + 1 := by simp
  simp only [Trapezoid.splitVertical] at hts hL ⊢
  generalize ((st.ts.set ti (Trapezoid.setSink st.qs.length t0)).set ti
      (Trapezoid.mk (Trapezoid.setSink st.qs.length t0).left (some st.ss.length)
        (Trapezoid.setSink st.qs.length t0).down (Trapezoid.setSink st.qs.length t0).up
        st.qs.length) ++ [Trapezoid.mk (some st.ss.length)
          (Trapezoid.setSink st.qs.length t0).right (Trapezoid.setSink st.qs.length t0).down
          (Trapezoid.setSink st.qs.length t0).up (st.qs.length + 1)]) = ts' at hts hL ⊢
  refine EnsW.bind (EnsW.getU (by omega)) fun t2 ht2 => ?_
  have hdown2 : t2.down = t0.down := by
    rcases hts _ _ ht2 with ⟨h, -⟩ | ⟨-, h, -⟩ | ⟨-, h, -⟩
    · exact absurd rfl h
    · exact h
    · exact h
  split
  · exact EnsW.stop (hE _)
  rename_i ni hni
  rw [hdown2] at hni
  have hnilt : ni < st.ns.length := hok.down ni hni
  refine EnsW.bind (EnsW.getU (by omega)) fun n hn => ?_
  refine EnsW.bind (EnsW.call hU) fun left _ => ?_
  refine EnsW.bind (EnsW.lift (replaceAt_ranked hE _ _ _ _ ?_)) fun ns' hns' => ?_
  · intro i hi
    split at hi
    · cases hi; omega
    · cases hi
  obtain ⟨hlen', hns'⟩ := hns'
  -- trapezoids keep their ends
  have hts0 : ∀ j t, ts'[j]? = some t → ∃ k t', st.ts[k]? = some t' ∧ t.down = t'.down ∧
      t.up = t'.up ∧ (j = k ∨ j = st.ts.length ∧ k = ti) := by
    intro j t hj
    rcases hts j t hj with ⟨-, h⟩ | ⟨rfl, h1, h2, -⟩ | ⟨rfl, h1, h2, -⟩
    · exact ⟨j, t, h, rfl, rfl, .inl rfl⟩
    · exact ⟨j, t0, ht0, h1, h2, .inl rfl⟩
    · exact ⟨ti, t0, ht0, h1, h2, .inr ⟨rfl, rfl⟩⟩
  -- listed trapezoids were listed, up to `ti` for the new one
  have hlist : ∀ (i : Nat) (n' : Nexus I C), ns'[i]? = some n' →
      ∃ n : Nexus I C, st.ns[i]? = some n ∧ (DOrd n → DOrd n') ∧
      ∀ dir, ∀ k ∈ n'.iterTrapezoids dir, ∀ t, ts'[k]? = some t →
        ∃ k' t', k' ∈ n.iterTrapezoids dir ∧ st.ts[k']? = some t' ∧ t.down = t'.down ∧
          t.up = t'.up := by
    intro i n' hn'
    obtain ⟨n1, hn1, hd1, hit1⟩ := hns' i n' hn'
    obtain ⟨n0, hn0, hd0, hit0⟩ := hns i n1 hn1
    refine ⟨n0, hn0, fun h => hd1 (hd0 h), fun dir k hk t ht => ?_⟩
    have hlt0 : ∀ k, k ∈ n0.iterTrapezoids dir → k < st.ts.length :=
      fun k hk => (hwf.ns n0 (mem_of_get hn0)).iter_lt hk
    have key : ∀ k, k ∈ n1.iterTrapezoids dir → ∀ t, ts'[k]? = some t →
        ∃ k' t', k' ∈ n0.iterTrapezoids dir ∧ st.ts[k']? = some t' ∧ t.down = t'.down ∧
          t.up = t'.up := by
      intro j hj y hy
      obtain ⟨k', t'', ht'', h1, h2, h3⟩ := hts0 j y hy
      rcases hit0 dir j hj with hj | ⟨rfl, rfl, rfl⟩
      · rcases h3 with rfl | ⟨rfl, -⟩
        · exact ⟨j, t'', hj, ht'', h1, h2⟩
        · exact absurd (hlt0 _ hj) (Nat.lt_irrefl _)
      · rcases h3 with rfl | ⟨-, rfl⟩
        · exact absurd (lt_of_get ht'') (Nat.lt_irrefl _)
        · rw [hnMax] at hn0
          cases hn0
          exact ⟨k', t'', hit, ht'', h1, h2⟩
    rcases hit1 dir k hk with hk | ⟨-, rfl, hk2⟩
    · exact key k hk t ht
    · obtain ⟨k2, t2, ha, hb, hc, hd⟩ := key ti hk2 _ ht2
      rcases hts _ _ ht with ⟨-, h⟩ | ⟨h, -⟩ | ⟨-, e1, e2, -⟩
      · exact absurd (lt_of_get h) (Nat.lt_irrefl _)
      · omega
      · refine ⟨k2, t2, ha, hb, ?_, ?_⟩
        · rw [e1, ← hdown2, hc]
        · rcases hts _ _ ht2 with ⟨h, -⟩ | ⟨-, -, h, -⟩ | ⟨-, -, h, -⟩
          · exact absurd rfl h
          · rw [e2, ← h, hd]
          · rw [e2, ← h, hd]
  refine EnsW.pure ⟨⟨?_, ?_, ?_, ?_⟩, ⟨?_, ?_⟩, ?_, ?_, ?_, ?_, ?_, ?_⟩
  · intro t ht d u hd hu
    obtain ⟨j, hj⟩ := List.getElem?_of_mem ht
    obtain ⟨k, t', ht', h1, h2, -⟩ := hts0 j t hj
    exact hr.trap t' (mem_of_get ht') d u (h1 ▸ hd) (h2 ▸ hu)
  · intro i n' hn' k hk t ht u hu
    obtain ⟨n, hn, -, hit⟩ := hlist i n' hn'
    obtain ⟨k', t', hk', ht', -, h2⟩ := hit .asc k hk t ht
    exact hr.above i n hn k' hk' t' ht' u (h2 ▸ hu)
  · intro i n' hn' k hk t ht d hd
    obtain ⟨n, hn, -, hit⟩ := hlist i n' hn'
    obtain ⟨k', t', hk', ht', h1, -⟩ := hit .desc k hk t ht
    exact hr.below i n hn k' hk' t' ht' d (h1 ▸ hd)
  · intro n' hn'
    obtain ⟨i, hi⟩ := List.getElem?_of_mem hn'
    obtain ⟨n, hn, hd, -⟩ := hlist i n' hi
    exact hd (hr.dord n (mem_of_get hn))
  · intro i l r b hi
    simp only at hi
    rw [List.getElem?_append] at hi
    split at hi
    · rw [List.getElem?_set] at hi
      split at hi
      · rename_i hij
        subst hij
        have := hok.sink
        simp only [this, if_true, Option.some.injEq, QueryNode.branch.injEq] at hi
        omega
      · exact ho.mono i l r b hi
    · have := mem_of_get hi
      simp at this
  · intro i t hi
    simp only at hi ⊢
    rcases hts i t hi with ⟨hne, h1⟩ | ⟨rfl, -, -, h3⟩ | ⟨rfl, -, -, h3⟩
    · have h2 := ho.own i t h1
      have hlt := lt_of_get h2
      rw [List.getElem?_append_left (by simpa using hlt), List.getElem?_set]
      split
      · rename_i hij
        rw [← hij, hown] at h2
        simp only [Option.some.injEq, QueryNode.sink.injEq] at h2
        exact absurd h2.symm hne
      · exact h2
    · rw [h3, List.getElem?_append_right (by simp)]
      simp
    · rw [h3, List.getElem?_append_right (by simp)]
      simp
  · intro t ht
    simp only at ht ⊢
    rcases hts _ t ht with ⟨h, -⟩ | ⟨-, h1, -, h3⟩ | ⟨-, h1, -, h3⟩
    · exact absurd rfl h
    · exact ⟨h1.trans hni, by omega⟩
    · exact ⟨h1.trans hni, by omega⟩
  · intro t ht
    simp only at ht ⊢
    rcases hts _ t ht with ⟨-, h⟩ | ⟨-, h1, -, h3⟩ | ⟨-, h1, -, h3⟩
    · exact absurd (lt_of_get h) (Nat.lt_irrefl _)
    · exact ⟨h1.trans hni, by omega⟩
    · exact ⟨h1.trans hni, by omega⟩
  · intro i t ht hs
    simp only at ht ⊢
    rcases hts _ t ht with ⟨-, h⟩ | ⟨-, h1, -, h3⟩ | ⟨-, h1, -, h3⟩
    · have := (hwf.ts t (mem_of_get h)).sink
      omega
    · exact ⟨ni, h1.trans hni, Nat.le_refl _⟩
    · exact ⟨ni, h1.trans hni, Nat.le_refl _⟩
  · exact hr.below niMax nMax hnMax ti hit t0 ht0 ni hni
  · exact (QLev.refl st.qs).set hok.sink (Nat.le_refl _) (Nat.le_succ _) (by simp)
  · have := hρ ni hnilt
    simp only [List.length_append, List.length_set, List.length_cons, List.length_nil]
    omega

theorem addSegmentStep_rankedW {up : Bool} {E : Fault IErr → Prop} (hE : ∀ e, E (.err e))
    (hU : up = true → E .panic) {st0 : St I C}
    {ρ : Nat → Nat} {s : Segment C} (hs : SegOK st0.ns.length s) {niMax : Nat}
    {l : St.SegLoop I C} (hi : SegInv AnyKey st0 s l) (h : SegRank ρ st0 niMax l) :
    EnsW E (fun l' => SegRank ρ st0 niMax l' ∧ ρ l'.ni < ρ l.ni)
      (Wild.addSegmentStep up st0.ss.length s l) := by
  have hwf := hi.wf
  have hnl : l.st.ns.length = st0.ns.length := by
    have := congrArg List.length hi.keys
    simpa [St.keys] using this
  obtain ⟨hr, ho, hdl, hdr, hsinks, htop, hlev, hpot⟩ := h
  unfold Wild.addSegmentStep
  refine EnsW.bind (EnsW.getU hi.ni) fun n hn => ?_
  refine EnsW.bind (downDir_rankedW hE hU (hwf.ns n (mem_of_get hn)) hwf.ss (hnl ▸ hs)) fun ti hit => ?_
  have hti := (hwf.ns n (mem_of_get hn)).iter_lt hit
  refine EnsW.bind (EnsW.getU hti) fun t ht => ?_
  have hok := hwf.ts t (mem_of_get ht)
  split
  · exact EnsW.stop (hE _)
  rename_i m hm
  have hmlt := hok.down m hm
  have hlt : ρ m < ρ l.ni := hr.below l.ni n hn ti hit t ht m hm
  have hold : t.sink < st0.qs.length := by
    rcases Nat.lt_or_ge t.sink st0.qs.length with h | h
    · exact h
    · obtain ⟨d, hd, hle⟩ := hsinks ti t ht h
      rw [hm] at hd
      cases hd
      omega
  have hown := ho.own ti t ht
  refine EnsW.bind (EnsW.getU hi.left) fun tl htl => ?_
  refine EnsW.bind (EnsW.getU hi.right) fun tr htr => ?_
  obtain ⟨hdl1, hdl2⟩ := hdl tl htl
  obtain ⟨hdr1, hdr2⟩ := hdr tr htr
  have hnel : ti ≠ l.tiUpleft := by
    rintro rfl
    rw [ht] at htl
    cases htl
    rw [hm] at hdl1
    cases hdl1
    omega
  have hner : ti ≠ l.tiUpright := by
    rintro rfl
    rw [ht] at htr
    cases htr
    rw [hm] at hdr1
    cases hdr1
    omega
  -- both directions: trapezoid `ta` is extended down to `m`, `ti` becomes the other side
  have fin : ∀ (ta : Nat) (t1 t1' : Trapezoid) (a b : Nat) (x : Branch C) (c : Option Nat)
      (ns' : List (Nexus I C)) (tU tR : Nat), ti ≠ ta → l.st.ts[ta]? = some t1 →
      t1.down = some l.ni → st0.qs.length ≤ t1.sink →
      st0.qs.length ≤ a → st0.qs.length ≤ b →
      t1'.down = t.down → t1'.up = t.up → t1'.sink = l.st.qs.length →
      (∀ i, c = some i → i = m) → RelistedAt c ti ta l.st.ns ns' →
      (tU = ti ∨ tU = ta) → (tR = ti ∨ tR = ta) →
      SegRank ρ st0 niMax ⟨⟨ns', l.st.ss, (l.st.ts.set ti t1').set ta (t1.setDown m),
        l.st.qs.set t.sink (.branch a b x) ++ [.sink ti]⟩, m, tU, tR⟩ ∧ ρ m < ρ l.ni := by
    intro ta t1 t1' a b x c ns' tU tR hne h1 h1d h1s ha hb e1 e2 e3 hc hns hU hR
    obtain ⟨hlen, hns⟩ := hns
    have hta := lt_of_get h1
    have hts : ∀ j y, ((l.st.ts.set ti t1').set ta (t1.setDown m))[j]? = some y →
        (j ≠ ti ∧ j ≠ ta ∧ l.st.ts[j]? = some y) ∨ (j = ti ∧ y = t1') ∨
          (j = ta ∧ y = t1.setDown m) := by
      intro j y hj
      rw [List.getElem?_set] at hj
      split at hj
      · rename_i hij
        subst hij
        simp only [List.length_set, hta, if_true, Option.some.injEq] at hj
        exact .inr (.inr ⟨rfl, hj.symm⟩)
      · rename_i hij
        rw [List.getElem?_set] at hj
        split at hj
        · rename_i hij'
          subst hij'
          cases hj
          exact .inr (.inl ⟨rfl, rfl⟩)
        · rename_i hij'
          exact .inl ⟨fun h => hij' h.symm, fun h => hij h.symm, hj⟩
    have hupa : ∀ u, t1.up = some u → ρ m < ρ u := by
      intro u hu
      have := hr.trap t1 (mem_of_get h1) _ u h1d hu
      omega
    have hda : ∀ d, (t1.setDown m).down = some d → d = m := by
      intro d hd
      simp only [Trapezoid.setDown, Option.some.injEq] at hd
      exact hd.symm
    refine ⟨⟨⟨?_, ?_, ?_, ?_⟩, ⟨?_, ?_⟩, ?_, ?_, ?_, ?_, ?_, ?_⟩, hlt⟩
    · intro y hy d u hd hu
      obtain ⟨j, hj⟩ := List.getElem?_of_mem hy
      rcases hts j y hj with ⟨-, -, h⟩ | ⟨-, rfl⟩ | ⟨-, rfl⟩
      · exact hr.trap y (mem_of_get h) d u hd hu
      · exact hr.trap t (mem_of_get ht) d u (e1 ▸ hd) (e2 ▸ hu)
      · rw [hda d hd]
        exact hupa u hu
    · intro i n' hn' k hk y hy u hu
      obtain ⟨n0, hn0, -, hit0⟩ := hns i n' hn'
      have hi0 : i < l.st.ns.length := lt_of_get hn0
      rcases hit0 .asc k hk with hk | ⟨hci, rfl, hk⟩
      · rcases hts k y hy with ⟨-, -, h⟩ | ⟨rfl, rfl⟩ | ⟨rfl, rfl⟩
        · exact hr.above i n0 hn0 k hk y h u hu
        · exact hr.above i n0 hn0 k hk t ht u (e2 ▸ hu)
        · exact hr.above i n0 hn0 k hk t1 h1 u hu
      · rcases hts _ y hy with ⟨-, h, -⟩ | ⟨h, -⟩ | ⟨-, rfl⟩
        · exact absurd rfl h
        · exact absurd h.symm hne
        · rw [hc i hci]
          exact hupa u hu
    · intro i n' hn' k hk y hy d hd
      obtain ⟨n0, hn0, -, hit0⟩ := hns i n' hn'
      rcases hit0 .desc k hk with hk | ⟨hci, rfl, hk⟩
      · rcases hts k y hy with ⟨-, -, h⟩ | ⟨rfl, rfl⟩ | ⟨rfl, rfl⟩
        · exact hr.below i n0 hn0 k hk y h d hd
        · exact hr.below i n0 hn0 k hk t ht d (e1 ▸ hd)
        · have := hr.below i n0 hn0 k hk t1 h1 _ h1d
          rw [hda d hd]
          omega
      · have := hr.below i n0 hn0 ti hk t ht m hm
        rw [hc i hci] at this
        omega
    · intro n' hn'
      obtain ⟨i, hi⟩ := List.getElem?_of_mem hn'
      obtain ⟨n, hn, hd, -⟩ := hns i n' hi
      exact hd (hr.dord n (mem_of_get hn))
    · intro i p r b' hi
      simp only at hi
      rw [List.getElem?_append] at hi
      split at hi
      · rw [List.getElem?_set] at hi
        split at hi
        · rename_i hij
          subst hij
          simp only [hok.sink, if_true, Option.some.injEq, QueryNode.branch.injEq] at hi
          omega
        · exact ho.mono i p r b' hi
      · have := mem_of_get hi
        simp at this
    · have hoth : ∀ i y, i ≠ ti → l.st.ts[i]? = some y →
          (l.st.qs.set t.sink (.branch a b x) ++ [.sink ti])[y.sink]? = some (.sink i) := by
        intro i y hne hy
        have h2 := ho.own i y hy
        have hlt := lt_of_get h2
        rw [List.getElem?_append_left (by simpa using hlt), List.getElem?_set]
        split
        · rename_i hij
          rw [← hij, hown] at h2
          simp only [Option.some.injEq, QueryNode.sink.injEq] at h2
          exact absurd h2.symm hne
        · exact h2
      intro i y hy
      simp only at hy ⊢
      rcases hts i y hy with ⟨hne, -, h⟩ | ⟨rfl, rfl⟩ | ⟨rfl, rfl⟩
      · exact hoth i y hne h
      · rw [e3, List.getElem?_append_right (by simp)]
        simp
      · exact hoth i t1 (Ne.symm hne) h1
    all_goals
      have hq : st0.qs.length ≤ l.st.qs.length := hi.qs
      have side : ∀ k, (k = ti ∨ k = ta) → ∀ y,
          ((l.st.ts.set ti t1').set ta (t1.setDown m))[k]? = some y →
          y.down = some m ∧ st0.qs.length ≤ y.sink := by
        rintro k hk y hy
        rcases hts k y hy with ⟨h2, h3, -⟩ | ⟨-, rfl⟩ | ⟨-, rfl⟩
        · rcases hk with rfl | rfl
          · exact absurd rfl h2
          · exact absurd rfl h3
        · exact ⟨e1.trans hm, by omega⟩
        · exact ⟨rfl, h1s⟩
    · exact side _ hU
    · exact side _ hR
    · intro i y hy hys
      simp only at hy ⊢
      rcases hts i y hy with ⟨-, -, h⟩ | ⟨rfl, rfl⟩ | ⟨rfl, rfl⟩
      · obtain ⟨d, hd, hle⟩ := hsinks i y h hys
        exact ⟨d, hd, by omega⟩
      · exact ⟨m, e1.trans hm, Nat.le_refl _⟩
      · exact ⟨m, rfl, Nat.le_refl _⟩
    · show ρ m < ρ niMax
      omega
    · exact hlev.set hold ha hb (by simp)
    · simp only [List.length_append, List.length_set, List.length_cons, List.length_nil]
      omega
  refine EnsW.ite (fun _ => ?_) fun _ => EnsW.ite (fun _ => ?_) fun _ => EnsW.stop (hE _)
  · refine EnsW.bind (EnsW.getP_lt hok.sink) fun qL hqL => ?_
    refine EnsW.bind (EnsW.modP_lt hok.sink) fun qs hqs => ?_
    obtain ⟨q0, hq0, rfl⟩ := hqs
    refine EnsW.bind (EnsW.modP_lt hti) fun ts1 hts1 => ?_
    obtain ⟨t1, ht1, rfl⟩ := hts1
    refine EnsW.bind (EnsW.modP_lt (by simpa using hti)) fun ts2 hts2 => ?_
    obtain ⟨t2, ht2, rfl⟩ := hts2
    refine EnsW.bind (EnsW.modP_lt (by simpa using hi.right)) fun ts3 hts3 => ?_
    obtain ⟨t3, ht3, rfl⟩ := hts3
    refine EnsW.bind (EnsW.getU hmlt) fun n2 hn2 => ?_
    refine EnsW.bind (EnsW.call hU) fun left _ => ?_
    refine EnsW.bind (EnsW.lift (replaceAt_ranked hE _ _ _ _ ?_)) fun ns' hns' => ?_
    · intro i hi
      split at hi
      · cases hi; exact hmlt
      · cases hi
    rw [ht] at ht1
    cases ht1
    rw [hown] at hqL
    cases hqL
    rw [List.getElem?_set_self hti] at ht2
    cases ht2
    rw [List.set_set, List.getElem?_set_ne hner, htr] at ht3
    cases ht3
    rw [List.set_set]
    refine EnsW.pure <| fin l.tiUpright tr _ _ _ _ _ ns' _ _ hner htr hdr1 hdr2 ?_ ?_ rfl rfl rfl ?_ hns'
      (.inl rfl) (.inr rfl)
    · exact hi.qs
    · exact hdr2
    · intro i hi
      split at hi
      · cases hi; rfl
      · cases hi
  · refine EnsW.bind (EnsW.getP_lt hok.sink) fun qL hqL => ?_
    refine EnsW.bind (EnsW.modP_lt hok.sink) fun qs hqs => ?_
    obtain ⟨q0, hq0, rfl⟩ := hqs
    refine EnsW.bind (EnsW.modP_lt hti) fun ts1 hts1 => ?_
    obtain ⟨t1, ht1, rfl⟩ := hts1
    refine EnsW.bind (EnsW.modP_lt (by simpa using hti)) fun ts2 hts2 => ?_
    obtain ⟨t2, ht2, rfl⟩ := hts2
    refine EnsW.bind (EnsW.modP_lt (by simpa using hi.left)) fun ts3 hts3 => ?_
    obtain ⟨t3, ht3, rfl⟩ := hts3
    refine EnsW.bind (EnsW.getU hmlt) fun n2 hn2 => ?_
    refine EnsW.bind (EnsW.call hU) fun left _ => ?_
    refine EnsW.bind (EnsW.lift (replaceAt_ranked hE _ _ _ _ ?_)) fun ns' hns' => ?_
    · intro i hi
      split at hi
      · cases hi; exact hmlt
      · cases hi
    rw [ht] at ht1
    cases ht1
    rw [hown] at hqL
    cases hqL
    rw [List.getElem?_set_self hti] at ht2
    cases ht2
    rw [List.set_set, List.getElem?_set_ne hnel, htl] at ht3
    cases ht3
    rw [List.set_set]
    refine EnsW.pure <| fin l.tiUpleft tl _ _ _ _ _ ns' _ _ hnel htl hdl1 hdl2 ?_ ?_ rfl rfl rfl ?_ hns'
      (.inr rfl) (.inl rfl)
    · exact hdl2
    · exact hi.qs
    · intro i hi
      split at hi
      · cases hi; rfl
      · cases hi

theorem addSegmentLoop_rankedW {up : Bool} {E : Fault IErr → Prop} (hE : ∀ e, E (.err e))
    (hU : up = true → E .panic) {st0 : St I C}
    {ρ : Nat → Nat} {s : Segment C} (hs : SegOK st0.ns.length s) {niMax : Nat} (fuel : Nat)
    {l : St.SegLoop I C} (hi : SegInv AnyKey st0 s l) (h : SegRank ρ st0 niMax l) (hf : FuelOK E (ρ l.ni + 1) fuel) :
    EnsW E (fun l' => SegInv AnyKey st0 s l' ∧ SegRank ρ st0 niMax l' ∧ l'.ni = s.niMin)
      (Wild.addSegmentLoop up st0.ss.length s fuel l) := by
  induction fuel generalizing l with
  | zero =>
    rcases hf with hf | hf
    · exact EnsW.stop hf
    · omega
  | succ k ih =>
    unfold Wild.addSegmentLoop
    refine EnsW.ite (fun he => EnsW.pure ⟨hi, h, he⟩) fun _ => ?_
    refine EnsW.bind ((addSegmentStep_rankedW hE hU hs hi h).with (addSegmentStep_safeW (up := up) hi)) fun l' hl' => ?_
    exact ih hl'.2 hl'.1.1 (hf.le (by omega))

theorem addSegment_rankedW {up : Bool} {E : Fault IErr → Prop} (hE : ∀ e, E (.err e))
    (hU : up = true → E .panic) {N : Nat} {st : St I C}
    (hwf : WF AnyKey st) (h : Tidy N st) (hN : st.ns.length ≤ N) (cfg : Cfg)
    (hP : cfg.debug = true → E .panic) {fuel : Nat}
    (hf : FuelOK E (st.ns.length + st.ss.length + 2) fuel)
    {niMin niMax : Nat} (hmin : niMin < st.ns.length) (hmax : niMax < st.ns.length)
    (cMin cMax : Coords C) :
    EnsW E (Tidy N) (Wild.addSegment up cfg fuel st niMin niMax cMin cMax) := by
  obtain ⟨⟨ρ, hρ, hr⟩, ho, hsz, hdp⟩ := h
  unfold Wild.addSegment
  refine EnsW.bind ((addSegmentStart_rankedW hE hU hwf hρ hr ho hmin hmax cMin cMax).with
    (addSegmentStart_safeW (up := up) hwf hmin hmax cMin cMax)) ?_
  rintro l ⟨hl, hi⟩
  have hnl : l.st.ns.length = st.ns.length := by
    have := congrArg List.length hi.keys
    simpa [St.keys] using this
  have hmul : (st.ss.length + 1) * (N + 2) = st.ss.length * (N + 2) + (N + 2) := Nat.succ_mul _ _
  refine EnsW.bind (addSegmentLoop_rankedW hE hU ⟨hmin, hmax⟩ fuel hi hl ?_) ?_
  · have := hρ l.ni (by have := hi.ni; omega)
    exact hf.le (by omega)
  rintro l ⟨hi, hl, hni⟩
  simp only at hni
  have hnl : l.st.ns.length = st.ns.length := by
    have := congrArg List.length hi.keys
    simpa [St.keys] using this
  have hss : ∀ s ∈ l.st.ss, SegOK l.st.ns.length s := hi.wf.ss
  refine EnsW.bind ((nexusAddSegment_rankedW hE hU hss (fun n hn d hd => ((hi.wf.ns n hn).divs d hd).2)
    (by omega) (s := ⟨niMin, niMax, cMin, cMax⟩) (by rw [hi.ss]; simp) _).with
    (nexusAddSegment_safeW (up := up) hi.wf.ns niMin (by rw [hi.ss]; simp) hi.right)) ?_
  rintro ns ⟨⟨hlen, hns⟩, hnp⟩
  have hne : niMin ≠ niMax := by
    rintro rfl
    have := hl.top
    rw [hni] at this
    omega
  simp only [if_neg hne] at hns
  have hwf' : WF AnyKey { l.st with ns := ns } := by
    refine ⟨hnp.1, ?_, ?_, hi.wf.qs, hi.wf.root, ?_⟩
    · simpa [hlen] using hi.wf.ss
    · simpa [hlen] using hi.wf.ts
    · simpa [hlen] using hi.wf.size
  have hsl : l.st.ss.length = st.ss.length + 1 := by rw [hi.ss]; simp
  have hpot := hl.pot
  have hsz' : l.st.qs.length ≤ 1 + 2 * st.ns.length + (st.ss.length + 1) * (N + 2) := by omega
  have hdp' := hdp.step hwf.qs hl.lev
  refine EnsW.bind (EnsW.lift (debugCheck_rankedW hE hwf' hdp' cfg hP (hf.le fun hf => by omega))) fun _ _ => ?_
  refine EnsW.pure ⟨⟨ρ, ?_, ?_, ?_, ?_, ?_⟩, hl.ord, ?_, ?_⟩
  · intro i hi
    simp only [hlen, hnl] at hi ⊢
    exact hρ i hi
  · exact hl.rank.trap
  · intro i n' hn' k hk t ht u hu
    obtain ⟨n, hn, -, hit⟩ := hns i n' hn'
    rcases hit .asc k hk with hk | ⟨rfl, rfl, -⟩
    · exact hl.rank.above i n hn k hk t ht u hu
    · have hd := (hl.dr t ht).1
      rw [hni] at hd
      exact hl.rank.trap t (mem_of_get ht) i u hd hu
  · intro i n' hn' k hk t ht d hd
    obtain ⟨n, hn, -, hit⟩ := hns i n' hn'
    rcases hit .desc k hk with hk | ⟨-, -, h⟩
    · exact hl.rank.below i n hn k hk t ht d hd
    · cases h
  · intro n' hn'
    obtain ⟨i, hi⟩ := List.getElem?_of_mem hn'
    obtain ⟨n, hn, hd, -⟩ := hns i n' hi
    exact hd (hl.rank.dord n (mem_of_get hn))
  · simp only [hlen, hnl, hsl]
    exact hsz'
  · simp only [hlen, hnl, hsl]
    exact hdp'

theorem addVertex_rankedW {up : Bool} {E : Fault IErr → Prop} (hE : ∀ e, E (.err e))
    (hU : up = true → E .panic) {N : Nat} {st : St I C}
    (hwf : WF AnyKey st) (h : Tidy N st) (cfg : Cfg) (hP : cfg.debug = true → E .panic) {fuel : Nat}
    (hf : FuelOK E (st.ns.length + st.ss.length + 2) fuel) {qi : Nat} (hq : qi < st.qs.length) :
    EnsW E (fun r => Tidy N r.1) (Wild.addVertex up cfg fuel st qi) := by
  unfold Wild.addVertex
  refine EnsW.bind (EnsW.call hU) fun _ _ => ?_
  refine EnsW.bind (find_rankedW hU h.deep hwf.qs fuel qi hq (hf.le (by omega))) fun r hr => ?_
  have hti : r.2 < st.ts.length := hwf.qs _ (mem_of_get hr)
  refine EnsW.bind (EnsW.call hU) fun c _ => ?_
  refine EnsW.bind (EnsW.call hU) fun vi _ => ?_
  refine EnsW.bind (EnsW.lift ((addVertexAt_ranked hE hwf h vi c hr).with
    (hwf.addVertexAt_safe (A := AnyKey) trivial hti))) ?_
  rintro st' ⟨ht, hwf', hk, hs, -⟩
  have hlen : st'.ns.length = st.ns.length + 1 := by
    have := congrArg List.length hk
    simpa [St.keys] using this
  refine EnsW.bind (EnsW.lift (debugCheck_rankedW hE hwf' ht.deep cfg hP (hf.le (by rw [hlen, hs]; omega)))) fun _ _ => ?_
  exact EnsW.pure ht

end Tri
