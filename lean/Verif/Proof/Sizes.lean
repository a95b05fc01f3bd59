import Verif.Proof.Locs

/-!
# What a whole `trapezoidize` run stores
-/

set_option linter.unusedSectionVars false

namespace Tri

variable {I V C : Type}

theorem getElem?_tail_head {α : Type} (l : List α) (i : Nat) (hi : i < l.length) :
    (l.tail ++ l.head?.toList)[i]? = l[(i + 1) % l.length]? := by
  cases l with
  | nil => simp at hi
  | cons a l =>
    simp only [List.tail_cons, List.head?_cons, Option.toList_some, List.length_cons] at hi ⊢
    by_cases h : i = l.length
    · subst h; simp
    · rw [Nat.mod_eq_of_lt (by omega), List.getElem?_append_left (by omega)]
      simp

theorem cycleEdges_length {α : Type} (l : List α) : (cycleEdges l).length = l.length := by
  cases l with
  | nil => rfl
  | cons a l => simp [cycleEdges]

theorem cycleEdges_get {α : Type} (l : List α) (i : Nat) {a b : α} (ha : l[i]? = some a)
    (hb : l[(i + 1) % l.length]? = some b) : (cycleEdges l)[i]? = some (a, b) := by
  rw [cycleEdges, List.getElem?_zip_eq_some, getElem?_tail_head _ _ (lt_of_get ha)]
  exact ⟨ha, hb⟩

theorem range_filterMap_get {α : Type} (l : List α) :
    (List.range l.length).filterMap (fun i => l[i]?) = l := by
  have h : ∀ (n : Nat), n ≤ l.length → (List.range n).filterMap (fun i => l[i]?) = l.take n := by
    intro n
    induction n with
    | zero => simp
    | succ n ih =>
      intro hn
      rw [List.range_succ, List.filterMap_append, ih (by omega), List.take_add_one,
        List.getElem?_eq_getElem (by omega)]
      simp [List.getElem?_eq_getElem (show n < l.length by omega)]
  rw [h _ (Nat.le_refl _), List.take_length]

variable {A : I × Coords C → Prop} [Scalar C] [DecidableEq I]

/-- After a polygon is complete: its vertices and sides are stored. -/
structure PolyPost (A : I × Coords C → Prop) (vs : List (I × Coords C)) (st st' : St I C) : Prop where
  wf : WF A st'
  keys : st.keys <+: st'.keys
  perm : st'.keys.Perm (st.keys ++ vs)
  ss : ∃ segs es, st'.ss = st.ss ++ segs ∧ es.Perm (cycleEdges vs) ∧
    List.Forall₂ (Joins st'.keys) segs es

theorem PolyInv.post {vs : List (I × Coords C)} {st : St I C} {order : List Nat}
    {l : St.PolyLoop I C} (h : PolyInv A vs st order l) (ho : order.Perm (List.range vs.length)) :
    PolyPost A vs st l.st := by
  have hall : pend l.vls = [] := by
    have : ∀ vl ∈ l.vls, vl.pend = none := by
      intro vl hvl
      obtain ⟨i, hi, rfl⟩ := List.getElem_of_mem hvl
      obtain ⟨c, ni, hh⟩ := h.ins i (ho.mem_iff.2 (List.mem_range.2 (by rw [← h.ok.len]; exact hi)))
      rw [List.getElem?_eq_getElem hi] at hh
      cases hh'  : l.vls[i] with
      | pending c vi q => rw [hh'] at hh; cases hh
      | inserted c ni => rfl
    simpa [pend, List.filterMap_eq_nil_iff] using this
  have hp := h.perm
  rw [hall, List.append_nil] at hp
  refine ⟨h.wf, h.keys, hp, ?_⟩
  obtain ⟨segs, h1, h2⟩ := h.ss
  refine ⟨segs, order.filterMap fun i => (cycleEdges vs)[i]?, h1, ?_, ?_⟩
  · have := ho.filterMap fun i => (cycleEdges vs)[i]?
    rw [← cycleEdges_length vs, range_filterMap_get] at this
    exact this
  · clear h1 ho h
    induction h2 with
    | nil => exact .nil
    | cons hx _ ih =>
      obtain ⟨a, b, ha, hb, hj⟩ := hx
      rw [List.filterMap_cons, cycleEdges_get vs _ ha hb]
      exact .cons hj ih

theorem coords_ok {ε ε' : Type} {p : PolyList I V} {xy : V → Coords C} {i : I} {c : Coords C}
    (h : p.coords (ε := ε) xy i = .ok c) : p.coords (ε := ε') xy i = .ok c := by
  unfold PolyList.coords at h ⊢
  cases hv : p.getVertex i with
  | none => rw [hv] at h; cases h
  | some v => rw [hv] at h; cases h; rfl

theorem coords_safe {ε : Type} (p : PolyList I V) (xy : V → Coords C) (i : I) :
    Safe (fun c => p.coords (ε := IErr) xy i = .ok c) (p.coords (ε := ε) xy i) := by
  unfold PolyList.coords
  cases p.getVertex i with
  | none => simp [Ens]
  | some v => simp [Ens]

/-- Invariant of the loop of `build`. -/
def BuildInv (A : I × Coords C → Prop) (p : PolyList I V) (xy : V → Coords C)
    (l : St.BuildLoop I C) : Prop :=
  WF A l.st ∧ ∃ vs, l.vLookup = startLocs vs ∧ ∀ v ∈ vs, Src A p xy v

theorem buildStep_safe (cfg : Cfg) (fuel : Nat) (p : PolyList I V) (xy : V → Coords C)
    {l : St.BuildLoop I C} (h : BuildInv A p xy l) (e : Option (Elem I))
    (hA : ∀ i c, e = some (.cont i) → p.coords (ε := IErr) xy i = .ok c → A (i, c)) :
    Safe (BuildInv A p xy) (St.buildStep cfg fuel p xy l e) := by
  obtain ⟨hwf, vs, hvs, hsrc⟩ := h
  unfold St.buildStep
  split
  · simp [Ens]
  · rename_i i
    refine Ens.bind (coords_safe p xy i) fun c hc => ?_
    refine ⟨hwf, vs ++ [(i, c)], by simp [hvs, startLocs], ?_⟩
    refine forall_append hsrc ?_
    simp only [List.mem_singleton, forall_eq]
    exact ⟨hA i c rfl hc, hc⟩
  · refine Ens.ite (fun _ => Ens.ite (fun _ => by simp [Ens]) fun hlen => ?_) fun _ => ⟨hwf, vs, hvs, hsrc⟩
    rw [hvs] at hlen ⊢
    have hl : 2 ≤ vs.length := by simp [startLocs] at hlen; omega
    refine Ens.bind (Ens.mapErr (addPolygon_safe hwf cfg fuel p xy l.k hsrc hl) (by simp) (by simp)
      (by simp) (by simp)) ?_
    rintro st' ⟨l', rfl, hl'⟩
    exact ⟨hl'.wf, [], rfl, by simp⟩

theorem trapezoidize_safe (cfg : Cfg) (fuel : Nat) (p : PolyList I V) (xy : V → Coords C)
    (hA : ∀ i c, some (.cont i) ∈ p.elems → p.coords (ε := IErr) xy i = .ok c → A (i, c)) :
    Safe (WF A) (trapezoidize cfg fuel p xy) := by
  unfold trapezoidize St.build
  refine Ens.bind (Ens.foldlM (fun rest l => BuildInv A p xy l ∧
    ∀ e ∈ rest, ∀ i c, e = some (.cont i) → p.coords (ε := IErr) xy i = .ok c → A (i, c)) ?_ _ _
    ⟨⟨WF.init, [], rfl, by simp⟩, ?_⟩) ?_
  · rintro a l s ⟨h1, h2⟩
    exact Ens.imp (buildStep_safe cfg fuel p xy h1 a (h2 a (by simp))) fun s' hs' =>
      ⟨hs', fun e he => h2 e (by simp [he])⟩
  · intro e he i c hi hc
    subst hi
    exact hA i c (by simpa using he) hc
  · rintro l ⟨h, -⟩
    exact h.1

/-- One polygon, with what is stored. -/
theorem runElems_group_post {cfg : Cfg} (hcfg : cfg.Valid) {fuel : Nat} {p : PolyList I V}
    {xy : V → Coords C} {g : List I} {st : St I C} (hst : WF A st) {k : Nat} {l' : St.BuildLoop I C}
    (hA : ∀ i ∈ g, ∀ c, p.coords (ε := IErr) xy i = .ok c → A (i, c)) (hg : g ≠ [])
    (h : runElems cfg fuel p xy (g.map (fun i => some (.cont i)) ++ [some .newPolygon]) ⟨st, [], k⟩ =
      .ok l') :
    ∃ vs st', l' = ⟨st', [], k + 1⟩ ∧ vs.map Prod.fst = g ∧ 3 ≤ vs.length ∧
      (∀ v ∈ vs, p.coords (ε := IErr) xy v.1 = .ok v.2) ∧ PolyPost A vs st st' := by
  rw [runElems_append] at h
  have conts : ∀ (g : List I) (l : St.BuildLoop I C) l1,
      runElems cfg fuel p xy (g.map fun i => some (.cont i)) l = .ok l1 →
      ∃ vs : List (I × Coords C), vs.map Prod.fst = g ∧ (∀ v ∈ vs, p.coords (ε := IErr) xy v.1 = .ok v.2) ∧
        l1 = { l with vLookup := l.vLookup ++ startLocs vs } := by
    intro g
    induction g with
    | nil =>
      intro l l1 h
      cases h
      exact ⟨[], rfl, by simp, by simp [startLocs]⟩
    | cons i g ih =>
      intro l l1 h
      simp only [List.map_cons, runElems_cons] at h
      cases hv : p.getVertex i with
      | none => simp [St.buildStep, PolyList.coords, hv] at h; cases h
      | some v =>
        have hs : St.buildStep cfg fuel p xy l (some (.cont i)) =
            .ok { l with vLookup := l.vLookup ++ [.pending (xy v) i 0] } := by
          simp [St.buildStep, PolyList.coords, hv]; rfl
        rw [hs] at h
        simp only [Except.bind] at h
        obtain ⟨vs, h1, h2, h3⟩ := ih _ _ h
        refine ⟨(i, xy v) :: vs, by simp [h1], ?_, by simp [h3, startLocs]⟩
        intro w hw
        rcases List.mem_cons.1 hw with rfl | hw
        · simp [PolyList.coords, hv]
        · exact h2 w hw
  cases h1 : runElems cfg fuel p xy (g.map fun i => some (.cont i)) ⟨st, [], k⟩ with
  | error e => rw [h1] at h; cases h
  | ok l1 =>
    rw [h1] at h
    simp only [Except.bind, runElems_cons] at h
    obtain ⟨vs, hg1, hco, rfl⟩ := conts _ _ _ h1
    simp only [List.nil_append] at h
    have hlen : (startLocs vs).length = g.length := by rw [← hg1]; simp [startLocs]
    have hpos : (startLocs vs).length > 0 := by rw [hlen]; exact List.length_pos_iff.2 hg
    simp only [St.buildStep, hpos, if_true] at h
    split at h
    · cases h
    rename_i l2 h2
    split at h2
    · cases h2
    rename_i hl3
    have hl3' : 3 ≤ vs.length := by simp [startLocs] at hl3; omega
    have hsrc : ∀ v ∈ vs, Src A p xy v := fun v hv =>
      ⟨hA v.1 (by rw [← hg1]; exact List.mem_map_of_mem hv) v.2 (hco v hv), hco v hv⟩
    have hs := addPolygon_safe hst cfg fuel p xy k hsrc (by omega)
    cases hst' : St.addPolygon cfg fuel p xy k st (startLocs vs) with
    | error e => rw [hst'] at h2; cases e <;> cases h2
    | ok st' =>
      rw [hst'] at h2 hs
      obtain ⟨l, rfl, hl⟩ := hs
      cases h2
      cases h
      exact ⟨vs, l.st, rfl, hg1, hl3', hco, hl.post (hcfg _ _)⟩

/-- What the whole list leaves behind. -/
structure BuildPost (A : I × Coords C → Prop) (p : PolyList I V) (xy : V → Coords C) (gs : List (List I))
    (vss : List (List (I × Coords C))) (st st' : St I C) : Prop where
  wf : WF A st'
  groups : vss.map (·.map Prod.fst) = gs
  len : ∀ vs ∈ vss, 3 ≤ vs.length
  coords : ∀ vs ∈ vss, ∀ v ∈ vs, p.coords (ε := IErr) xy v.1 = .ok v.2
  keys : st.keys <+: st'.keys
  perm : st'.keys.Perm (st.keys ++ vss.flatten)
  ss : ∃ segs es, st'.ss = st.ss ++ segs ∧ es.Perm (vss.flatMap cycleEdges) ∧
    List.Forall₂ (Joins st'.keys) segs es

theorem runElems_groups_post {cfg : Cfg} (hcfg : cfg.Valid) {fuel : Nat} {p : PolyList I V}
    {xy : V → Coords C} (gs : List (List I)) (hgs : ∀ g ∈ gs, g ≠ [])
    (hA : ∀ g ∈ gs, ∀ i ∈ g, ∀ c, p.coords (ε := IErr) xy i = .ok c → A (i, c))
    {st : St I C} (hst : WF A st) {k : Nat} {l' : St.BuildLoop I C}
    (h : runElems cfg fuel p xy ((elemsOf gs).map some) ⟨st, [], k⟩ = .ok l') :
    ∃ vss, BuildPost A p xy gs vss st l'.st := by
  induction gs generalizing st k with
  | nil =>
    cases h
    exact ⟨[], hst, rfl, by simp, by simp, List.prefix_refl _, by simp, ⟨[], [], by simp, .refl _, .nil⟩⟩
  | cons g gs ih =>
    have hmap : (elemsOf (g :: gs)).map some =
        (g.map (fun i => some (.cont i)) ++ [some .newPolygon]) ++ (elemsOf gs).map some := by
      simp [elemsOf, Function.comp_def]
    rw [hmap, runElems_append] at h
    cases h1 : runElems cfg fuel p xy (g.map (fun i => some (.cont i)) ++ [some .newPolygon])
        ⟨st, [], k⟩ with
    | error e => rw [h1] at h; cases h
    | ok l1 =>
      rw [h1] at h
      obtain ⟨vs, st1, rfl, hg1, hl, hco, hp⟩ :=
        runElems_group_post hcfg hst (hA g (by simp)) (hgs g (by simp)) h1
      obtain ⟨vss, hb⟩ := ih (fun g hg => hgs g (by simp [hg])) (fun g hg => hA g (by simp [hg]))
        hp.wf h
      refine ⟨vs :: vss, hb.wf, by simp [hg1, hb.groups], ?_, ?_, hp.keys.trans hb.keys, ?_, ?_⟩
      · simpa using ⟨hl, hb.len⟩
      · intro ws hws
        rcases List.mem_cons.1 hws with rfl | hws
        · exact hco
        · exact hb.coords ws hws
      · refine hb.perm.trans ?_
        simp only [List.flatten_cons]
        rw [← List.append_assoc]
        exact hp.perm.append_right _
      · obtain ⟨s1, e1, a1, a2, a3⟩ := hp.ss
        obtain ⟨s2, e2, b1, b2, b3⟩ := hb.ss
        refine ⟨s1 ++ s2, e1 ++ e2, by rw [b1, a1, List.append_assoc], ?_, ?_⟩
        · simp only [List.flatMap_cons]
          exact a2.append b2
        · exact List.rel_append (a3.imp fun _ _ h => h.mono hb.keys) b3

theorem runElems_ok_some {cfg : Cfg} {fuel : Nat} {p : PolyList I V} {xy : V → Coords C}
    {es : List (Option (Elem I))} {l l' : St.BuildLoop I C} (h : runElems cfg fuel p xy es l = .ok l') :
    ∃ es' : List (Elem I), es = es'.map some := by
  induction es generalizing l with
  | nil => exact ⟨[], rfl⟩
  | cons e es ih =>
    rw [runElems_cons] at h
    cases h1 : St.buildStep cfg fuel p xy l e with
    | error e => rw [h1] at h; cases h
    | ok l1 =>
      rw [h1] at h
      obtain ⟨es', rfl⟩ := ih h
      cases e with
      | none => cases h1
      | some e => exact ⟨e :: es', rfl⟩

theorem mem_polygonsFrom {cur : List I} {es : List (Elem I)} {g : List I} {i : I}
    (hg : g ∈ polygonsFrom cur es) (hi : i ∈ g) : i ∈ cur ∨ .cont i ∈ es := by
  induction es generalizing cur with
  | nil =>
    by_cases h : cur = []
    · simp [polygonsFrom, h] at hg
    · simp only [polygonsFrom, h, if_false, List.mem_singleton] at hg
      subst hg; exact .inl hi
  | cons e es ih =>
    cases e with
    | cont j =>
      rcases ih hg with h | h
      · rcases List.mem_append.1 h with h | h
        · exact .inl h
        · rw [List.mem_singleton.1 h]; exact .inr (by simp)
      · exact .inr (by simp [h])
    | newPolygon =>
      by_cases h : cur = []
      · simp only [polygonsFrom, h, if_true] at hg
        rcases ih hg with h | h
        · simp at h
        · exact .inr (by simp [h])
      · simp only [polygonsFrom, h, if_false, List.mem_cons] at hg
        rcases hg with rfl | hg
        · exact .inl hi
        · rcases ih hg with h | h
          · simp at h
          · exact .inr (by simp [h])

theorem trapezoidize_post {cfg : Cfg} (hcfg : cfg.Valid) {fuel : Nat} {p : PolyList I V}
    {xy : V → Coords C} {st : St I C} (h : trapezoidize cfg fuel p xy = .ok st)
    (hA : ∀ i c, some (.cont i) ∈ p.elems → p.coords (ε := IErr) xy i = .ok c → A (i, c)) :
    ∃ (es : List (Elem I)) (vss : _), p.elems = es.map some ∧ BuildPost A p xy (polygonsOf es) vss St.init st := by
  obtain ⟨es, hes⟩ : ∃ es : List (Elem I), p.elems = es.map some := by
    rw [trapezoidize_eq] at h
    cases h1 : runElems cfg fuel p xy (p.elems ++ [some .newPolygon]) ⟨St.init, [], 0⟩ with
    | error e => rw [h1] at h; cases h
    | ok l =>
      rw [runElems_append] at h1
      cases h2 : runElems cfg fuel p xy p.elems ⟨St.init, [], 0⟩ with
      | error e => rw [h2] at h1; cases h1
      | ok l2 => exact runElems_ok_some h2
  have hp : p = p.withElems (es.map some) := by rw [← hes]; rfl
  rw [hp, trapezoidize_polygons] at h
  cases h1 : runElems cfg fuel p xy ((elemsOf (polygonsOf es)).map some) ⟨St.init, [], 0⟩ with
  | error e => rw [h1] at h; cases h
  | ok l =>
    rw [h1] at h
    cases h
    obtain ⟨vss, hb⟩ := runElems_groups_post hcfg (polygonsOf es) (polygonsFrom_ne _ _)
      (fun g hg i hi c hc => hA i c (by
        rcases mem_polygonsFrom hg hi with h | h
        · simp at h
        · rw [hes]; exact List.mem_map_of_mem h) hc) WF.init h1
    exact ⟨es, vss, hes, hb⟩

end Tri
