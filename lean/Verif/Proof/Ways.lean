import Verif.Proof.RankedBuild

/-!
# Paths through the search graph

The search graph only grows at its sinks: a branch stays the same branch for ever.  So the paths from the root to a
sink become paths to the nodes that the sink is replaced by.
-/

set_option linter.unusedSectionVars false

namespace Tri

variable {I V C : Type}

/-- The number of paths from node `q` to the sink `s` with fewer than `fuel` edges. -/
def ways (qs : List (QueryNode C)) (s : Nat) : Nat → Nat → Nat
  | 0, _ => 0
  | fuel + 1, q =>
    match qs[q]? with
    | some (.branch l r _) => ways qs s fuel l + ways qs s fuel r
    | some (.sink _) => if q = s then 1 else 0
    | none => 0

/-- Every branch is still there. -/
def Keeps (qs qs' : List (QueryNode C)) : Prop :=
  ∀ (i l r : Nat) (b : Branch C), qs[i]? = some (.branch l r b) → qs'[i]? = some (.branch l r b)

theorem Keeps.refl (qs : List (QueryNode C)) : Keeps qs qs := fun _ _ _ _ h => h

theorem Keeps.trans {a b c : List (QueryNode C)} (h : Keeps a b) (h' : Keeps b c) : Keeps a c :=
  fun i l r x hx => h' i l r x (h i l r x hx)

/-- A sink is replaced and nodes are added. -/
theorem Keeps.set {qs new : List (QueryNode C)} {q t : Nat} {x : QueryNode C} (h : qs[q]? = some (.sink t)) :
    Keeps qs (qs.set q x ++ new) := by
  intro i l r b hi
  have hlt := lt_of_get hi
  have hne : q ≠ i := by rintro rfl; rw [h] at hi; cases hi
  rw [List.getElem?_append_left (by simpa using hlt), List.getElem?_set_ne hne, hi]

theorem ways_succ (qs : List (QueryNode C)) (s : Nat) : ∀ fuel q, ways qs s fuel q ≤ ways qs s (fuel + 1) q
  | 0, _ => Nat.zero_le _
  | fuel + 1, q => by
    rw [ways, ways]
    split
    · exact Nat.add_le_add (ways_succ qs s fuel _) (ways_succ qs s fuel _)
    · exact Nat.le_refl _
    · exact Nat.le_refl _

theorem ways_mono (qs : List (QueryNode C)) (s : Nat) {f f' : Nat} (h : f ≤ f') (q : Nat) :
    ways qs s f q ≤ ways qs s f' q := by
  induction h with
  | refl => exact Nat.le_refl _
  | step _ ih => exact Nat.le_trans ih (ways_succ qs s _ q)

/-- When the graph grows, the paths to old sinks become paths to the new sinks that can be reached from them. -/
theorem Keeps.ways {qs qs' : List (QueryNode C)} (h : Keeps qs qs') {S : List Nat} (hS : S.Nodup) {s' f' : Nat}
    (hs : ∀ s ∈ S, 1 ≤ ways qs' s' f' s) :
    ∀ fuel q, (S.map fun s => Tri.ways qs s fuel q).sum ≤ Tri.ways qs' s' (fuel + f') q
  | 0, q => by
    have : (S.map fun s => Tri.ways qs s 0 q).sum = 0 := by
      clear hS hs
      induction S with
      | nil => rfl
      | cons a S ih => rw [List.map_cons, List.sum_cons, ih]; rfl
    rw [this]
    exact Nat.zero_le _
  | fuel + 1, q => by
    rcases hq : qs[q]? with _ | ⟨l, r, b⟩ | t
    · have : (S.map fun s => Tri.ways qs s (fuel + 1) q).sum = 0 := by
        clear hS hs
        induction S with
        | nil => rfl
        | cons a S ih => rw [List.map_cons, List.sum_cons, ih, Tri.ways, hq]
      rw [this]
      exact Nat.zero_le _
    · have e : (S.map fun s => Tri.ways qs s (fuel + 1) q).sum =
          (S.map fun s => Tri.ways qs s fuel l).sum + (S.map fun s => Tri.ways qs s fuel r).sum := by
        clear hS hs
        induction S with
        | nil => rfl
        | cons a S ih =>
          simp only [List.map_cons, List.sum_cons, ih]
          rw [Tri.ways, hq]
          simp only
          omega
      have e' : fuel + 1 + f' = fuel + f' + 1 := by omega
      rw [e, e', Tri.ways, h q l r b hq]
      exact Nat.add_le_add (Keeps.ways h hS hs fuel l) (Keeps.ways h hS hs fuel r)
    · have e : (S.map fun s => Tri.ways qs s (fuel + 1) q).sum = if q ∈ S then 1 else 0 := by
        clear hs
        induction S with
        | nil => rfl
        | cons a S ih =>
          obtain ⟨h1, h2⟩ := List.nodup_cons.1 hS
          rw [List.map_cons, List.sum_cons, ih h2, Tri.ways, hq]
          by_cases hqa : q = a
          · subst hqa
            simp [h1]
          · simp [hqa]
      rw [e]
      split
      · rename_i hm
        exact Nat.le_trans (hs q hm) (ways_mono _ _ (by omega) _)
      · exact Nat.zero_le _

/-! ## The operations keep the branches -/

/-- If there is a value, it satisfies `P`. -/
abbrev IfOk {ε α : Type} (P : α → Prop) (r : Res ε α) : Prop := Ens (fun _ => True) P r

theorem IfOk.getP {ε α : Type} {xs : List α} {i : Nat} : IfOk (fun a => xs[i]? = some a) (Tri.getP xs i : Res ε α) := by
  unfold Tri.getP
  cases xs[i]? with
  | none => trivial
  | some a => exact rfl

theorem IfOk.getU {ε α : Type} {xs : List α} {i : Nat} : IfOk (fun a => xs[i]? = some a) (Tri.getU xs i : Res ε α) := by
  unfold Tri.getU
  cases xs[i]? with
  | none => trivial
  | some a => exact rfl

theorem IfOk.modP {ε α : Type} {xs : List α} {i : Nat} {f : α → α} :
    IfOk (fun ys => ∃ a, xs[i]? = some a ∧ ys = xs.set i (f a)) (Tri.modP xs i f : Res ε _) := by
  unfold Tri.modP
  cases xs[i]? with
  | none => trivial
  | some a => exact ⟨_, rfl, rfl⟩

theorem IfOk.any {ε α : Type} (r : Res ε α) : IfOk (fun _ => True) r := by
  cases r <;> trivial

theorem IfOk.imp_ok {ε α : Type} {P : α → Prop} {r : Res ε α} (h : IfOk P r) {a : α} (ha : r = .ok a) : P a := by
  subst ha; exact h

section
variable [Scalar C]

theorem find_sink (qs : List (QueryNode C)) (c : Coords C) : ∀ (fuel qi : Nat),
    IfOk (fun r => qs[r.1]? = some (.sink r.2)) (St.find qs c fuel qi)
  | 0, _ => trivial
  | fuel + 1, qi => by
    unfold St.find
    refine Ens.bind IfOk.getU fun q hq => ?_
    split
    · exact find_sink qs c fuel _
    · exact hq

theorem addVertexAt_keeps (st : St I C) (vi : I) (c : Coords C) {qp ti : Nat} (hq : st.qs[qp]? = some (.sink ti)) :
    IfOk (fun st' => Keeps st.qs st'.qs) (st.addVertexAt vi c qp ti) := by
  unfold St.addVertexAt
  refine Ens.bind IfOk.getP fun qLeft hqL => ?_
  refine Ens.bind IfOk.modP fun qs hqs => ?_
  refine Ens.bind IfOk.modP fun ts hts => ?_
  refine Ens.bind IfOk.getP fun t ht => ?_
  refine Ens.bind (IfOk.any _) fun ns _ => ?_
  obtain ⟨q0, -, rfl⟩ := hqs
  exact Keeps.set hq

theorem addVertex_keeps (cfg : Cfg) (fuel : Nat) (p : PolyList I V) (xy : V → Coords C) (st : St I C) (vi : I)
    (qi : Nat) : IfOk (fun r => Keeps st.qs r.1.qs) (st.addVertex cfg fuel p xy vi qi) := by
  unfold St.addVertex
  refine Ens.bind (IfOk.any _) fun c _ => ?_
  refine Ens.bind (find_sink _ _ _ _) fun r hr => ?_
  refine Ens.bind (addVertexAt_keeps st vi c hr) fun st' hst' => ?_
  exact Ens.bind (IfOk.any _) fun _ _ => hst'

variable [DecidableEq I]

theorem addVertexVL_keeps (cfg : Cfg) (fuel : Nat) (p : PolyList I V) (xy : V → Coords C) (st : St I C)
    (vls : List (VLoc I C)) (i : Nat) (vi : I) (qi : Nat) :
    IfOk (fun r => Keeps st.qs r.1.qs) (St.addVertexVL cfg fuel p xy st vls i vi qi) := by
  unfold St.addVertexVL
  refine Ens.bind (addVertex_keeps cfg fuel p xy st vi qi) fun r hr => ?_
  exact Ens.bind (IfOk.any _) fun _ _ => hr

theorem addEnds_keeps (cfg : Cfg) (fuel : Nat) (p : PolyList I V) (xy : V → Coords C) (st : St I C)
    (vls : List (VLoc I C)) (si : Nat) :
    IfOk (fun r => Keeps st.qs r.1.qs) (St.addEnds cfg fuel p xy st vls si) := by
  unfold St.addEnds
  refine Ens.bind (IfOk.any _) fun vl0 _ => ?_
  refine Ens.bind (IfOk.any _) fun vl1 _ => ?_
  split
  · refine Ens.ite (fun _ => ?_) fun _ => ?_ <;>
    · refine Ens.bind (addVertexVL_keeps ..) fun r hr => ?_
      refine Ens.bind (addVertexVL_keeps ..) fun r' hr' => ?_
      exact hr.trans hr'
  · exact Ens.bind (addVertexVL_keeps ..) fun r hr => hr
  · exact Ens.bind (addVertexVL_keeps ..) fun r hr => hr
  · exact Keeps.refl _

theorem addSegmentStart_keeps {st : St I C} (ho : QOrd st.ts st.qs) (niMin niMax : Nat) (cMin cMax : Coords C) :
    IfOk (fun l => Keeps st.qs l.st.qs) (st.addSegmentStart niMin niMax cMin cMax) := by
  unfold St.addSegmentStart
  refine Ens.bind (IfOk.any _) fun nMax _ => ?_
  refine Ens.bind (IfOk.any _) fun ti _ => ?_
  refine Ens.bind IfOk.getU fun t ht => ?_
  refine Ens.bind IfOk.getP fun qLeft _ => ?_
  refine Ens.bind IfOk.modP fun qs hqs => ?_
  refine Ens.bind (IfOk.any _) fun ts _ => ?_
  refine Ens.bind (IfOk.any _) fun t' _ => ?_
  refine Ens.bind (IfOk.any _) fun ns _ => ?_
  refine Ens.bind (IfOk.any _) fun t2 _ => ?_
  obtain ⟨q0, -, rfl⟩ := hqs
  split
  · trivial
  · refine Ens.bind (IfOk.any _) fun n _ => ?_
    refine Ens.bind (IfOk.any _) fun ns' _ => ?_
    exact Keeps.set (ho.own ti t ht)

theorem addSegmentStep_keeps {l : St.SegLoop I C} (ho : QOrd l.st.ts l.st.qs) (si : Nat) (s : Segment C) :
    IfOk (fun l' => Keeps l.st.qs l'.st.qs) (St.addSegmentStep si s l) := by
  unfold St.addSegmentStep
  refine Ens.bind (IfOk.any _) fun n _ => ?_
  refine Ens.bind (IfOk.any _) fun ti _ => ?_
  refine Ens.bind IfOk.getU fun t ht => ?_
  split
  · trivial
  · refine Ens.bind (IfOk.any _) fun tl _ => ?_
    refine Ens.bind (IfOk.any _) fun tr _ => ?_
    split
    · refine Ens.bind (IfOk.any _) fun qL _ => ?_
      refine Ens.bind IfOk.modP fun qs hqs => ?_
      refine Ens.bind (IfOk.any _) fun _ _ => ?_
      refine Ens.bind (IfOk.any _) fun _ _ => ?_
      refine Ens.bind (IfOk.any _) fun _ _ => ?_
      refine Ens.bind (IfOk.any _) fun _ _ => ?_
      refine Ens.bind (IfOk.any _) fun _ _ => ?_
      obtain ⟨q0, -, rfl⟩ := hqs
      exact Keeps.set (ho.own ti t ht)
    · split
      · refine Ens.bind (IfOk.any _) fun qL _ => ?_
        refine Ens.bind IfOk.modP fun qs hqs => ?_
        refine Ens.bind (IfOk.any _) fun _ _ => ?_
        refine Ens.bind (IfOk.any _) fun _ _ => ?_
        refine Ens.bind (IfOk.any _) fun _ _ => ?_
        refine Ens.bind (IfOk.any _) fun _ _ => ?_
        refine Ens.bind (IfOk.any _) fun _ _ => ?_
        obtain ⟨q0, -, rfl⟩ := hqs
        exact Keeps.set (ho.own ti t ht)
      · trivial

variable {A : I × Coords C → Prop}

theorem addSegmentLoop_keeps {st0 : St I C} {ρ : Nat → Nat} {s : Segment C} (hs : SegOK st0.ns.length s) {niMax : Nat} :
    ∀ (fuel : Nat) {l : St.SegLoop I C}, SegInv A st0 s l → SegRank ρ st0 niMax l →
    IfOk (fun l' => Keeps l.st.qs l'.st.qs) (St.addSegmentLoop st0.ss.length s fuel l)
  | 0, _, _, _ => trivial
  | fuel + 1, l, hi, h => by
    unfold St.addSegmentLoop
    refine Ens.ite (fun _ => Keeps.refl _) fun _ => ?_
    refine Ens.bind (((addSegmentStep_ranked (fun _ => trivial) hs hi h).with (addSegmentStep_safe hi)).with
      (addSegmentStep_keeps h.ord _ _)) ?_
    rintro l' ⟨⟨⟨h1, -⟩, h2⟩, h3⟩
    exact (addSegmentLoop_keeps hs fuel h2 h1).imp fun a ha => h3.trans ha

theorem addSegment_keeps {N : Nat} {st : St I C} (hwf : WF A st) (h : Tidy N st) (cfg : Cfg) (fuel : Nat)
    {niMin niMax : Nat} (hmin : niMin < st.ns.length) (hmax : niMax < st.ns.length) (cMin cMax : Coords C) :
    IfOk (fun st' => Keeps st.qs st'.qs) (st.addSegment cfg fuel niMin niMax cMin cMax) := by
  obtain ⟨⟨ρ, hρ, hr⟩, ho, hsz, hdp⟩ := h
  unfold St.addSegment
  refine Ens.bind (((addSegmentStart_ranked (fun _ => trivial) hwf hρ hr ho hmin hmax cMin cMax).with
    (addSegmentStart_safe hwf hmin hmax cMin cMax)).with (addSegmentStart_keeps ho _ _ _ _)) ?_
  rintro l ⟨⟨h1, h2⟩, h3⟩
  refine Ens.bind (addSegmentLoop_keeps ⟨hmin, hmax⟩ fuel h2 h1) fun l' hl' => ?_
  refine Ens.bind (IfOk.any _) fun ns _ => ?_
  exact Ens.bind (IfOk.any _) fun _ _ => h3.trans hl'

theorem addNthSegment_keeps {N : Nat} {st : St I C}
    (h : WF A st) (ht : Tidy N st) (cfg : Cfg) {fuel : Nat} (hf : enough N ≤ fuel) (p : PolyList I V)
    (xy : V → Coords C) {vs : List (I × Coords C)} (hvs : ∀ v ∈ vs, Src A p xy v)
    {vls : List (VLoc I C)} (hvl : VlsOK st.keys st.qs.length vs vls)
    (hn : st.ns.length + (pend vls).length ≤ N) (hs : st.ss.length < N)
    (hlen : 2 ≤ vs.length) {si : Nat} (hsi : si < vs.length) :
    IfOk (fun r => Keeps st.qs r.1.qs) (St.addNthSegment cfg fuel p xy st vls si) := by
  unfold St.addNthSegment
  refine Ens.bind (((addEnds_ranked (fun _ => trivial) h ht cfg (fun _ => trivial) hf p xy hvs hvl hn (by omega) hlen
    hsi).with (addEnds_safe h cfg fuel p xy hvs hvl hlen si)).with (addEnds_keeps cfg fuel p xy st vls si)) ?_
  rintro ⟨st', vls', ni0, ni1, added⟩ ⟨⟨ht', hg, hk0, hk1, -, hi0, hi1, hp⟩, hk⟩
  simp only at ht' hg hk0 hk1 hi0 hi1 hp hk ⊢
  have hsj : (si + 1) % vs.length < vs.length := Nat.mod_lt _ (by omega)
  obtain ⟨v0, hv0⟩ : ∃ v, vs[si]? = some v := ⟨_, List.getElem?_eq_getElem hsi⟩
  obtain ⟨v1, hv1⟩ : ∃ v, vs[(si + 1) % vs.length]? = some v := ⟨_, List.getElem?_eq_getElem hsj⟩
  rw [hv0] at hk0
  rw [hv1] at hk1
  have hl0 := lt_of_get hk0
  have hl1 := lt_of_get hk1
  rw [keys_length] at hl0 hl1
  refine Ens.bind (IfOk.any _) fun n0 hn0 => ?_
  refine Ens.bind (IfOk.any _) fun n1 hn1 => ?_
  refine Ens.bind (Ens.ite (fun _ => addSegment_keeps hg.wf ht' cfg fuel hl0 hl1 _ _)
    fun _ => addSegment_keeps hg.wf ht' cfg fuel hl1 hl0 _ _) fun r hr => ?_
  exact hk.trans hr

theorem polyStep_keeps {N : Nat} (cfg : Cfg) {fuel : Nat} (hf : enough N ≤ fuel) (p : PolyList I V) (xy : V → Coords C)
    {vs : List (I × Coords C)} (hvs : ∀ v ∈ vs, Src A p xy v) (hlen : 2 ≤ vs.length) {st0 : St I C}
    {done : List Nat} {l : St.PolyLoop I C} (h : PolyInv A vs st0 done l) (ht : Tidy N l.st)
    (hn : st0.ns.length + vs.length ≤ N) (hs : st0.ss.length + done.length < N)
    {si : Nat} (hsi : si < vs.length) :
    IfOk (fun l' => Keeps l.st.qs l'.st.qs) (St.polyStep cfg fuel p xy l si) := by
  have hsz : l.st.ns.length + (pend l.vls).length = st0.ns.length + vs.length := by
    have := h.perm.length_eq
    simpa [List.length_append, keys_length] using this
  have hss : l.st.ss.length = st0.ss.length + done.length := by
    obtain ⟨segs, h1, h2⟩ := h.ss
    rw [h1, List.length_append, h2.length_eq]
  unfold St.polyStep
  refine Ens.bind (addNthSegment_keeps h.wf ht cfg hf p xy hvs h.ok (by omega) (by omega) hlen hsi) ?_
  rintro ⟨st', vls', added⟩ hk
  simp only at hk ⊢
  refine Ens.bind (IfOk.any _) fun pd _ => ?_
  refine Ens.ite (fun _ => ?_) fun _ => hk
  exact Ens.bind (IfOk.any _) fun _ _ => hk

end

end Tri
