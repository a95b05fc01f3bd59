import Verif.Proof.RankedSegment
import Verif.Proof.Sizes
import Mathlib.Data.List.Perm.Subperm
import Mathlib.Data.List.Nodup
import Mathlib.Data.Nat.ModEq

/-!
# Every trapezoidation is finished in a bounded number of steps

The ranking of `Ranked.lean` carried through the polygon loop, the relocation of the pending
vertices and the element loop.  For an arbitrary `Scalar` and for arbitrary input.
-/

set_option linter.unusedSectionVars false

namespace Tri

variable {I V C : Type} {A : I × Coords C → Prop}

/-- Enough steps for every search and walk in a trapezoidation of `N` vertices. -/
def enough (N : Nat) : Nat := 2 * N + 3

theorem enough_big (N : Nat) : 2 * N + 3 ≤ enough N := Nat.le_refl _

section Cycle

/-- One for a pending vertex. -/
def pendAt (vls : List (VLoc I C)) (i : Nat) : Nat :=
  match vls[i]? with
  | some (.pending _ _ _) => 1
  | _ => 0

/-- The pending vertices among the next `L` targets after `t`. -/
def ahead (vls : List (VLoc I C)) : Nat → Nat → Nat
  | _, 0 => 0
  | t, L + 1 => pendAt vls ((t + 1) % vls.length) + ahead vls ((t + 1) % vls.length) L

theorem ahead_eq (vls : List (VLoc I C)) (t L : Nat) :
    ahead vls t L = ((List.range L).map fun m => pendAt vls ((t + 1 + m) % vls.length)).sum := by
  induction L generalizing t with
  | zero => rfl
  | succ L ih =>
    rw [ahead, ih, List.range_succ_eq_map, List.map_cons, List.sum_cons, List.map_map]
    congr 2
    apply List.map_congr_left
    intro m _
    simp only [Function.comp_apply, Nat.succ_eq_add_one]
    congr 1
    rw [Nat.add_assoc, Nat.mod_add_mod]
    congr 1
    omega

theorem pend_length_eq (vls : List (VLoc I C)) :
    (pend vls).length = ((List.range vls.length).map (pendAt vls)).sum := by
  induction vls with
  | nil => rfl
  | cons a vls ih =>
    rw [List.length_cons, List.range_succ_eq_map, List.map_cons, List.sum_cons, List.map_map]
    have : (List.range vls.length).map (pendAt (a :: vls) ∘ Nat.succ) =
        (List.range vls.length).map (pendAt vls) := by
      apply List.map_congr_left
      intro m _
      simp [pendAt]
    rw [this, ← ih]
    cases a with
    | pending c v q =>
      show (pend vls).length + 1 = 1 + (pend vls).length
      omega
    | inserted c n =>
      show (pend vls).length = 0 + (pend vls).length
      omega

theorem range_rotate_perm (n t : Nat) (hn : 0 < n) :
    ((List.range n).map fun m => (t + m) % n).Perm (List.range n) := by
  have hnd : ((List.range n).map fun m => (t + m) % n).Nodup := by
    refine (List.nodup_map_iff_inj_on List.nodup_range).2 ?_
    intro x hx y hy h
    have h1 : x % n = y % n := Nat.ModEq.add_left_cancel' t h
    rwa [Nat.mod_eq_of_lt (List.mem_range.1 hx), Nat.mod_eq_of_lt (List.mem_range.1 hy)] at h1
  refine List.Subperm.perm_of_length_le (List.subperm_of_subset hnd ?_) (by simp)
  intro x hx
  obtain ⟨m, -, rfl⟩ := List.mem_map.1 hx
  exact List.mem_range.2 (Nat.mod_lt _ hn)

theorem ahead_cycle (vls : List (VLoc I C)) (t : Nat) (h : 0 < vls.length) :
    ahead vls t vls.length = (pend vls).length := by
  rw [ahead_eq, pend_length_eq]
  have := ((range_rotate_perm vls.length (t + 1) h).map (pendAt vls)).sum_nat
  rw [← this, List.map_map]
  rfl

theorem pendAt_congr {vls vls' : List (VLoc I C)} (hl : vls'.length = vls.length)
    (h : ∀ i, pendAt vls' i = pendAt vls i) (t L : Nat) : ahead vls' t L = ahead vls t L := by
  induction L generalizing t with
  | zero => rfl
  | succ L ih => rw [ahead, ahead, hl, h, ih]

theorem pendAt_set {vls : List (VLoc I C)} {i : Nat} {c c' : Coords C} {v v' : I} {q q' : Nat}
    (h : vls[i]? = some (.pending c v q)) (j : Nat) :
    pendAt (vls.set i (.pending c' v' q')) j = pendAt vls j := by
  unfold pendAt
  by_cases hij : i = j
  · subst hij
    rw [List.getElem?_set_self (lt_of_get h), h]
  · rw [List.getElem?_set_ne hij]

end Cycle

variable [Scalar C] [DecidableEq I]

theorem addVertexVL_ranked {E : Fault IErr → Prop} (hE : ∀ e, E (.err e)) {N : Nat} {st : St I C}
    (h : WF A st) (ht : Tidy N st) (cfg : Cfg) (hP : cfg.debug = true → E .panic) {fuel : Nat}
    (hf : enough N ≤ fuel) (p : PolyList I V)
    (xy : V → Coords C) {vs : List (I × Coords C)} (hvs : ∀ v ∈ vs, Src A p xy v)
    {vls : List (VLoc I C)} (hvl : VlsOK st.keys st.qs.length vs vls)
    (hn : st.ns.length + (pend vls).length ≤ N) (hs : st.ss.length ≤ N) {i : Nat} {c : Coords C} {vi : I}
    {q : Nat} (hi : vls[i]? = some (.pending c vi q)) :
    Ens E (fun r => Tidy N r.1) (St.addVertexVL cfg fuel p xy st vls i vi q) := by
  obtain ⟨v, hv⟩ : ∃ v, vs[i]? = some v :=
    ⟨_, List.getElem?_eq_getElem (by rw [← hvl.len]; exact lt_of_get hi)⟩
  obtain ⟨rfl, hq⟩ := hvl.loc i v _ hv hi
  have hsr := hvs _ (mem_of_get hv)
  have hpos : 1 ≤ (pend vls).length := by
    have := (pend_set_none (b := .inserted c 0) hi rfl rfl).length_eq
    simp only [List.length_cons] at this
    omega
  unfold St.addVertexVL
  refine Ens.bind (addVertex_ranked hE h ht cfg hP p xy ?_ hsr.1 hsr.2 hq) fun r hr => ?_
  · unfold enough at hf; omega
  refine Ens.bind (Ens.getP_lt (lt_of_get hi)) fun vl hvl' => ?_
  exact hr

theorem Grow.size {vs : List (I × Coords C)} {st st' : St I C} {vls vls' : List (VLoc I C)}
    (h : Grow A vs st vls st' vls') :
    st'.ns.length + (pend vls').length = st.ns.length + (pend vls).length := by
  have := h.perm.length_eq
  simpa [List.length_append, keys_length] using this

theorem addEnds_ranked {E : Fault IErr → Prop} (hE : ∀ e, E (.err e)) {N : Nat} {st : St I C}
    (h : WF A st) (ht : Tidy N st) (cfg : Cfg) (hP : cfg.debug = true → E .panic) {fuel : Nat}
    (hf : enough N ≤ fuel) (p : PolyList I V)
    (xy : V → Coords C) {vs : List (I × Coords C)} (hvs : ∀ v ∈ vs, Src A p xy v)
    {vls : List (VLoc I C)} (hvl : VlsOK st.keys st.qs.length vs vls)
    (hn : st.ns.length + (pend vls).length ≤ N) (hs : st.ss.length ≤ N)
    (hlen : 2 ≤ vs.length) {si : Nat} (hsi : si < vs.length) :
    Ens E (fun r => Tidy N r.1) (St.addEnds cfg fuel p xy st vls si) := by
  unfold St.addEnds
  simp only
  have hsi' : si < vls.length := by rw [hvl.len]; exact hsi
  have hsj' : (si + 1) % vls.length < vls.length := Nat.mod_lt _ (by omega)
  refine Ens.bind (Ens.getP_lt hsi') fun vl0 h0 => ?_
  refine Ens.bind (Ens.getP_lt hsj') fun vl1 h1 => ?_
  have hne : si ≠ (si + 1) % vls.length := ne_succ_mod (by rw [hvl.len]; exact hlen) hsi'
  generalize (si + 1) % vls.length = sj at h1 hne hsj' ⊢
  have one : ∀ i c0 i0 q0, vls[i]? = some (.pending c0 i0 q0) →
      Ens E (fun r => Tidy N r.1) (St.addVertexVL cfg fuel p xy st vls i i0 q0) :=
    fun i c0 i0 q0 hi => addVertexVL_ranked hE h ht cfg hP hf p xy hvs hvl hn hs hi
  have two : ∀ i j c0 i0 q0 c1 i1 q1, i ≠ j →
      vls[i]? = some (.pending c0 i0 q0) →
      vls[j]? = some (.pending c1 i1 q1) → ∀ f : Nat → Nat → Nat × Nat × Nat,
      Ens E (fun r : St I C × List (VLoc I C) × Nat × Nat × Nat => Tidy N r.1) (do
        let (st, vls, ni0) ← St.addVertexVL cfg fuel p xy st vls i i0 q0
        let (st, vls, ni1) ← St.addVertexVL cfg fuel p xy st vls j i1 q1
        .ok (st, vls, f ni0 ni1)) := by
    intro i j c0 i0 q0 c1 i1 q1 hij hi hj f
    refine Ens.bind ((one i c0 i0 q0 hi).with (addVertexVL_safe h cfg fuel p xy hvs hvl hi)) ?_
    rintro ⟨sta, vlsa, na⟩ ⟨hta, hga, hka, hva⟩
    simp only at hta hga hka hva
    have hj2 : vlsa[j]? = some (.pending c1 i1 q1) := by
      rw [hva, List.getElem?_set]; simp [hij, hj]
    refine Ens.bind (addVertexVL_ranked hE hga.wf hta cfg hP hf p xy hvs hga.ok
      (by rw [hga.size]; exact hn) (by rw [hga.ss]; exact hs) hj2) ?_
    rintro ⟨stb, vlsb, nb⟩ htb
    exact htb
  rcases vl0 with ⟨c0, i0, q0⟩ | ⟨c0, ni0⟩ <;> rcases vl1 with ⟨c1, i1, q1⟩ | ⟨c1, ni1⟩
  · refine Ens.ite (fun _ => ?_) fun _ => ?_
    · exact two si sj c0 i0 q0 c1 i1 q1 hne h0 h1 fun a b => (a, b, 2)
    · exact two sj si c1 i1 q1 c0 i0 q0 (Ne.symm hne) h1 h0 fun a b => (b, a, 2)
  · exact Ens.bind (one _ _ _ _ h0) fun r hr => hr
  · exact Ens.bind (one _ _ _ _ h1) fun r hr => hr
  · exact ht

theorem addNthSegment_ranked {E : Fault IErr → Prop} (hE : ∀ e, E (.err e)) {N : Nat} {st : St I C}
    (h : WF A st) (ht : Tidy N st) (cfg : Cfg) (hP : cfg.debug = true → E .panic) {fuel : Nat}
    (hf : enough N ≤ fuel) (p : PolyList I V)
    (xy : V → Coords C) {vs : List (I × Coords C)} (hvs : ∀ v ∈ vs, Src A p xy v)
    {vls : List (VLoc I C)} (hvl : VlsOK st.keys st.qs.length vs vls)
    (hn : st.ns.length + (pend vls).length ≤ N) (hs : st.ss.length < N)
    (hlen : 2 ≤ vs.length) {si : Nat} (hsi : si < vs.length) :
    Ens E (fun r => Tidy N r.1) (St.addNthSegment cfg fuel p xy st vls si) := by
  unfold St.addNthSegment
  refine Ens.bind ((addEnds_ranked hE h ht cfg hP hf p xy hvs hvl hn (by omega) hlen hsi).with
    (addEnds_safe h cfg fuel p xy hvs hvl hlen si)) ?_
  rintro ⟨st', vls', ni0, ni1, added⟩ ⟨ht', hg, hk0, hk1, -, hi0, hi1, hp⟩
  simp only at ht' hg hk0 hk1 hi0 hi1 hp ⊢
  have hsj : (si + 1) % vs.length < vs.length := Nat.mod_lt _ (by omega)
  obtain ⟨v0, hv0⟩ : ∃ v, vs[si]? = some v := ⟨_, List.getElem?_eq_getElem hsi⟩
  obtain ⟨v1, hv1⟩ : ∃ v, vs[(si + 1) % vs.length]? = some v := ⟨_, List.getElem?_eq_getElem hsj⟩
  rw [hv0] at hk0
  rw [hv1] at hk1
  have hl0 := lt_of_get hk0
  have hl1 := lt_of_get hk1
  rw [keys_length] at hl0 hl1
  refine Ens.bind (Ens.getU hl0) fun n0 hn0 => ?_
  refine Ens.bind (Ens.getU hl1) fun n1 hn1 => ?_
  have hsz := hg.size
  have hsg : ∀ a b, a < st'.ns.length → b < st'.ns.length → ∀ c d,
      Ens E (Tidy N) (st'.addSegment cfg fuel a b c d) := fun a b ha hb c d =>
    addSegment_ranked hE hg.wf ht' (by omega) cfg hP
      (by rw [hg.ss]; unfold enough at hf; omega) ha hb c d
  refine Ens.bind (Ens.ite (fun _ => hsg _ _ hl0 hl1 _ _) fun _ => hsg _ _ hl1 hl0 _ _) fun r hr => hr

theorem between_iter (n : Nexus I C) (dir : Dir) (c0 c1 : Coords C) :
    n.getTrapezoidBetweenCoords dir c0 c1 ∈ n.iterTrapezoids dir := by
  unfold Nexus.getTrapezoidBetweenCoords
  split
  · exact leftmost_iter n dir
  · rename_i d hd
    have := filterDividers_iter (zot_last_mem hd)
    cases dir <;> simp only <;> split <;> first | exact this | exact leftmost_iter n _

/-- The vertex at the end of a trapezoid in a direction. -/
def Trapezoid.endOf (t : Trapezoid) : Dir → Option Nat
  | .asc => t.up
  | .desc => t.down

/-- The vertices left in a direction. -/
def leftIn (ρ : Nat → Nat) (N i : Nat) : Dir → Nat
  | .asc => N - ρ i
  | .desc => ρ i + 1

theorem walk_ranked {E : Fault IErr → Prop} (hE : ∀ e, E (.err e)) {st : St I C} (h : WF A st)
    {ρ : Nat → Nat} (hρ : ∀ i, i < st.ns.length → ρ i < st.ns.length)
    (hr : Ranked ρ st.ns st.ts) (dir : Dir) (c0 c1 : Coords C) (fuel ti : Nat)
    (hti : ti < st.ts.length) (hf : 0 < fuel)
    (hm : ∀ t, st.ts[ti]? = some t → ∀ i, t.endOf dir = some i →
      leftIn ρ st.ns.length i dir < fuel) :
    Ens E (fun _ => True) (st.walk dir c0 c1 fuel ti) := by
  induction fuel generalizing ti with
  | zero => omega
  | succ k ih =>
    unfold St.walk
    refine Ens.bind (Ens.getU hti) fun t ht => ?_
    have hok := h.ts t (mem_of_get ht)
    have hend : ∀ i, (match dir with | .asc => t.up | .desc => t.down) = some i →
        i < st.ns.length := by
      cases dir
      · exact hok.up
      · exact hok.down
    have hreach : Ens E (fun _ => True) (St.reached st.ns t dir c1) := by
      unfold St.reached
      split
      · exact trivial
      · rename_i ni hni
        exact Ens.bind (Ens.getP_lt (hend ni hni)) fun _ _ => trivial
    refine Ens.bind hreach fun done _ => Ens.ite (fun _ => trivial) fun _ => ?_
    split
    · exact hE _
    · rename_i ni hni
      have hni' := hend ni hni
      have hlt := hm t ht ni (by cases dir <;> exact hni)
      have hρi := hρ ni hni'
      refine Ens.bind (Ens.getU hni') fun n hn => ?_
      have hit := between_iter n dir c0 c1
      refine ih _ ((h.ns n (mem_of_get hn)).iter_lt hit) ?_ ?_
      · cases dir <;> simp only [leftIn] at hlt <;> omega
      · intro t' ht' i hi
        cases dir with
        | asc =>
          have := hr.above ni n hn _ hit t' ht' i hi
          simp only [leftIn] at hlt ⊢
          omega
        | desc =>
          have := hr.below ni n hn _ hit t' ht' i hi
          simp only [leftIn] at hlt ⊢
          omega

theorem relocStep_ranked {E : Fault IErr → Prop} (hE : ∀ e, E (.err e)) {N : Nat} {st : St I C}
    (h : WF A st) (ht : Tidy N st) {fuel : Nat} (hf : st.ns.length + 1 < fuel)
    {vs : List (I × Coords C)} {L : Nat}
    (r : St.Reloc I C) (hvl : VlsOK st.keys st.qs.length vs r.vls) (hloc : RLocOK st r.loc)
    (hpos : 0 < r.vls.length) (h0 : r.unlocated ≠ 0) (hL : r.unlocated = ahead r.vls r.target (L + 1)) :
    Ens E (fun r' => VlsOK st.keys st.qs.length vs r'.vls ∧ RLocOK st r'.loc ∧
      r'.vls.length = r.vls.length ∧ r'.unlocated = ahead r'.vls r'.target L)
      (St.relocStep fuel st r) := by
  have hlt : (r.target + 1) % r.vls.length < r.vls.length := Nat.mod_lt _ hpos
  unfold St.relocStep
  refine Ens.bind (Ens.getP_lt hlt) fun vl hget => ?_
  obtain ⟨v, hv⟩ : ∃ v, vs[(r.target + 1) % r.vls.length]? = some v :=
    ⟨_, List.getElem?_eq_getElem (by rw [← hvl.len]; exact hlt)⟩
  have hl := hvl.loc _ v vl hv hget
  rw [ahead] at hL
  cases vl with
  | inserted c ni =>
    have hni : ni < st.ns.length := by rw [← keys_length]; exact lt_of_get hl.2
    refine Ens.bind (Ens.getU hni) fun n hn => ⟨hvl, hni, rfl, ?_⟩
    rw [hL, pendAt, hget]
    simp
  | pending c vi q =>
    have hst : ∀ dir, Ens E (· < st.ts.length) (St.startTrapezoid st r.loc dir c) := by
      intro dir
      unfold St.startTrapezoid
      split
      · rename_i ni hlo
        rw [hlo] at hloc
        refine Ens.bind (Ens.getU hloc) fun n hn => ?_
        have hn0 := h.ns n (mem_of_get hn)
        unfold Nexus.getTrapezoidTowardCoords
        split
        · exact leftmost_ok hn0 dir
        · rename_i d hd
          have hdv := hn0.divs d (filterDividers_mem (by rw [hd]; simp [Zot.toList])).1
          refine Ens.bind (Ens.getP_lt hdv.2) fun s hs => ?_
          have hso := h.ss s (mem_of_get hs)
          refine Ens.bind (Ens.getP_lt hso.1) fun _ _ => ?_
          refine Ens.bind (Ens.getP_lt hso.2) fun _ _ => ?_
          show (if _ then _ else _) < _
          split
          · exact leftmost_ok hn0 dir
          · exact hdv.1
        · exact hE _
      · rename_i ti hlo
        rw [hlo] at hloc
        exact hloc
    refine Ens.bind (hst _) fun ti hti => ?_
    obtain ⟨ρ, hρ, hr⟩ := ht.rank
    refine Ens.bind ((walk_ranked hE h hρ hr _ _ _ fuel ti hti (by omega) ?_).with
      (walk_safe h _ _ _ _ _ hti)) fun ti hti => ?_
    · intro t ht i hi
      have hok := h.ts t (mem_of_get ht)
      generalize (if c.gtB r.cOrigin then Dir.asc else Dir.desc) = dir at hi ⊢
      cases dir with
      | asc => simp only [leftIn]; omega
      | desc =>
        have := hρ i (hok.down i hi)
        simp only [leftIn]; omega
    refine Ens.bind (Ens.subP_le (by omega)) fun u hu => ?_
    refine Ens.bind (Ens.getU hti.2) fun t ht => ?_
    refine ⟨hvl.set fun v' hv' => ?_, hti.2, by simp, ?_⟩
    · rw [hv] at hv'; cases hv'
      exact ⟨hl.1, (h.ts t (mem_of_get ht)).sink⟩
    · simp only
      rw [pendAt_congr (vls := r.vls) (by simp) (pendAt_set hget), hu, hL, pendAt, hget]
      simp

theorem relocLoop_ranked {E : Fault IErr → Prop} (hE : ∀ e, E (.err e)) {N : Nat} {st : St I C}
    (h : WF A st) (ht : Tidy N st) {fuel : Nat} (hf : st.ns.length + 1 < fuel)
    {vs : List (I × Coords C)} {L k : Nat} (hk : L < k)
    (r : St.Reloc I C) (hvl : VlsOK st.keys st.qs.length vs r.vls) (hloc : RLocOK st r.loc)
    (hpos : 0 < r.vls.length) (hL : r.unlocated = ahead r.vls r.target L) :
    Ens E (fun _ => True) (St.relocLoop fuel st k r) := by
  induction k generalizing r L with
  | zero => omega
  | succ k ih =>
    unfold St.relocLoop
    refine Ens.ite (fun _ => trivial) fun h0 => ?_
    cases L with
    | zero => exact absurd hL h0
    | succ L =>
      refine Ens.bind (relocStep_ranked hE h ht hf r hvl hloc hpos h0 hL) ?_
      rintro r' ⟨h1, h2, h3, h4⟩
      exact ih (by omega) r' h1 h2 (by omega) h4

theorem polyStep_ranked {E : Fault IErr → Prop} (hE : ∀ e, E (.err e)) {N : Nat}
    (cfg : Cfg) (hP : cfg.debug = true → E .panic) {fuel : Nat}
    (hf : enough N ≤ fuel) (p : PolyList I V) (xy : V → Coords C)
    {vs : List (I × Coords C)} (hvs : ∀ v ∈ vs, Src A p xy v) (hlen : 2 ≤ vs.length) {st0 : St I C}
    {done : List Nat} {l : St.PolyLoop I C} (h : PolyInv A vs st0 done l) (ht : Tidy N l.st)
    (hn : st0.ns.length + vs.length ≤ N) (hs : st0.ss.length + done.length < N)
    {si : Nat} (hsi : si < vs.length) :
    Ens E (fun l' => Tidy N l'.st) (St.polyStep cfg fuel p xy l si) := by
  have hsz : l.st.ns.length + (pend l.vls).length = st0.ns.length + vs.length := by
    have := h.perm.length_eq
    simpa [List.length_append, keys_length] using this
  have hss : l.st.ss.length = st0.ss.length + done.length := by
    obtain ⟨segs, h1, h2⟩ := h.ss
    rw [h1, List.length_append, h2.length_eq]
  have big := enough_big N
  unfold St.polyStep
  refine Ens.bind ((addNthSegment_ranked hE h.wf ht cfg hP hf p xy hvs h.ok (by omega) (by omega)
    hlen hsi).with (addNthSegment_safe h.wf cfg fuel p xy hvs h.ok hlen si)) ?_
  rintro ⟨st', vls', added⟩ ⟨ht', hn', hp⟩
  simp only at ht' hn' hp ⊢
  have hsz' : st'.ns.length + (pend vls').length = st0.ns.length + vs.length := by
    have := hn'.perm.length_eq
    simp only [List.length_append, keys_length] at this
    omega
  have hpd := h.pending
  refine Ens.bind (Ens.subP_le (by omega)) fun pd hpd' => ?_
  refine Ens.ite (fun _ => ?_) fun _ => ht'
  have hl := hn'.ok.len
  have hposn : 0 < st'.ns.length := by
    obtain ⟨s, a, b, e1, e2, e3, e4⟩ := hn'.ss
    have := lt_of_get e4.1
    rw [keys_length] at this
    omega
  refine Ens.bind (relocLoop_ranked hE hn'.wf ht' (L := vls'.length) (by omega) (by omega) _ hn'.ok hposn
    (by show 0 < vls'.length; omega) ?_) fun vls'' _ => ht'
  show pd = ahead vls' si vls'.length
  rw [ahead_cycle _ _ (by omega)]
  omega

theorem addPolygon_ranked {E : Fault IErr → Prop} (hE : ∀ e, E (.err e)) {N : Nat} {st : St I C}
    (h : WF A st) (ht : Tidy N st)
    (cfg : Cfg) (hcfg : cfg.Valid) (hP : cfg.debug = true → E .panic) {fuel : Nat}
    (hf : enough N ≤ fuel) (p : PolyList I V) (xy : V → Coords C) (k : Nat)
    {vs : List (I × Coords C)} (hvs : ∀ v ∈ vs, Src A p xy v) (hlen : 2 ≤ vs.length)
    (hn : st.ns.length + vs.length ≤ N) (hs : st.ss.length + vs.length ≤ N) :
    Ens E (fun st' => Tidy N st' ∧ st'.ns.length ≤ st.ns.length + vs.length ∧
        st'.ss.length = st.ss.length + vs.length)
      (St.addPolygon cfg fuel p xy k st (startLocs vs)) := by
  have hol : (cfg.order k vs.length).length = vs.length := by
    rw [(hcfg k vs.length).length_eq, List.length_range]
  have hsafe := addPolygon_safe h cfg fuel p xy k hvs hlen
  have key : Ens E (Tidy N) (St.addPolygon cfg fuel p xy k st (startLocs vs)) := by
    unfold St.addPolygon
    have hl : (startLocs vs).length = vs.length := by simp [startLocs]
    rw [hl]
    have h0 : PolyInv A vs st [] ⟨st, startLocs vs, vs.length, 0, 1, cfg.mathN vs.length 1⟩ := by
      refine ⟨h, ⟨hl, ?_⟩, List.prefix_refl _, ?_, by simp, ?_, ⟨[], by simp, .nil⟩⟩
      · intro i v vl h1 h2
        simp only [startLocs, List.getElem?_map, h1, Option.map_some, Option.some.injEq] at h2
        subst h2
        exact ⟨rfl, h.root⟩
      · show (st.keys ++ pend (startLocs vs)).Perm _
        rw [pend_startLocs]
      · show _ = (pend (startLocs vs)).length
        rw [pend_startLocs]
    refine Ens.bind (Ens.foldlM (fun rest l => Tidy N l.st ∧ ∃ done, cfg.order k vs.length = done ++ rest ∧
      PolyInv A vs st done l) ?_ _ _ ⟨ht, [], rfl, h0⟩) ?_
    · rintro a rest l ⟨ht, done, hd, hi⟩
      have hmem : a ∈ cfg.order k vs.length := by rw [hd]; simp
      have ha : a < vs.length := List.mem_range.1 ((hcfg k vs.length).subset hmem)
      have hdl : done.length < vs.length := by
        rw [hd] at hol
        simp only [List.length_append, List.length_cons] at hol
        omega
      refine Ens.imp ((polyStep_ranked hE cfg hP hf p xy hvs hlen hi ht hn (by omega) ha).with
        (polyStep_safe cfg fuel p xy hvs hlen hi a)) ?_
      rintro l' ⟨h1, h2⟩
      exact ⟨h1, done ++ [a], by simp [hd], h2⟩
    · rintro l ⟨h, -⟩
      exact h
  refine (key.with hsafe).imp ?_
  rintro st' ⟨ht', l, rfl, hi⟩
  refine ⟨ht', ?_, ?_⟩
  · have := hi.perm.length_eq
    simp only [List.length_append, keys_length] at this
    omega
  · obtain ⟨segs, h1, h2⟩ := hi.ss
    rw [h1, List.length_append, h2.length_eq, hol]

/-- How a trapezoidation can end without a result: an error; a panic only if the debug assertions
are on or the input does not resolve. -/
def Stops {ε : Type} (cfg : Cfg) (p : PolyList I V) : Fault ε → Prop
  | .err _ => True
  | .panic => cfg.debug = true ∨ none ∈ p.elems ∨
      ∃ i, some (Elem.cont i) ∈ p.elems ∧ p.getVertex i = none
  | .timeout => False
  | .ub => False

/-- The vertices among the elements. -/
def conts (es : List (Option (Elem I))) : Nat :=
  es.countP fun e => match e with | some (.cont _) => true | _ => false

theorem conts_le (es : List (Option (Elem I))) : conts es ≤ es.length := List.countP_le_length

/-- The invariant of the element loop. -/
structure BuildRank (p : PolyList I V) (xy : V → Coords C) (rest : List (Option (Elem I)))
    (l : St.BuildLoop I C) : Prop where
  inv : BuildInv (fun _ => True) p xy l
  tidy : Tidy (conts p.elems) l.st
  ns : l.st.ns.length + l.vLookup.length + conts rest ≤ conts p.elems
  ss : l.st.ss.length + l.vLookup.length + conts rest ≤ conts p.elems
  elems : ∀ e ∈ rest, e = some .newPolygon ∨ e ∈ p.elems

theorem buildStep_ranked (cfg : Cfg) (hcfg : cfg.Valid) {fuel : Nat} (p : PolyList I V)
    (xy : V → Coords C) (hf : enough (conts p.elems) ≤ fuel) {e : Option (Elem I)}
    {rest : List (Option (Elem I))}
    {l : St.BuildLoop I C} (h : BuildRank p xy (e :: rest) l) :
    Ens (Stops cfg p) (BuildRank p xy rest) (St.buildStep cfg fuel p xy l e) := by
  have hel : ∀ e ∈ rest, e = some .newPolygon ∨ e ∈ p.elems := fun e he => h.elems e (by simp [he])
  have he := h.elems e (by simp)
  have hsafe := buildStep_safe cfg fuel p xy h.inv e fun _ _ _ _ => trivial
  refine ((?_ : Ens (Stops cfg p) (fun l' : St.BuildLoop I C => Tidy (conts p.elems) l'.st ∧
    l'.st.ns.length + l'.vLookup.length + conts rest ≤ conts p.elems ∧
    l'.st.ss.length + l'.vLookup.length + conts rest ≤ conts p.elems) _).with hsafe).imp
    fun l' hl' => ⟨hl'.2, hl'.1.1, hl'.1.2.1, hl'.1.2.2, hel⟩
  obtain ⟨⟨hwf, vs, hvs, hsrc⟩, ht, hns, hss, -⟩ := h
  have hlv : l.vLookup.length = vs.length := by rw [hvs]; simp [startLocs]
  unfold St.buildStep
  split
  · rcases he with h | h
    · cases h
    · exact .inr (.inl h)
  · rename_i i
    rcases he with h | h
    · cases h
    have hc : conts (some (.cont i) :: rest) = conts rest + 1 := by
      simp [conts]
    rw [hc] at hns hss
    unfold PolyList.coords
    cases hv : p.getVertex i with
    | none => exact .inr (.inr ⟨i, h, hv⟩)
    | some v =>
      refine ⟨ht, ?_, ?_⟩
      · simp only [List.length_append, List.length_cons, List.length_nil]
        omega
      · simp only [List.length_append, List.length_cons, List.length_nil]
        omega
  · have hc : conts (some .newPolygon :: rest) = conts rest := by
      simp [conts]
    rw [hc] at hns hss
    refine Ens.ite (fun _ => Ens.ite (fun _ => trivial) fun hlen => ?_) fun _ => ⟨ht, hns, hss⟩
    rw [hvs]
    refine Ens.bind (Ens.mapErr (E := Stops cfg p) (addPolygon_ranked (fun _ => trivial) hwf ht cfg hcfg
      (fun h => .inl h) hf p xy l.k hsrc (by omega) (by omega) (by omega)) (fun _ _ => trivial) (fun h => h) (fun h => h)
      (fun h => h)) ?_
    · rintro st' ⟨h1, h2, h3⟩
      refine ⟨h1, ?_, ?_⟩
      · simp only [List.length_nil]
        omega
      · simp only [List.length_nil]
        omega

theorem trapezoidize_ranked (cfg : Cfg) (hcfg : cfg.Valid) {fuel : Nat} (p : PolyList I V)
    (xy : V → Coords C) (hf : enough (conts p.elems) ≤ fuel) :
    Ens (Stops cfg p) (fun st => WF (fun _ => True) st ∧ Tidy (conts p.elems) st ∧
      st.ns.length ≤ conts p.elems ∧ st.ss.length ≤ conts p.elems) (trapezoidize cfg fuel p xy) := by
  unfold trapezoidize St.build
  refine Ens.bind (Ens.foldlM (BuildRank p xy) (fun a l s h => buildStep_ranked cfg hcfg p xy hf h) _ _
    (?_ : BuildRank p xy (p.elems ++ [some .newPolygon]) ⟨St.init, [], 0⟩)) ?_
  · refine ⟨⟨WF.init, [], rfl, by simp⟩, Tidy.init _, ?_, ?_, ?_⟩
    · simp [St.init, conts]
    · simp [St.init, conts]
    · intro e he
      rcases List.mem_append.1 he with h | h
      · exact .inr h
      · exact .inl (List.mem_singleton.1 h)
  · rintro l ⟨⟨hwf, -⟩, ht, hns, hss, -⟩
    exact ⟨hwf, ht, by omega, by omega⟩

end Tri
