import Verif.Proof.Sim
import Verif.Spec.Input

/-!
# Simulation between trapezoidations of the same indices at different places

The trapezoidation asks for comparisons of vertices and on which side of an edge a vertex is.  `X` and `X'` are the two places of an
index, `E i j` says that the answers for the edge from `i` up to `j` are the same.
-/

set_option linter.unusedSectionVars false

namespace Tri

section
variable {I V W C D : Type} [Scalar C] [Scalar D]

/-- The same answers to comparisons, and to side tests for edges in `E`. -/
structure RespE (X : I → Option (Coords C)) (X' : I → Option (Coords D)) (E : I → I → Prop) : Prop where
  cmp : ∀ {i j a a' b b'}, X i = some a → X' i = some a' → X j = some b → X' j = some b' → a.partialCmp b = a'.partialCmp b'
  left : ∀ {i j k a a' b b' c c'}, E i j → X i = some a → X' i = some a' → X j = some b → X' j = some b' → X k = some c →
    X' k = some c' → isLeftOfLine a b c = isLeftOfLine a' b' c'

section
variable (X : I → Option (Coords C)) (X' : I → Option (Coords D)) (E : I → I → Prop)

/-- The two places of a vertex. -/
def AtI (i : I) (c : Coords C) (c' : Coords D) : Prop := X i = some c ∧ X' i = some c'

/-- The two places of some vertex. -/
def Pl (c : Coords C) (c' : Coords D) : Prop := ∃ i, AtI X X' i c c'

/-- The two places of the ends of an edge. -/
def PE (i j : I) (a b : Coords C) (a' b' : Coords D) : Prop := E i j ∧ AtI X X' i a a' ∧ AtI X X' j b b'

structure NxE (n : Nexus I C) (n' : Nexus I D) : Prop extends NexusRel Eq (Pl X X') n n' where
  at_ : AtI X X' n.vi n.c n'.c

/-- Related vertices, in the order `vis`. -/
structure NsE (vis : List I) (ns : List (Nexus I C)) (ns' : List (Nexus I D)) : Prop where
  rel : List.Forall₂ (NxE X X') ns ns'
  vis : ns.map (·.vi) = vis

structure SegE (vis : List I) (s : Segment C) (s' : Segment D) : Prop where
  niMin : s.niMin = s'.niMin
  niMax : s.niMax = s'.niMax
  ends : ∃ i j, vis[s.niMin]? = some i ∧ vis[s.niMax]? = some j ∧ PE X X' E i j s.cMin s.cMax s'.cMin s'.cMax

def BranchE : Branch C → Branch D → Prop
  | .X a b, .X a' b' => ∃ i j, PE X X' E i j a b a' b'
  | .Y a, .Y a' => Pl X X' a a'
  | _, _ => False

def QE : QueryNode C → QueryNode D → Prop
  | .branch l r b, .branch l' r' b' => l = l' ∧ r = r' ∧ BranchE X X' E b b'
  | .sink t, .sink t' => t = t'
  | _, _ => False

structure StE (vis : List I) (st : St I C) (st' : St I D) : Prop where
  ns : NsE X X' vis st.ns st'.ns
  ss : List.Forall₂ (SegE X X' E vis) st.ss st'.ss
  ts : st.ts = st'.ts
  qs : List.Forall₂ (QE X X' E) st.qs st'.qs

def VLocE (vis : List I) (i : I) : VLoc I C → VLoc I D → Prop
  | .pending c v q, .pending c' v' q' => AtI X X' i c c' ∧ v = i ∧ v' = i ∧ q = q'
  | .inserted c n, .inserted c' n' => AtI X X' i c c' ∧ n = n' ∧ vis[n]? = some i
  | _, _ => False

/-- Related locations of the vertices `g`. -/
structure VLsE (vis : List I) (g : List I) (vls : List (VLoc I C)) (vls' : List (VLoc I D)) : Prop where
  len : vls.length = g.length
  len' : vls'.length = g.length
  rel : ∀ (k : Nat) (i : I) (v : VLoc I C) (v' : VLoc I D), g[k]? = some i → vls[k]? = some v → vls'[k]? = some v' → VLocE X X' vis i v v'

/-- The side tests for the edges of `g` have the same answers. -/
def AdjE (g : List I) : Prop :=
  ∀ (k : Nat) (i j : I), g[k]? = some i → g[(k + 1) % g.length]? = some j → ∀ a b, X i = some a → X j = some b →
    (a.ltB b = true ∨ b.gtB a = true → E i j) ∧ (a.ltB b = false ∨ b.gtB a = false → E j i)

end

variable {X : I → Option (Coords C)} {X' : I → Option (Coords D)} {E : I → I → Prop}

theorem AtI.pl {i : I} {c : Coords C} {c' : Coords D} (h : AtI X X' i c c') : Pl X X' c c' := ⟨i, h⟩

theorem PE.segRel {i j : I} {a b : Coords C} {a' b' : Coords D} (h : PE X X' E i j a b a' b') (m n : Nat) :
    SegRel (Pl X X') ⟨m, n, a, b⟩ ⟨m, n, a', b'⟩ := ⟨rfl, rfl, h.2.1.pl, h.2.2.pl⟩

theorem SegE.segRel {vis : List I} {s : Segment C} {s' : Segment D} (h : SegE X X' E vis s s') : SegRel (Pl X X') s s' := by
  obtain ⟨i, j, -, -, -, h1, h2⟩ := h.ends
  exact ⟨h.niMin, h.niMax, h1.pl, h2.pl⟩

theorem NsE.rels {vis : List I} {ns : List (Nexus I C)} {ns' : List (Nexus I D)} (h : NsE X X' vis ns ns') :
    List.Forall₂ (NexusRel Eq (Pl X X')) ns ns' := h.rel.imp fun _ _ h => h.toNexusRel

theorem StE.stRel {vis : List I} {st : St I C} {st' : St I D} (h : StE X X' E vis st st') : StRel Eq (Pl X X') st st' := by
  refine ⟨h.ns.rels, h.ss.imp fun _ _ h => h.segRel, h.ts, h.qs.imp fun q q' hq => ?_⟩
  cases q <;> cases q'
  · obtain ⟨h1, h2, hb⟩ := hq
    refine ⟨h1, h2, ?_⟩
    rename_i b _ _ b'
    cases b <;> cases b'
    · obtain ⟨i, j, -, h3, h4⟩ := hb
      exact ⟨h3.pl, h4.pl⟩
    · exact hb.elim
    · exact hb.elim
    · exact hb
  · exact hq.elim
  · exact hq.elim
  · exact hq

/-- More vertices. -/
theorem prefix_get {vis vis' : List I} (h : vis <+: vis') {n : Nat} {i : I} (hi : vis[n]? = some i) : vis'[n]? = some i := by
  obtain ⟨t, rfl⟩ := h
  rw [List.getElem?_append_left (lt_of_get hi), hi]

theorem SegE.mono {vis vis' : List I} (hv : vis <+: vis') {s : Segment C} {s' : Segment D} (h : SegE X X' E vis s s') :
    SegE X X' E vis' s s' := by
  obtain ⟨i, j, h1, h2, h3⟩ := h.ends
  exact ⟨h.niMin, h.niMax, i, j, prefix_get hv h1, prefix_get hv h2, h3⟩

theorem VLocE.mono {vis vis' : List I} (hv : vis <+: vis') {i : I} {v : VLoc I C} {v' : VLoc I D} (h : VLocE X X' vis i v v') :
    VLocE X X' vis' i v v' := by
  cases v <;> cases v'
  · exact h
  · exact h.elim
  · exact h.elim
  · exact ⟨h.1, h.2.1, prefix_get hv h.2.2⟩

theorem VLsE.mono {vis vis' : List I} (hv : vis <+: vis') {g : List I} {vls : List (VLoc I C)} {vls' : List (VLoc I D)}
    (h : VLsE X X' vis g vls vls') : VLsE X X' vis' g vls vls' :=
  ⟨h.len, h.len', fun k i v v' h1 h2 h3 => (h.rel k i v v' h1 h2 h3).mono hv⟩

theorem VLsE.set {vis : List I} {g : List I} {vls : List (VLoc I C)} {vls' : List (VLoc I D)} (h : VLsE X X' vis g vls vls') {k : Nat}
    {i : I} (hk : g[k]? = some i) {v : VLoc I C} {v' : VLoc I D} (hv : VLocE X X' vis i v v') :
    VLsE X X' vis g (vls.set k v) (vls'.set k v') := by
  refine ⟨by rw [List.length_set, h.len], by rw [List.length_set, h.len'], fun l j w w' h1 h2 h3 => ?_⟩
  have hl := lt_of_get hk
  by_cases e : k = l
  · subst e
    rw [List.getElem?_set_self (by rw [h.len]; exact hl)] at h2
    rw [List.getElem?_set_self (by rw [h.len']; exact hl)] at h3
    rw [hk] at h1
    cases h1; cases h2; cases h3
    exact hv
  · rw [List.getElem?_set_ne e] at h2 h3
    exact h.rel l j w w' h1 h2 h3

theorem VLsE.getP {ε : Type} {vis : List I} {g : List I} {vls : List (VLoc I C)} {vls' : List (VLoc I D)} (h : VLsE X X' vis g vls vls') (k : Nat) :
    RelR (ε := ε) (fun v v' => ∃ i, g[k]? = some i ∧ VLocE X X' vis i v v' ∧ vls[k]? = some v ∧ vls'[k]? = some v')
      (getP vls k) (getP vls' k) := by
  unfold Tri.getP
  cases h1 : vls[k]? with
  | none =>
    rw [List.getElem?_eq_none_iff, h.len, ← h.len', ← List.getElem?_eq_none_iff] at h1
    rw [h1]; exact rfl
  | some v =>
    have hl := lt_of_get h1
    rw [h.len] at hl
    rw [List.getElem?_eq_getElem (l := vls') (by rw [h.len']; exact hl)]
    have hg : g[k]? = some g[k] := List.getElem?_eq_getElem hl
    exact ⟨_, hg, h.rel _ _ _ _ hg h1 (List.getElem?_eq_getElem _), rfl, rfl⟩

theorem NsE.getP {ε : Type} {vis : List I} {ns : List (Nexus I C)} {ns' : List (Nexus I D)} (h : NsE X X' vis ns ns') (n : Nat) :
    RelR (ε := ε) (fun m m' => NxE X X' m m' ∧ vis[n]? = some m.vi) (getP ns n) (getP ns' n) := by
  refine (RelR.getP h.rel n).withEq.imp fun m m' hm => ⟨hm.1, ?_⟩
  have := hm.2
  unfold Tri.getP at this
  split at this
  · next e => cases this; rw [← h.vis, List.getElem?_map, e]; rfl
  · cases this

theorem NsE.getU {ε : Type} {vis : List I} {ns : List (Nexus I C)} {ns' : List (Nexus I D)} (h : NsE X X' vis ns ns') (n : Nat) :
    RelR (ε := ε) (fun m m' => NxE X X' m m' ∧ vis[n]? = some m.vi) (getU ns n) (getU ns' n) := by
  refine (RelR.getU h.rel n).withEq.imp fun m m' hm => ⟨hm.1, ?_⟩
  have := hm.2
  unfold Tri.getU at this
  split at this
  · next e => cases this; rw [← h.vis, List.getElem?_map, e]; rfl
  · cases this

theorem NsE.set {vis : List I} {ns : List (Nexus I C)} {ns' : List (Nexus I D)} (h : NsE X X' vis ns ns') {n : Nat}
    {m : Nexus I C} {m' : Nexus I D} (hm : NxE X X' m m') (hv : vis[n]? = some m.vi) :
    NsE X X' vis (ns.set n m) (ns'.set n m') := by
  refine ⟨forall₂_set h.rel n hm, ?_⟩
  rw [List.map_set, h.vis]
  refine List.ext_getElem? fun k => ?_
  by_cases e : n = k
  · subst e
    rw [List.getElem?_set_self (lt_of_get hv), hv]
  · rw [List.getElem?_set_ne e]

theorem NxE.replace {n : Nexus I C} {n' : Nexus I D} (h : NxE X X' n n') (o nw : Nat) :
    RelR (fun m m' => NxE X X' m m' ∧ m.vi = n.vi) (n.replaceTrapezoid o nw) (n'.replaceTrapezoid o nw) := by
  obtain ⟨vi, c, u, d, ds⟩ := n
  obtain ⟨vi', c', u', d', ds'⟩ := n'
  obtain ⟨⟨h1, h2, h3, h4, h5⟩, h6⟩ := h
  simp only at h1 h2 h3 h4 h5 h6
  subst h1 h3 h4 h5
  unfold Nexus.replaceTrapezoid
  have go : ∀ u d ds, (NxE X X' ⟨vi, c, u, d, ds⟩ ⟨vi, c', u, d, ds⟩ ∧ vi = vi) := fun u d ds => ⟨⟨⟨rfl, h2, rfl, rfl, rfl⟩, h6⟩, rfl⟩
  refine RelR.ite Iff.rfl (go _ _ _) (RelR.ite Iff.rfl (go _ _ _) ?_)
  cases ds with
  | zero => exact rfl
  | one d0 => exact RelR.ite Iff.rfl (go _ _ _) rfl
  | two d0 d1 => exact RelR.ite Iff.rfl (go _ _ _) (RelR.ite Iff.rfl (go _ _ _) rfl)

variable (hE : RespE X X' E)
include hE

theorem RespE.ltB {a b : Coords C} {a' b' : Coords D} (h1 : Pl X X' a a') (h2 : Pl X X' b b') : a.ltB b = a'.ltB b' := by
  obtain ⟨i, h1, h1'⟩ := h1
  obtain ⟨j, h2, h2'⟩ := h2
  simp only [Coords.ltB, hE.cmp h1 h1' h2 h2']
theorem RespE.gtB {a b : Coords C} {a' b' : Coords D} (h1 : Pl X X' a a') (h2 : Pl X X' b b') : a.gtB b = a'.gtB b' := by
  obtain ⟨i, h1, h1'⟩ := h1
  obtain ⟨j, h2, h2'⟩ := h2
  simp only [Coords.gtB, hE.cmp h1 h1' h2 h2']
theorem RespE.leB {a b : Coords C} {a' b' : Coords D} (h1 : Pl X X' a a') (h2 : Pl X X' b b') : a.leB b = a'.leB b' := by
  obtain ⟨i, h1, h1'⟩ := h1
  obtain ⟨j, h2, h2'⟩ := h2
  simp only [Coords.leB, hE.cmp h1 h1' h2 h2']

theorem PE.left {i j : I} {a b : Coords C} {a' b' : Coords D} (h : PE X X' E i j a b a' b') {c : Coords C} {c' : Coords D} (hc : Pl X X' c c') :
    isLeftOfLine a b c = isLeftOfLine a' b' c' := by
  obtain ⟨k, h1, h2⟩ := hc
  exact hE.left h.1 h.2.1.1 h.2.1.2 h.2.2.1 h.2.2.2 h1 h2

theorem SegE.isOnLeft {vis : List I} {s : Segment C} {s' : Segment D} (h : SegE X X' E vis s s') {c : Coords C} {c' : Coords D}
    (hc : Pl X X' c c') : s.isOnLeft c = s'.isOnLeft c' := by
  obtain ⟨i, j, -, -, h1⟩ := h.ends
  exact h1.left hE hc

theorem find_e {qs : List (QueryNode C)} {qs' : List (QueryNode D)} (h : List.Forall₂ (QE X X' E) qs qs')
    {c : Coords C} {c' : Coords D} (hc : Pl X X' c c') (fuel qi : Nat) :
    RelR (· = ·) (St.find qs c fuel qi) (St.find qs' c' fuel qi) := by
  induction fuel generalizing qi with
  | zero => exact rfl
  | succ k ih =>
    unfold St.find
    refine RelR.bind (RelR.getU h qi) fun q q' hq => ?_
    rcases q with ⟨l, r, b⟩ | _ <;> rcases q' with ⟨l', r', b'⟩ | _
    · obtain ⟨rfl, rfl, hb⟩ := hq
      have : b.useLeft c = b'.useLeft c' := by
        cases b <;> cases b'
        · obtain ⟨i, j, hb⟩ := hb
          exact hb.left hE hc
        · exact hb.elim
        · exact hb.elim
        · exact hE.leB hc hb
      simp only [this]
      exact ih _
    · exact hq.elim
    · exact hq.elim
    · cases hq; exact rfl

theorem Nexus.addSegment_e {vis : List I} {ns : List (Nexus I C)} {ns' : List (Nexus I D)}
    {ss : List (Segment C)} {ss' : List (Segment D)} (hn : NsE X X' vis ns ns')
    (hs : List.Forall₂ (SegE X X' E vis) ss ss') (ni si ti : Nat) :
    RelR (NsE X X' vis) (Nexus.addSegment ns ss ni si ti) (Nexus.addSegment ns' ss' ni si ti) := by
  unfold Nexus.addSegment
  refine RelR.bind (R := (· = ·)) ?_ ?_
  · unfold Nexus.getSegmentDirection
    refine RelR.bind (RelR.getP hs si) fun s s' h => ?_
    exact RelR.ite (by rw [h.niMax]) rfl (RelR.ite (by rw [h.niMin]) rfl rfl)
  · rintro dir _ rfl
    refine RelR.bind (hn.getP ni) fun n n' ⟨h, hv⟩ => ?_
    have go : ∀ ds, NsE X X' vis (ns.set ni { n with dividers := ds }) (ns'.set ni { n' with dividers := ds }) :=
      fun ds => hn.set ⟨⟨h.vi, h.c, h.up, h.down, rfl⟩, h.at_⟩ hv
    simp only [h.divs]
    split
    · exact go _
    · rename_i div0 _
      refine RelR.bind (R := (· = ·)) ?_ ?_
      · unfold Nexus.swapDividers
        refine RelR.ite Iff.rfl ?_ rfl
        refine RelR.bind (RelR.getP hs _) fun s0 s0' h0 => ?_
        refine RelR.bind (RelR.getP hs _) fun s1 s1' h1 => ?_
        cases dir
        · simp only [h1.niMax]
          exact RelR.bind (RelR.getP hn.rel _) fun n1 n1' h2 => h0.isOnLeft hE h2.c
        · simp only [h1.niMin]
          exact RelR.bind (RelR.getP hn.rel _) fun n1 n1' h2 => h0.isOnLeft hE h2.c
      · rintro b _ rfl
        exact RelR.ite Iff.rfl (go _) (go _)
    · exact rfl

theorem NxE.down_e [DecidableEq I] {vis : List I} {n : Nexus I C} {n' : Nexus I D}
    (h : NxE X X' n n') {ns : List (Nexus I C)} {ns' : List (Nexus I D)}
    {ss : List (Segment C)} {ss' : List (Segment D)} (hn : NsE X X' vis ns ns')
    (hs : List.Forall₂ (SegE X X' E vis) ss ss') {s : Segment C} {s' : Segment D} (hss : SegE X X' E vis s s') :
    RelR (· = ·) (n.getDownTrapezoidInDirection ns ss s) (n'.getDownTrapezoidInDirection ns' ss' s') := by
  have hI : RespI (fun i j : I => i = j) := by rintro i _ j _ rfl rfl; exact Iff.rfl
  unfold Nexus.getDownTrapezoidInDirection
  rw [h.filterDividers]
  split
  · exact h.down
  · refine RelR.bind (R := Pl X X') ?_ fun c c' hc => ?_
    · unfold Nexus.downTestCoords
      rw [hss.niMin, hss.niMax]
      refine RelR.bind (RelR.getP hn.rel _) fun m m' hm => ?_
      refine RelR.ite (hI hm.vi h.vi) rfl ?_
      refine RelR.bind (RelR.getP hn.rel _) fun m2 m2' hm2 => ?_
      refine RelR.ite (hI hm2.vi h.vi) ?_ h.c
      refine RelR.bind (RelR.getP hs _) fun sr sr' hsr => ?_
      rw [hsr.niMin]
      exact RelR.bind (RelR.getP hn.rel _) fun m3 m3' hm3 => hm3.c
    · exact RelR.ite (by rw [hss.isOnLeft hE hc]) rfl h.down

/-- The ends of the edge along which a vertex is looked for. -/
def Along (X : I → Option (Coords C)) (X' : I → Option (Coords D)) (E : I → I → Prop) (dir : Dir) (a b : Coords C) (a' b' : Coords D) : Prop :=
  match dir with
  | .asc => ∃ i j, PE X X' E i j a b a' b'
  | .desc => ∃ i j, PE X X' E i j b a b' a'

theorem NxE.between {n : Nexus I C} {n' : Nexus I D} (h : NxE X X' n n')
    (dir : Dir) {a b : Coords C} {a' b' : Coords D} (hab : Along X X' E dir a b a' b') :
    n.getTrapezoidBetweenCoords dir a b = n'.getTrapezoidBetweenCoords dir a' b' := by
  unfold Nexus.getTrapezoidBetweenCoords
  rw [h.filterDividers, h.leftmost]
  split
  · rfl
  · cases dir
    · obtain ⟨i, j, hab⟩ := hab
      simp only [hab.left hE h.c]
    · obtain ⟨i, j, hab⟩ := hab
      simp only [hab.left hE h.c]

theorem NxE.toward {vis : List I} {n : Nexus I C} {n' : Nexus I D} (h : NxE X X' n n')
    {ns : List (Nexus I C)} {ns' : List (Nexus I D)}
    {ss : List (Segment C)} {ss' : List (Segment D)} (hn : NsE X X' vis ns ns')
    (hs : List.Forall₂ (SegE X X' E vis) ss ss')
    (dir : Dir) {b : Coords C} {b' : Coords D} (hb : Pl X X' b b') :
    RelR (· = ·) (n.getTrapezoidTowardCoords ss ns dir b) (n'.getTrapezoidTowardCoords ss' ns' dir b') := by
  unfold Nexus.getTrapezoidTowardCoords
  rw [h.filterDividers]
  split
  · exact h.leftmost dir
  · refine RelR.bind (RelR.getP hs _) fun s s' h0 => ?_
    obtain ⟨i, j, hi, hj, e, ei, ej⟩ := h0.ends
    rw [← h0.niMin, ← h0.niMax]
    refine RelR.bind (hn.getP _) fun m m' hm => ?_
    refine RelR.bind (hn.getP _) fun m2 m2' hm2 => ?_
    show _ = _
    obtain ⟨hm, hmv⟩ := hm
    obtain ⟨hm2, hmv2⟩ := hm2
    rw [hi] at hmv
    rw [hj] at hmv2
    cases hmv
    cases hmv2
    have : PE X X' E m.vi m2.vi m.c m2.c m'.c m2'.c := ⟨e, hm.at_, hm2.at_⟩
    rw [this.left hE hb, h.leftmost]
  · exact rfl

namespace St

omit hE in
theorem init_e : StE X X' E [] (St.init : St I C) (St.init : St I D) :=
  ⟨⟨.nil, rfl⟩, .nil, rfl, .cons rfl .nil⟩

omit hE in
theorem replaceAt_e {vis : List I} {ns : List (Nexus I C)} {ns' : List (Nexus I D)}
    (hn : NsE X X' vis ns ns') (ni : Option Nat) (o nw : Nat) :
    RelR (NsE X X' vis) (replaceAt ns ni o nw) (replaceAt ns' ni o nw) := by
  cases ni with
  | none => exact hn
  | some ni =>
    refine RelR.bind (hn.getP _) fun m m' hm => ?_
    exact RelR.bind (hm.1.replace o nw) fun k k' hk => hn.set hk.1 (by rw [hk.2]; exact hm.2)

omit hE in
theorem addVertexAt_e {vis : List I} {st : St I C} {st' : St I D} (h : StE X X' E vis st st') {vi : I}
    {c : Coords C} {c' : Coords D} (hc : AtI X X' vi c c') (qi ti : Nat) :
    RelR (StE X X' E (vis ++ [vi])) (st.addVertexAt vi c qi ti) (st'.addVertexAt vi c' qi ti) := by
  unfold addVertexAt
  simp only [h.ts, h.qs.length_eq, h.ns.rel.length_eq]
  refine RelR.bind (RelR.getP h.qs _) fun q q' hq => ?_
  refine RelR.bind (RelR.modP h.qs _ fun _ _ _ => ⟨rfl, rfl, hc.pl⟩) fun qs qs' hqs => ?_
  refine RelR.bind (R := (· = ·)) RelR.eq ?_
  rintro ts _ rfl
  refine RelR.bind (R := (· = ·)) RelR.eq ?_
  rintro t _ rfl
  have hns : NsE X X' (vis ++ [vi]) (st.ns ++ [Nexus.new vi c st'.ts.length ti]) (st'.ns ++ [Nexus.new vi c' st'.ts.length ti]) := by
    refine ⟨forall₂_append h.ns.rel (.cons ⟨⟨rfl, hc.pl, rfl, rfl, rfl⟩, hc⟩ .nil), ?_⟩
    rw [List.map_append, h.ns.vis]; rfl
  refine RelR.bind (replaceAt_e hns _ _ _) fun ns ns' hns => ?_
  exact ⟨hns, h.ss.imp fun _ _ h => h.mono (List.prefix_append _ _), rfl, forall₂_append hqs (.cons hq (.cons rfl .nil))⟩

/-- The two placements are defined for the same indices. -/
def PolyE (X : I → Option (Coords C)) (X' : I → Option (Coords D)) (p : PolyList I V) (xy : V → Coords C) (p' : PolyList I W)
    (xy' : W → Coords D) : Prop := ∀ i, ∀ {ε : Type}, RelR (AtI X X' i) (p.coords (ε := ε) xy i) (p'.coords (ε := ε) xy' i)

theorem addVertex_e {vis : List I} {st : St I C} {st' : St I D} (h : StE X X' E vis st st') (cfg : Cfg) (fuel : Nat)
    {p : PolyList I V} {xy : V → Coords C} {p' : PolyList I W} {xy' : W → Coords D}
    (hp : PolyE X X' p xy p' xy') (vi : I) (qi : Nat) :
    RelR (fun r r' => StE X X' E (vis ++ [vi]) r.1 r'.1 ∧ r.2 = r'.2 ∧ r.2 = vis.length) (st.addVertex cfg fuel p xy vi qi)
      (st'.addVertex cfg fuel p' xy' vi qi) := by
  unfold addVertex
  refine RelR.bind (hp vi) fun c c' hc => ?_
  refine RelR.bind (find_e hE h.qs hc.pl fuel qi) ?_
  rintro ⟨q, t⟩ _ rfl
  refine RelR.bind (addVertexAt_e h hc q t) fun st1 st1' h1 => ?_
  refine RelR.bind (debugCheck_rel h1.stRel cfg fuel) fun _ _ _ => ⟨h1, h.ns.rel.length_eq, ?_⟩
  rw [← h.ns.vis, List.length_map]

variable [DecidableEq I]

structure SegLoopE (X : I → Option (Coords C)) (X' : I → Option (Coords D)) (E : I → I → Prop) (vis : List I) (l : SegLoop I C)
    (l' : SegLoop I D) : Prop where
  st : StE X X' E vis l.st l'.st
  ni : l.ni = l'.ni
  upleft : l.tiUpleft = l'.tiUpleft
  upright : l.tiUpright = l'.tiUpright

theorem addSegmentStart_e {vis : List I} {st : St I C} {st' : St I D} (h : StE X X' E vis st st') (niMin niMax : Nat)
    {c1 c2 : Coords C} {c1' c2' : Coords D} (hs : SegE X X' E vis ⟨niMin, niMax, c1, c2⟩ ⟨niMin, niMax, c1', c2'⟩) :
    RelR (SegLoopE X X' E vis) (st.addSegmentStart niMin niMax c1 c2)
      (st'.addSegmentStart niMin niMax c1' c2') := by
  unfold addSegmentStart
  simp only [h.ts, h.qs.length_eq, h.ss.length_eq]
  have hss := forall₂_append h.ss (.cons hs .nil)
  obtain ⟨i, j, -, -, hij⟩ := hs.ends
  refine RelR.bind (RelR.getU h.ns.rel _) fun n n' hn => ?_
  refine RelR.bind (hn.down_e hE h.ns hss hs) ?_
  rintro ti _ rfl
  refine RelR.bind (R := (· = ·)) RelR.eq ?_
  rintro t _ rfl
  refine RelR.bind (RelR.getP h.qs _) fun q q' hq => ?_
  refine RelR.bind (RelR.modP h.qs _ fun _ _ _ => ⟨rfl, rfl, i, j, hij⟩) fun qs qs' hqs => ?_
  refine RelR.bind (R := (· = ·)) RelR.eq ?_
  rintro ts _ rfl
  refine RelR.bind (R := (· = ·)) RelR.eq ?_
  rintro t _ rfl
  refine RelR.bind (Nexus.addSegment_e hE h.ns hss _ _ _) fun ns ns' hns => ?_
  refine RelR.bind (R := (· = ·)) RelR.eq ?_
  rintro t _ rfl
  cases t.down with
  | none => exact rfl
  | some ni =>
    refine RelR.bind (RelR.getU hns.rel ni) fun n n' hn => ?_
    rw [hs.isOnLeft hE hn.c]
    refine RelR.bind (replaceAt_e hns _ _ _) fun ns ns' hns => ?_
    exact ⟨⟨hns, hss, rfl, forall₂_append hqs (.cons hq (.cons rfl .nil))⟩, rfl, rfl, rfl⟩

theorem addSegmentStep_e {vis : List I} {l : SegLoop I C} {l' : SegLoop I D} (h : SegLoopE X X' E vis l l') (si : Nat)
    {s : Segment C} {s' : Segment D} (hs : SegE X X' E vis s s') :
    RelR (SegLoopE X X' E vis) (addSegmentStep si s l) (addSegmentStep si s' l') := by
  unfold addSegmentStep
  simp only [h.st.ts, h.st.qs.length_eq, h.ni, h.upleft, h.upright, hs.niMin]
  obtain ⟨i, j, -, -, hij⟩ := hs.ends
  refine RelR.bind (RelR.getU h.st.ns.rel _) fun n n' hn => ?_
  refine RelR.bind (hn.down_e hE h.st.ns h.st.ss hs) ?_
  rintro ti _ rfl
  refine RelR.bind (R := (· = ·)) RelR.eq ?_
  rintro t _ rfl
  cases t.down with
  | none => exact rfl
  | some ni =>
    refine RelR.bind (R := (· = ·)) RelR.eq ?_
    rintro tl _ rfl
    refine RelR.bind (R := (· = ·)) RelR.eq ?_
    rintro tr _ rfl
    refine RelR.ite Iff.rfl ?_ (RelR.ite Iff.rfl ?_ rfl)
    all_goals
      refine RelR.bind (RelR.getP h.st.qs _) fun q q' hq => ?_
      refine RelR.bind (RelR.modP h.st.qs _ fun _ _ _ => ⟨rfl, rfl, i, j, hij⟩)
        fun qs qs' hqs => ?_
      refine RelR.bind (R := (· = ·)) RelR.eq ?_
      rintro ts _ rfl
      refine RelR.bind (R := (· = ·)) RelR.eq ?_
      rintro ts _ rfl
      refine RelR.bind (R := (· = ·)) RelR.eq ?_
      rintro ts _ rfl
      refine RelR.bind (RelR.getU h.st.ns.rel _) fun n n' hn => ?_
      rw [hs.isOnLeft hE hn.c]
      refine RelR.bind (replaceAt_e h.st.ns _ _ _) fun ns ns' hns => ?_
      exact ⟨⟨hns, h.st.ss, rfl, forall₂_append hqs (.cons hq .nil)⟩, rfl, rfl, rfl⟩

theorem addSegment_e {vis : List I} {st : St I C} {st' : St I D} (h : StE X X' E vis st st') (cfg : Cfg) (fuel : Nat)
    (niMin niMax : Nat) {c1 c2 : Coords C} {c1' c2' : Coords D} (hs : SegE X X' E vis ⟨niMin, niMax, c1, c2⟩ ⟨niMin, niMax, c1', c2'⟩) :
    RelR (StE X X' E vis) (st.addSegment cfg fuel niMin niMax c1 c2)
      (st'.addSegment cfg fuel niMin niMax c1' c2') := by
  unfold addSegment
  rw [h.ss.length_eq]
  have hloop : ∀ k (l : SegLoop I C) (l' : SegLoop I D), SegLoopE X X' E vis l l' →
      RelR (SegLoopE X X' E vis) (addSegmentLoop st'.ss.length ⟨niMin, niMax, c1, c2⟩ k l)
        (addSegmentLoop st'.ss.length ⟨niMin, niMax, c1', c2'⟩ k l') := by
    intro k
    induction k with
    | zero => exact fun _ _ _ => rfl
    | succ k ih =>
      intro l l' hl
      unfold addSegmentLoop
      rw [hl.ni]
      refine RelR.ite Iff.rfl hl ?_
      exact RelR.bind (addSegmentStep_e hE hl _ hs) fun l l' hl => ih l l' hl
  refine RelR.bind (addSegmentStart_e hE h niMin niMax hs) fun l l' hl => ?_
  refine RelR.bind (hloop fuel l l' hl) fun l l' hl => ?_
  rw [hl.upright]
  refine RelR.bind (Nexus.addSegment_e hE hl.st.ns hl.st.ss _ _ _) fun ns ns' hns => ?_
  have hst : StE X X' E vis { l.st with ns := ns } { l'.st with ns := ns' } :=
    ⟨hns, hl.st.ss, hl.st.ts, hl.st.qs⟩
  exact RelR.bind (debugCheck_rel hst.stRel cfg fuel) fun _ _ _ => hst

theorem addVertexVL_e {vis g : List I} {st : St I C} {st' : St I D} (h : StE X X' E vis st st') (cfg : Cfg) (fuel : Nat)
    {p : PolyList I V} {xy : V → Coords C} {p' : PolyList I W} {xy' : W → Coords D}
    (hp : PolyE X X' p xy p' xy') {vls : List (VLoc I C)} {vls' : List (VLoc I D)}
    (hvl : VLsE X X' vis g vls vls') (vli : Nat) {vi : I} (hv : g[vli]? = some vi) (qi : Nat) :
    RelR (fun r r' => ∃ vis', vis <+: vis' ∧ StE X X' E vis' r.1 r'.1 ∧ VLsE X X' vis' g r.2.1 r'.2.1 ∧ r.2.2 = r'.2.2 ∧
        vis'[r.2.2]? = some vi)
      (st.addVertexVL cfg fuel p xy vls vli vi qi) (st'.addVertexVL cfg fuel p' xy' vls' vli vi qi) := by
  unfold addVertexVL
  refine RelR.bind (addVertex_e hE h cfg fuel hp vi qi) ?_
  rintro ⟨st1, ni⟩ ⟨st1', ni'⟩ ⟨h1, h2, h3⟩
  cases h2
  have hni : (vis ++ [vi])[ni]? = some vi := by
    simp only at h3
    rw [h3, List.getElem?_append_right (Nat.le_refl _)]; simp
  refine RelR.bind (hvl.getP vli) fun vl vl' ⟨i, hi, hvl', _⟩ => ?_
  rw [hv] at hi
  cases hi
  refine ⟨vis ++ [vi], List.prefix_append _ _, h1, (hvl.mono (List.prefix_append _ _)).set hv ⟨?_, rfl, hni⟩, rfl, hni⟩
  cases vl <;> cases vl'
  · exact hvl'.1
  · exact hvl'.elim
  · exact hvl'.elim
  · exact hvl'.1

theorem addEnds_e {vis g : List I} {st : St I C} {st' : St I D} (h : StE X X' E vis st st') (cfg : Cfg) (fuel : Nat)
    {p : PolyList I V} {xy : V → Coords C} {p' : PolyList I W} {xy' : W → Coords D}
    (hp : PolyE X X' p xy p' xy') {vls : List (VLoc I C)} {vls' : List (VLoc I D)}
    (hvl : VLsE X X' vis g vls vls') (si : Nat) :
    RelR (fun r r' => ∃ vis', vis <+: vis' ∧ StE X X' E vis' r.1 r'.1 ∧ VLsE X X' vis' g r.2.1 r'.2.1 ∧ r.2.2 = r'.2.2 ∧
        ∃ i j, g[si]? = some i ∧ g[(si + 1) % g.length]? = some j ∧ vis'[r.2.2.1]? = some i ∧ vis'[r.2.2.2.1]? = some j)
      (st.addEnds cfg fuel p xy vls si) (st'.addEnds cfg fuel p' xy' vls' si) := by
  unfold addEnds
  rw [hvl.len, hvl.len']
  refine RelR.bind (hvl.getP _) fun vl0 vl0' ⟨i, hi, h0, _⟩ => ?_
  refine RelR.bind (hvl.getP _) fun vl1 vl1' ⟨j, hj, h1, _⟩ => ?_
  cases vl0 <;> cases vl0'
  · obtain ⟨a1, rfl, rfl, rfl⟩ := h0
    cases vl1 <;> cases vl1'
    · obtain ⟨b1, rfl, rfl, rfl⟩ := h1
      refine RelR.ite (by rw [hE.ltB a1.pl b1.pl]) ?_ ?_
      · refine RelR.bind (addVertexVL_e hE h cfg fuel hp hvl _ hi _) ?_
        rintro ⟨x, y, z⟩ ⟨x', y', z'⟩ ⟨v1, p1, r1, r2, r3, r4⟩
        cases r3
        refine RelR.bind (addVertexVL_e hE r1 cfg fuel hp r2 _ hj _) ?_
        rintro ⟨x, y, z⟩ ⟨x', y', z'⟩ ⟨v2, p2, r1, r2, r3, r5⟩
        cases r3
        exact ⟨v2, p1.trans p2, r1, r2, rfl, _, _, hi, hj, prefix_get p2 r4, r5⟩
      · refine RelR.bind (addVertexVL_e hE h cfg fuel hp hvl _ hj _) ?_
        rintro ⟨x, y, z⟩ ⟨x', y', z'⟩ ⟨v1, p1, r1, r2, r3, r4⟩
        cases r3
        refine RelR.bind (addVertexVL_e hE r1 cfg fuel hp r2 _ hi _) ?_
        rintro ⟨x, y, z⟩ ⟨x', y', z'⟩ ⟨v2, p2, r1, r2, r3, r5⟩
        cases r3
        exact ⟨v2, p1.trans p2, r1, r2, rfl, _, _, hi, hj, r5, prefix_get p2 r4⟩
    · exact h1.elim
    · exact h1.elim
    · obtain ⟨b1, rfl, hb⟩ := h1
      refine RelR.bind (addVertexVL_e hE h cfg fuel hp hvl _ hi _) ?_
      rintro ⟨x, y, z⟩ ⟨x', y', z'⟩ ⟨v1, p1, r1, r2, r3, r4⟩
      cases r3
      exact ⟨v1, p1, r1, r2, rfl, _, _, hi, hj, r4, prefix_get p1 hb⟩
  · exact h0.elim
  · exact h0.elim
  · obtain ⟨a1, rfl, ha⟩ := h0
    cases vl1 <;> cases vl1'
    · obtain ⟨b1, rfl, rfl, rfl⟩ := h1
      refine RelR.bind (addVertexVL_e hE h cfg fuel hp hvl _ hj _) ?_
      rintro ⟨x, y, z⟩ ⟨x', y', z'⟩ ⟨v1, p1, r1, r2, r3, r4⟩
      cases r3
      exact ⟨v1, p1, r1, r2, rfl, _, _, hi, hj, prefix_get p1 ha, r4⟩
    · exact h1.elim
    · exact h1.elim
    · obtain ⟨b1, rfl, hb⟩ := h1
      exact ⟨vis, List.prefix_rfl, h, hvl, rfl, _, _, hi, hj, ha, hb⟩

theorem addNthSegment_e {vis g : List I} (hg : AdjE X E g) {st : St I C} {st' : St I D} (h : StE X X' E vis st st') (cfg : Cfg) (fuel : Nat)
    {p : PolyList I V} {xy : V → Coords C} {p' : PolyList I W} {xy' : W → Coords D}
    (hp : PolyE X X' p xy p' xy') {vls : List (VLoc I C)} {vls' : List (VLoc I D)}
    (hvl : VLsE X X' vis g vls vls') (si : Nat) :
    RelR (fun r r' => ∃ vis', vis <+: vis' ∧ StE X X' E vis' r.1 r'.1 ∧ VLsE X X' vis' g r.2.1 r'.2.1 ∧ r.2.2 = r'.2.2)
      (st.addNthSegment cfg fuel p xy vls si) (st'.addNthSegment cfg fuel p' xy' vls' si) := by
  unfold addNthSegment
  refine RelR.bind (addEnds_e hE h cfg fuel hp hvl si) ?_
  rintro ⟨x, y, a, b, d⟩ ⟨x', y', a', b', d'⟩ ⟨vis', hpre, r1, r2, r3, i, j, hi, hj, vi, vj⟩
  cases r3
  refine RelR.bind (r1.ns.getU _) fun n0 n0' ⟨h0, g0⟩ => ?_
  refine RelR.bind (r1.ns.getU _) fun n1 n1' ⟨h1, g1⟩ => ?_
  simp only at vi vj
  rw [vi] at g0
  rw [vj] at g1
  cases g0
  cases g1
  obtain ⟨hup, hdown⟩ := hg si _ _ hi hj _ _ h0.at_.1 h1.at_.1
  have hlt := hE.ltB h0.c h1.c
  have key : RelR (StE X X' E vis') (if n0.c.ltB n1.c then x.addSegment cfg fuel a b n0.c n1.c else x.addSegment cfg fuel b a n1.c n0.c)
      (if n0'.c.ltB n1'.c then x'.addSegment cfg fuel a b n0'.c n1'.c else x'.addSegment cfg fuel b a n1'.c n0'.c) := by
    rw [← hlt]
    cases hb : n0.c.ltB n1.c
    · rw [if_neg (by simp), if_neg (by simp)]
      exact addSegment_e hE r1 cfg fuel _ _ ⟨rfl, rfl, _, _, vj, vi, hdown (.inl hb), h1.at_, h0.at_⟩
    · rw [if_pos rfl, if_pos rfl]
      exact addSegment_e hE r1 cfg fuel _ _ ⟨rfl, rfl, _, _, vi, vj, hup (.inl hb), h0.at_, h1.at_⟩
  exact RelR.bind key fun st st' hst => ⟨vis', hpre, hst, r2, rfl⟩

omit [DecidableEq I] in
theorem walk_e {vis : List I} {st : St I C} {st' : St I D} (h : StE X X' E vis st st') (dir : Dir)
    {a b : Coords C} {a' b' : Coords D} (hab : Along X X' E dir a b a' b') (hb : Pl X X' b b') (fuel ti : Nat) :
    RelR (· = ·) (st.walk dir a b fuel ti) (st'.walk dir a' b' fuel ti) := by
  induction fuel generalizing ti with
  | zero => exact rfl
  | succ k ih =>
    unfold walk
    rw [h.ts]
    refine RelR.bind (R := (· = ·)) RelR.eq ?_
    rintro t _ rfl
    refine RelR.bind (R := (· = ·)) ?_ ?_
    · unfold reached
      cases dir
      · cases t.up with
        | none => exact rfl
        | some ni =>
          exact RelR.bind (RelR.getP h.ns.rel ni) fun n n' hn => hE.gtB hn.c hb
      · cases t.down with
        | none => exact rfl
        | some ni =>
          exact RelR.bind (RelR.getP h.ns.rel ni) fun n n' hn => hE.ltB hn.c hb
    · rintro d _ rfl
      refine RelR.ite Iff.rfl rfl ?_
      cases dir
      · cases t.up with
        | none => exact rfl
        | some ni =>
          refine RelR.bind (RelR.getU h.ns.rel ni) fun n n' hn => ?_
          rw [hn.between hE _ hab]
          exact ih _
      · cases t.down with
        | none => exact rfl
        | some ni =>
          refine RelR.bind (RelR.getU h.ns.rel ni) fun n n' hn => ?_
          rw [hn.between hE _ hab]
          exact ih _

structure RelocE (X : I → Option (Coords C)) (X' : I → Option (Coords D)) (vis g : List I) (r : Reloc I C)
    (r' : Reloc I D) : Prop where
  vls : VLsE X X' vis g r.vls r'.vls
  unlocated : r.unlocated = r'.unlocated
  target : r.target = r'.target

/-- The origin is the vertex before the next, unless the next vertex is an inserted one. -/
def OriginE (X : I → Option (Coords C)) (X' : I → Option (Coords D)) (g : List I) (r : Reloc I C) (r' : Reloc I D) : Prop :=
  (r.loc = r'.loc ∧ ∃ i, g[r.target]? = some i ∧ AtI X X' i r.cOrigin r'.cOrigin) ∨
    ∃ c ni, r.vls[(r.target + 1) % r.vls.length]? = some (.inserted c ni)

omit [DecidableEq I] in
theorem relocStep_e {vis g : List I} (hg : AdjE X E g) {st : St I C} {st' : St I D} (h : StE X X' E vis st st') (fuel : Nat)
    {r : Reloc I C} {r' : Reloc I D} (hr : RelocE X X' vis g r r') (ho : OriginE X X' g r r') :
    RelR (fun r r' => RelocE X X' vis g r r' ∧ OriginE X X' g r r') (st.relocStep fuel r)
      (st'.relocStep fuel r') := by
  unfold relocStep
  rw [← hr.target, hr.vls.len, hr.vls.len']
  refine RelR.bind (hr.vls.getP _) ?_
  rintro v v' ⟨j, hj, hv, hg1, -⟩
  rcases v with ⟨cT, _, _⟩ | _ <;> rcases v' with ⟨cT', _, _⟩ | _
  · obtain ⟨g1, rfl, rfl, rfl⟩ := hv
    rcases ho with ⟨o1, i, hi, o2⟩ | ⟨c, ni, o⟩
    · simp only
      rw [hE.gtB g1.pl o2.pl, ← o1]
      obtain ⟨hup, hdown⟩ := hg _ _ _ hi hj _ _ o2.1 g1.1
      have hal : Along X X' E (if cT'.gtB r'.cOrigin = true then Dir.asc else Dir.desc) r.cOrigin cT r'.cOrigin cT' := by
        have e := hE.gtB g1.pl o2.pl
        cases hb : cT'.gtB r'.cOrigin
        · rw [if_neg (by simp)]
          exact ⟨_, _, hdown (.inr (by rw [e]; exact hb)), g1, o2⟩
        · rw [if_pos rfl]
          exact ⟨_, _, hup (.inr (by rw [e]; exact hb)), o2, g1⟩
      refine RelR.bind (R := (· = ·)) ?_ ?_
      · unfold startTrapezoid
        split
        · exact RelR.bind (RelR.getU h.ns.rel _) fun n n' hn => hn.toward hE h.ns h.ss _ g1.pl
        · exact rfl
      · rintro ti _ rfl
        refine RelR.bind (walk_e hE h _ hal g1.pl fuel ti) ?_
        rintro ti _ rfl
        rw [hr.unlocated]
        refine RelR.bind (R := (· = ·)) RelR.eq ?_
        rintro u _ rfl
        rw [h.ts]
        refine RelR.bind (R := (· = ·)) RelR.eq ?_
        rintro t _ rfl
        exact ⟨⟨hr.vls.set hj ⟨g1, rfl, rfl, rfl⟩, rfl, rfl⟩, .inl ⟨rfl, _, hj, g1⟩⟩
    · rw [hr.vls.len, hg1] at o; cases o
  · exact hv.elim
  · exact hv.elim
  · obtain ⟨g1, rfl, g2⟩ := hv
    refine RelR.bind (h.ns.getU _) fun n n' hn => ?_
    rw [g2] at hn
    obtain ⟨hn, e⟩ := hn
    cases e
    exact ⟨⟨hr.vls, hr.unlocated, rfl⟩, .inl ⟨rfl, _, hj, hn.at_⟩⟩

omit [DecidableEq I] in
theorem relocate_e {vis g : List I} (hg : AdjE X E g) {st : St I C} {st' : St I D} (h : StE X X' E vis st st') (fuel : Nat)
    {vls : List (VLoc I C)} {vls' : List (VLoc I D)} (hvl : VLsE X X' vis g vls vls')
    (vi0 pending : Nat) (hins : ∃ c ni, vls[(vi0 + 1) % vls.length]? = some (.inserted c ni)) :
    RelR (VLsE X X' vis g) (st.relocate fuel vls vi0 pending) (st'.relocate fuel vls' vi0 pending) := by
  have key : ∀ k (r : Reloc I C) (r' : Reloc I D), RelocE X X' vis g r r' → OriginE X X' g r r' →
      RelR (VLsE X X' vis g) (st.relocLoop fuel k r) (st'.relocLoop fuel k r') := by
    intro k
    induction k with
    | zero => exact fun _ _ _ _ => rfl
    | succ k ih =>
      intro r r' hr ho
      unfold relocLoop
      refine RelR.ite (by rw [hr.unlocated]) hr.vls ?_
      exact RelR.bind (relocStep_e hE hg h fuel hr ho) fun r r' hr => ih r r' hr.1 hr.2
  exact key fuel _ _ ⟨hvl, rfl, rfl⟩ (.inr hins)

structure PolyLoopE (X : I → Option (Coords C)) (X' : I → Option (Coords D)) (E : I → I → Prop) (g : List I) (l : PolyLoop I C)
    (l' : PolyLoop I D) : Prop where
  st : ∃ vis, StE X X' E vis l.st l'.st ∧ VLsE X X' vis g l.vls l'.vls
  pending : l.pending = l'.pending
  i : l.i = l'.i
  updateCount : l.updateCount = l'.updateCount
  nextUpdate : l.nextUpdate = l'.nextUpdate

theorem polyStep_e {g : List I} (hg : AdjE X E g) (cfg : Cfg) (fuel : Nat)
    {p : PolyList I V} {xy : V → Coords C} {p' : PolyList I W} {xy' : W → Coords D}
    (hp : PolyE X X' p xy p' xy') {l : PolyLoop I C} {l' : PolyLoop I D} (h : PolyLoopE X X' E g l l')
    (vi0 : Nat) :
    RelR (PolyLoopE X X' E g) (polyStep cfg fuel p xy l vi0) (polyStep cfg fuel p' xy' l' vi0) := by
  unfold polyStep
  obtain ⟨vis, hst, hvl⟩ := h.st
  refine RelR.bind (addNthSegment_e hE hg hst cfg fuel hp hvl vi0).withEq ?_
  rintro ⟨st, vls, n⟩ ⟨st', vls', n'⟩ ⟨⟨vis', -, h1, h2, h3⟩, h4⟩
  cases h3
  rw [h.pending, h.i, h.nextUpdate, h.updateCount]
  refine RelR.bind (R := (· = ·)) RelR.eq ?_
  rintro pd _ rfl
  refine RelR.ite Iff.rfl ?_ ⟨⟨vis', h1, h2⟩, rfl, rfl, rfl, rfl⟩
  refine RelR.bind (relocate_e hE hg h1 fuel h2 _ _ ?_) fun vls vls' hvl => ?_
  · exact (addNthSegment_end.of_ok h4).2
  · exact ⟨⟨vis', h1, hvl⟩, rfl, rfl, rfl, by simp only; rw [hvl.len, hvl.len']⟩

theorem addPolygon_e {vis g : List I} (hg : AdjE X E g) (cfg : Cfg) (fuel k : Nat)
    {p : PolyList I V} {xy : V → Coords C} {p' : PolyList I W} {xy' : W → Coords D}
    (hp : PolyE X X' p xy p' xy') {st : St I C} {st' : St I D} (h : StE X X' E vis st st')
    {vls : List (VLoc I C)} {vls' : List (VLoc I D)} (hvl : VLsE X X' vis g vls vls') :
    RelR (fun st st' => ∃ vis, StE X X' E vis st st') (addPolygon cfg fuel p xy k st vls) (addPolygon cfg fuel p' xy' k st' vls') := by
  unfold addPolygon
  rw [hvl.len, hvl.len']
  refine RelR.bind (RelR.foldlM (Q := (· = ·)) (R := PolyLoopE X X' E g) ?_ (List.forall₂_same.2 fun _ _ => rfl)
    ⟨⟨vis, h, hvl⟩, rfl, rfl, rfl, rfl⟩) fun l l' hl => ?_
  · rintro s t c _ hst rfl
    exact polyStep_e hE hg cfg fuel hp hst c
  · obtain ⟨vis, h, -⟩ := hl.st
    exact ⟨vis, h⟩

end St

/-- The two trapezoidations end alike. -/
theorem trapezoidize_e [DecidableEq I] (cfg : Cfg) (fuel : Nat)
    {p : PolyList I V} {xy : V → Coords C} {p' : PolyList I W} {xy' : W → Coords D} (hp : St.PolyE X X' p xy p' xy')
    (es : List (Elem I)) (h1 : p.elems = es.map some) (h2 : p'.elems = es.map some) (hg : ∀ g ∈ polygonsOf es, AdjE X E g) :
    RelR (fun st st' => ∃ vis, StE X X' E vis st st') (trapezoidize cfg fuel p xy) (trapezoidize cfg fuel p' xy') := by
  have key : ∀ (es : List (Elem I)) (cur vis : List I) (l : St.BuildLoop I C) (l' : St.BuildLoop I D),
      (∀ g ∈ polygonsFrom cur es, AdjE X E g) → StE X X' E vis l.st l'.st → VLsE X X' vis cur l.vLookup l'.vLookup → l.k = l'.k →
      RelR (fun l l' => ∃ vis, StE X X' E vis l.st l'.st)
        ((es.map some ++ [some Elem.newPolygon]).foldlM (St.buildStep cfg fuel p xy) l)
        ((es.map some ++ [some Elem.newPolygon]).foldlM (St.buildStep cfg fuel p' xy') l') := by
    intro es
    have poly : ∀ (cur vis : List I) (l : St.BuildLoop I C) (l' : St.BuildLoop I D), (cur ≠ [] → AdjE X E cur) →
        StE X X' E vis l.st l'.st → VLsE X X' vis cur l.vLookup l'.vLookup → l.k = l'.k →
        RelR (fun l l' => l.vLookup = [] ∧ l'.vLookup = [] ∧ l.k = l'.k ∧ ∃ vis, StE X X' E vis l.st l'.st)
          (St.buildStep cfg fuel p xy l (some .newPolygon)) (St.buildStep cfg fuel p' xy' l' (some .newPolygon)) := by
      intro cur vis l l' hcur hst hvl hk
      unfold St.buildStep
      simp only
      rw [hvl.len, hvl.len']
      rcases cur with _ | ⟨i, cur⟩
      · rw [if_neg (by simp), if_neg (by simp)]
        exact ⟨List.length_eq_zero_iff.1 hvl.len, List.length_eq_zero_iff.1 hvl.len', hk, vis, hst⟩
      · have hpos : (i :: cur).length > 0 := Nat.succ_pos _
        rw [if_pos hpos, if_pos hpos]
        refine RelR.ite Iff.rfl rfl ?_
        · rw [hk]
          exact RelR.bind (RelR.mapErr (St.addPolygon_e hE (hcur (by simp)) cfg fuel l'.k hp hst hvl)) fun st st' h => ⟨rfl, rfl, rfl, h⟩
    induction es with
    | nil =>
      intro cur vis l l' hcur hst hvl hk
      simp only [List.map_nil, List.nil_append, List.foldlM_cons, List.foldlM_nil]
      refine RelR.bind (poly cur vis l l' ?_ hst hvl hk) fun a b hab => hab.2.2.2
      intro hne
      exact hcur _ (by unfold polygonsFrom; rw [if_neg hne]; simp)
    | cons e es ih =>
      intro cur vis l l' hcur hst hvl hk
      rw [List.map_cons, List.cons_append, List.foldlM_cons, List.foldlM_cons]
      rcases e with i | _
      · refine RelR.bind (R := fun a b => StE X X' E vis a.st b.st ∧ VLsE X X' vis (cur ++ [i]) a.vLookup b.vLookup ∧ a.k = b.k) ?_
          fun a b hab => ih _ vis a b hcur hab.1 hab.2.1 hab.2.2
        refine RelR.bind (hp i) fun c c' hc => ⟨hst, ⟨by simp [hvl.len], by simp [hvl.len'], ?_⟩, hk⟩
        intro k j v v' e1 e2 e3
        rcases Nat.lt_trichotomy k cur.length with hlt | rfl | hgt
        · rw [List.getElem?_append_left hlt] at e1
          rw [List.getElem?_append_left (by rw [hvl.len]; exact hlt)] at e2
          rw [List.getElem?_append_left (by rw [hvl.len']; exact hlt)] at e3
          exact hvl.rel _ _ _ _ e1 e2 e3
        · rw [List.getElem?_append_right (Nat.le_refl _)] at e1
          rw [List.getElem?_append_right (Nat.le_of_eq hvl.len), hvl.len] at e2
          rw [List.getElem?_append_right (Nat.le_of_eq hvl.len'), hvl.len'] at e3
          simp only [Nat.sub_self, List.getElem?_cons_zero, Option.some.injEq] at e1 e2 e3
          subst e1 e2 e3
          exact ⟨hc, rfl, rfl, rfl⟩
        · have := lt_of_get e1
          simp at this
          omega
      · refine RelR.bind (poly cur vis l l' ?_ hst hvl hk) ?_
        · intro hne
          exact hcur _ (by unfold polygonsFrom; rw [if_neg hne]; simp)
        · rintro a b ⟨a1, b1, hk, vis', hst⟩
          refine ih [] vis' a b (fun g hg => hcur g ?_) hst ?_ hk
          · unfold polygonsFrom
            split
            · exact hg
            · exact List.mem_cons_of_mem _ hg
          · rw [a1, b1]
            exact ⟨rfl, rfl, fun k i v v' h => by simp at h⟩
  unfold trapezoidize St.build
  rw [h1, h2]
  exact RelR.bind (key es [] [] _ _ hg St.init_e ⟨rfl, rfl, fun k i v v' h => by simp at h⟩ rfl) fun l l' hl => hl

end
end Tri
