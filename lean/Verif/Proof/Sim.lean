import Mathlib.Data.List.Forall2
import Verif.Proof.Play
import Verif.Proof.Ens

/-!
# Simulation between runs over different index and coordinate types

`RI` relates indices so that equality is preserved, `RC` relates points so that every comparison and
side test gives the same answer.  Related inputs give related runs.
-/

set_option linter.unusedSectionVars false

namespace Tri

/-- Both runs end with the same error or with related values. -/
def RelR {ε α β : Type} (R : α → β → Prop) : Res ε α → Res ε β → Prop
  | .ok a, .ok b => R a b
  | .error e, .error e' => e = e'
  | _, _ => False

namespace RelR
variable {ε α β α' β' : Type} {R : α → β → Prop} {S : α' → β' → Prop}

theorem ok {a : α} {b : β} (h : R a b) : RelR R (.ok a : Res ε α) (.ok b) := h

theorem error {e : Fault ε} : RelR R (.error e : Res ε α) (.error e) := rfl

theorem eq {x : Res ε α} : RelR (· = ·) x x := by
  cases x <;> rfl

theorem bind {x : Res ε α} {y : Res ε β} {f : α → Res ε α'} {g : β → Res ε β'}
    (h : RelR R x y) (hf : ∀ a b, R a b → RelR S (f a) (g b)) : RelR S (x >>= f) (y >>= g) := by
  cases x <;> cases y
  · exact h
  · exact h.elim
  · exact h.elim
  · exact hf _ _ h

theorem imp {R' : α → β → Prop} {x : Res ε α} {y : Res ε β} (h : RelR R x y)
    (hR : ∀ a b, R a b → R' a b) : RelR R' x y := by
  cases x <;> cases y
  · exact h
  · exact h.elim
  · exact h.elim
  · exact hR _ _ h

theorem withEq {x : Res ε α} {y : Res ε β} (h : RelR R x y) :
    RelR (fun a b => R a b ∧ x = .ok a) x y := by
  cases x <;> cases y
  · exact h
  · exact h.elim
  · exact h.elim
  · exact ⟨h, rfl⟩

theorem ite {c d : Prop} [Decidable c] [Decidable d] {x x' : Res ε α} {y y' : Res ε β} (hcd : c ↔ d)
    (h1 : RelR R x y) (h2 : RelR R x' y') : RelR R (if c then x else x') (if d then y else y') := by
  by_cases h : c
  · rw [if_pos h, if_pos (hcd.1 h)]; exact h1
  · rw [if_neg h, if_neg fun hd => h (hcd.2 hd)]; exact h2

theorem mapErr {ε' : Type} {f : ε → ε'} {x : Res ε α} {y : Res ε β} (h : RelR R x y) :
    RelR R (Res.mapErr f x) (Res.mapErr f y) := by
  cases x <;> cases y
  · cases h; rename_i e; cases e <;> rfl
  · exact h.elim
  · exact h.elim
  · exact h

theorem getU {xs : List α} {ys : List β} (h : List.Forall₂ R xs ys) (i : Nat) :
    RelR R (Tri.getU xs i : Res ε α) (Tri.getU ys i) := by
  unfold Tri.getU
  induction h generalizing i with
  | nil => exact rfl
  | cons h1 h2 ih =>
    cases i with
    | zero => exact h1
    | succ i => simpa using ih i

theorem getP {xs : List α} {ys : List β} (h : List.Forall₂ R xs ys) (i : Nat) :
    RelR R (Tri.getP xs i : Res ε α) (Tri.getP ys i) := by
  unfold Tri.getP
  induction h generalizing i with
  | nil => exact rfl
  | cons h1 h2 ih =>
    cases i with
    | zero => exact h1
    | succ i => simpa using ih i

theorem _root_.Tri.forall₂_set {xs : List α} {ys : List β} (h : List.Forall₂ R xs ys) (i : Nat) {a : α} {b : β}
    (hab : R a b) : List.Forall₂ R (xs.set i a) (ys.set i b) := by
  induction h generalizing i with
  | nil => exact .nil
  | cons h1 h2 ih =>
    cases i with
    | zero => exact .cons hab h2
    | succ i => exact .cons h1 (ih i)

theorem _root_.Tri.forall₂_append {xs xs' : List α} {ys ys' : List β} (h : List.Forall₂ R xs ys)
    (h' : List.Forall₂ R xs' ys') : List.Forall₂ R (xs ++ xs') (ys ++ ys') := by
  induction h with
  | nil => exact h'
  | cons h1 h2 ih => exact .cons h1 ih

theorem modP {xs : List α} {ys : List β} (h : List.Forall₂ R xs ys) (i : Nat) {f : α → α} {g : β → β}
    (hfg : ∀ a b, R a b → R (f a) (g b)) :
    RelR (List.Forall₂ R) (Tri.modP xs i f : Res ε _) (Tri.modP ys i g) := by
  have := getP (ε := ε) h i
  unfold Tri.getP at this
  unfold Tri.modP
  cases hx : xs[i]? <;> cases hy : ys[i]? <;> simp only [hx, hy] at this ⊢
  · exact rfl
  · exact this.elim
  · exact this.elim
  · exact forall₂_set h i (hfg _ _ this)

theorem forM {xs : List α} {f g : α → Res ε Unit} (h : ∀ a ∈ xs, RelR (fun _ _ => True) (f a) (g a)) :
    RelR (fun _ _ => True) (xs.forM f) (xs.forM g) := by
  induction xs with
  | nil => exact trivial
  | cons a l ih =>
    show RelR _ (f a >>= fun _ => l.forM f) (g a >>= fun _ => l.forM g)
    exact bind (h a (by simp)) fun _ _ _ => ih fun b hb => h b (by simp [hb])

theorem foldlM {γ δ : Type} {Q : γ → δ → Prop} {f : α → γ → Res ε α} {g : β → δ → Res ε β}
    (hstep : ∀ s t c d, R s t → Q c d → RelR R (f s c) (g t d)) {l : List γ} {l' : List δ}
    (hl : List.Forall₂ Q l l') {s : α} {t : β} (h : R s t) : RelR R (l.foldlM f s) (l'.foldlM g t) := by
  induction hl generalizing s t with
  | nil => exact h
  | cons h1 h2 ih =>
    rw [List.foldlM_cons, List.foldlM_cons]
    exact bind (hstep _ _ _ _ h h1) fun s' t' hs => ih hs

end RelR

section
variable {I J V W C D : Type} [Scalar C] [Scalar D]

/-- Points whose comparisons and side tests agree. -/
structure RespC (RC : Coords C → Coords D → Prop) : Prop where
  cmp : ∀ {a a' b b'}, RC a a' → RC b b' → a.partialCmp b = a'.partialCmp b'
  left : ∀ {a a' b b' c c'}, RC a a' → RC b b' → RC c c' → isLeftOfLine a b c = isLeftOfLine a' b' c'
  eqX : ∀ {a a' b b'}, RC a a' → RC b b' → Scalar.eq a.x b.x = Scalar.eq a'.x b'.x
  eqY : ∀ {a a' b b'}, RC a a' → RC b b' → Scalar.eq a.y b.y = Scalar.eq a'.y b'.y

/-- Indices whose equality tests agree. -/
def RespI (RI : I → J → Prop) : Prop := ∀ {i j i' j'}, RI i j → RI i' j' → (i = i' ↔ j = j')

variable {RI : I → J → Prop} {RC : Coords C → Coords D → Prop}

namespace RespC
variable (hC : RespC RC) {a b c : Coords C} {a' b' c' : Coords D}

include hC
theorem ltB (h1 : RC a a') (h2 : RC b b') : a.ltB b = a'.ltB b' := by
  simp only [Coords.ltB, hC.cmp h1 h2]
theorem gtB (h1 : RC a a') (h2 : RC b b') : a.gtB b = a'.gtB b' := by
  simp only [Coords.gtB, hC.cmp h1 h2]
theorem leB (h1 : RC a a') (h2 : RC b b') : a.leB b = a'.leB b' := by
  simp only [Coords.leB, hC.cmp h1 h2]
end RespC

variable (RI RC)

structure NexusRel (n : Nexus I C) (n' : Nexus J D) : Prop where
  vi : RI n.vi n'.vi
  c : RC n.c n'.c
  up : n.tiUpleft = n'.tiUpleft
  down : n.tiDownleft = n'.tiDownleft
  divs : n.dividers = n'.dividers

structure SegRel (s : Segment C) (s' : Segment D) : Prop where
  niMin : s.niMin = s'.niMin
  niMax : s.niMax = s'.niMax
  cMin : RC s.cMin s'.cMin
  cMax : RC s.cMax s'.cMax

def BranchRel : Branch C → Branch D → Prop
  | .X a b, .X a' b' => RC a a' ∧ RC b b'
  | .Y a, .Y a' => RC a a'
  | _, _ => False

def QRel : QueryNode C → QueryNode D → Prop
  | .branch l r b, .branch l' r' b' => l = l' ∧ r = r' ∧ BranchRel RC b b'
  | .sink t, .sink t' => t = t'
  | _, _ => False

structure StRel (st : St I C) (st' : St J D) : Prop where
  ns : List.Forall₂ (NexusRel RI RC) st.ns st'.ns
  ss : List.Forall₂ (SegRel RC) st.ss st'.ss
  ts : st.ts = st'.ts
  qs : List.Forall₂ (QRel RC) st.qs st'.qs

/-- The polygon lists yield related indices and related indices name related points. -/
structure PolyRel (p : PolyList I V) (xy : V → Coords C) (p' : PolyList J W) (xy' : W → Coords D) : Prop where
  coords : ∀ i j, RI i j → ∀ {ε : Type}, RelR RC (p.coords (ε := ε) xy i) (p'.coords (ε := ε) xy' j)

def VLocRel : VLoc I C → VLoc J D → Prop
  | .pending c v q, .pending c' v' q' => RC c c' ∧ RI v v' ∧ q = q'
  | .inserted c n, .inserted c' n' => RC c c' ∧ n = n'
  | _, _ => False

variable {RI RC}

section Geometry
variable (hC : RespC RC)
include hC

theorem SegRel.isOnLeft {s : Segment C} {s' : Segment D} (h : SegRel RC s s') {c : Coords C} {c' : Coords D}
    (hc : RC c c') : s.isOnLeft c = s'.isOnLeft c' := hC.left h.cMin h.cMax hc

theorem find_rel {qs : List (QueryNode C)} {qs' : List (QueryNode D)} (h : List.Forall₂ (QRel RC) qs qs')
    {c : Coords C} {c' : Coords D} (hc : RC c c') (fuel qi : Nat) :
    RelR (· = ·) (St.find qs c fuel qi) (St.find qs' c' fuel qi) := by
  induction fuel generalizing qi with
  | zero => exact rfl
  | succ k ih =>
    unfold St.find
    refine RelR.bind (RelR.getU h qi) fun q q' hq => ?_
    rcases q with ⟨l, r, b⟩ | _ <;> rcases q' with ⟨l', r', b'⟩ | _
    · obtain ⟨rfl, rfl, hb⟩ := hq
      have : b.useLeft c = b'.useLeft c' := by
        cases b <;> cases b'
        · exact hC.left hb.1 hb.2 hc
        · exact hb.elim
        · exact hb.elim
        · exact hC.leB hc hb
      simp only [this]
      exact ih _
    · exact hq.elim
    · exact hq.elim
    · cases hq; exact rfl

end Geometry

namespace NexusRel
variable {n : Nexus I C} {n' : Nexus J D} (h : NexusRel RI RC n n')
include h

theorem replace (o nw : Nat) : RelR (NexusRel RI RC) (n.replaceTrapezoid o nw) (n'.replaceTrapezoid o nw) := by
  obtain ⟨vi, c, u, d, ds⟩ := n
  obtain ⟨vi', c', u', d', ds'⟩ := n'
  obtain ⟨h1, h2, h3, h4, h5⟩ := h
  simp only at h1 h2 h3 h4 h5
  subst h3 h4 h5
  unfold Nexus.replaceTrapezoid
  refine RelR.ite Iff.rfl ⟨h1, h2, rfl, rfl, rfl⟩ (RelR.ite Iff.rfl ⟨h1, h2, rfl, rfl, rfl⟩ ?_)
  cases ds with
  | zero => exact rfl
  | one d0 => exact RelR.ite Iff.rfl ⟨h1, h2, rfl, rfl, rfl⟩ rfl
  | two d0 d1 =>
    exact RelR.ite Iff.rfl ⟨h1, h2, rfl, rfl, rfl⟩ (RelR.ite Iff.rfl ⟨h1, h2, rfl, rfl, rfl⟩ rfl)

theorem filterDividers (dir : Dir) : n.filterDividers dir = n'.filterDividers dir := by
  simp only [Nexus.filterDividers, h.divs]

theorem leftmost (dir : Dir) : n.leftmost dir = n'.leftmost dir := by
  cases dir <;> simp [Nexus.leftmost, h.up, h.down]

theorem iterTrapezoids (dir : Dir) : n.iterTrapezoids dir = n'.iterTrapezoids dir := by
  unfold Nexus.iterTrapezoids
  rw [h.leftmost, h.divs]

theorem upTrapezoids : n.upTrapezoids = n'.upTrapezoids := by
  unfold Nexus.upTrapezoids Nexus.filterTrapezoids
  rw [h.filterDividers, h.up]

theorem downTrapezoids : n.downTrapezoids = n'.downTrapezoids := by
  unfold Nexus.downTrapezoids Nexus.filterTrapezoids
  rw [h.filterDividers, h.down]

theorem finalType : n.finalType = n'.finalType := by
  unfold Nexus.finalType
  rw [h.divs, h.up, h.down]

end NexusRel

theorem Nexus.addSegment_rel (hC : RespC RC) {ns : List (Nexus I C)} {ns' : List (Nexus J D)}
    {ss : List (Segment C)} {ss' : List (Segment D)} (hn : List.Forall₂ (NexusRel RI RC) ns ns')
    (hs : List.Forall₂ (SegRel RC) ss ss') (ni si ti : Nat) :
    RelR (List.Forall₂ (NexusRel RI RC)) (Nexus.addSegment ns ss ni si ti)
      (Nexus.addSegment ns' ss' ni si ti) := by
  unfold Nexus.addSegment
  refine RelR.bind (R := (· = ·)) ?_ ?_
  · unfold Nexus.getSegmentDirection
    refine RelR.bind (RelR.getP hs si) fun s s' h => ?_
    exact RelR.ite (by rw [h.niMax]) rfl (RelR.ite (by rw [h.niMin]) rfl rfl)
  · rintro dir _ rfl
    refine RelR.bind (RelR.getP hn ni) fun n n' h => ?_
    simp only [h.divs]
    split
    · exact forall₂_set hn ni ⟨h.vi, h.c, h.up, h.down, rfl⟩
    · rename_i div0 _
      refine RelR.bind (R := (· = ·)) ?_ ?_
      · unfold Nexus.swapDividers
        refine RelR.ite Iff.rfl ?_ rfl
        refine RelR.bind (RelR.getP hs _) fun s0 s0' h0 => ?_
        refine RelR.bind (RelR.getP hs _) fun s1 s1' h1 => ?_
        cases dir
        · simp only [h1.niMax]
          exact RelR.bind (RelR.getP hn _) fun n1 n1' h2 => h0.isOnLeft hC h2.c
        · simp only [h1.niMin]
          exact RelR.bind (RelR.getP hn _) fun n1 n1' h2 => h0.isOnLeft hC h2.c
      · rintro b _ rfl
        exact RelR.ite Iff.rfl (forall₂_set hn ni ⟨h.vi, h.c, h.up, h.down, rfl⟩)
          (forall₂_set hn ni ⟨h.vi, h.c, h.up, h.down, rfl⟩)
    · exact rfl

section Down
variable [DecidableEq I] [DecidableEq J]

theorem NexusRel.down_rel (hC : RespC RC) (hI : RespI RI) {n : Nexus I C} {n' : Nexus J D}
    (h : NexusRel RI RC n n') {ns : List (Nexus I C)} {ns' : List (Nexus J D)}
    {ss : List (Segment C)} {ss' : List (Segment D)} (hn : List.Forall₂ (NexusRel RI RC) ns ns')
    (hs : List.Forall₂ (SegRel RC) ss ss') {s : Segment C} {s' : Segment D} (hss : SegRel RC s s') :
    RelR (· = ·) (n.getDownTrapezoidInDirection ns ss s) (n'.getDownTrapezoidInDirection ns' ss' s') := by
  unfold Nexus.getDownTrapezoidInDirection
  rw [h.filterDividers]
  split
  · exact h.down
  · refine RelR.bind (R := RC) ?_ fun c c' hc => ?_
    · unfold Nexus.downTestCoords
      rw [hss.niMin, hss.niMax]
      refine RelR.bind (RelR.getP hn _) fun m m' hm => ?_
      refine RelR.ite (hI hm.vi h.vi) rfl ?_
      refine RelR.bind (RelR.getP hn _) fun m2 m2' hm2 => ?_
      refine RelR.ite (hI hm2.vi h.vi) ?_ h.c
      refine RelR.bind (RelR.getP hs _) fun sr sr' hsr => ?_
      rw [hsr.niMin]
      exact RelR.bind (RelR.getP hn _) fun m3 m3' hm3 => hm3.c
    · exact RelR.ite (by rw [hss.isOnLeft hC hc]) rfl h.down

end Down

theorem NexusRel.between (hC : RespC RC) {n : Nexus I C} {n' : Nexus J D} (h : NexusRel RI RC n n')
    (dir : Dir) {a b : Coords C} {a' b' : Coords D} (ha : RC a a') (hb : RC b b') :
    n.getTrapezoidBetweenCoords dir a b = n'.getTrapezoidBetweenCoords dir a' b' := by
  unfold Nexus.getTrapezoidBetweenCoords
  rw [h.filterDividers, h.leftmost]
  split
  · rfl
  · cases dir
    · simp only [hC.left ha hb h.c]
    · simp only [hC.left hb ha h.c]

theorem NexusRel.toward (hC : RespC RC) {n : Nexus I C} {n' : Nexus J D} (h : NexusRel RI RC n n')
    {ns : List (Nexus I C)} {ns' : List (Nexus J D)}
    {ss : List (Segment C)} {ss' : List (Segment D)} (hn : List.Forall₂ (NexusRel RI RC) ns ns')
    (hs : List.Forall₂ (SegRel RC) ss ss')
    (dir : Dir) {b : Coords C} {b' : Coords D} (hb : RC b b') :
    RelR (· = ·) (n.getTrapezoidTowardCoords ss ns dir b) (n'.getTrapezoidTowardCoords ss' ns' dir b') := by
  unfold Nexus.getTrapezoidTowardCoords
  rw [h.filterDividers]
  split
  · exact h.leftmost dir
  · refine RelR.bind (RelR.getP hs _) fun s s' h0 => ?_
    rw [h0.niMin, h0.niMax]
    refine RelR.bind (RelR.getP hn _) fun m m' hm => ?_
    refine RelR.bind (RelR.getP hn _) fun m2 m2' hm2 => ?_
    show _ = _
    rw [hC.left hm.c hm2.c hb, h.leftmost]
  · exact rfl

theorem forall₂_length {α β : Type} {R : α → β → Prop} {xs : List α} {ys : List β}
    (h : List.Forall₂ R xs ys) : xs.length = ys.length := h.length_eq

namespace St

theorem init_rel : StRel RI RC (St.init : St I C) (St.init : St J D) :=
  ⟨.nil, .nil, rfl, .cons rfl .nil⟩

theorem replaceAt_rel {ns : List (Nexus I C)} {ns' : List (Nexus J D)}
    (hn : List.Forall₂ (NexusRel RI RC) ns ns') (ni : Option Nat) (o nw : Nat) :
    RelR (List.Forall₂ (NexusRel RI RC)) (replaceAt ns ni o nw) (replaceAt ns' ni o nw) := by
  cases ni with
  | none => exact hn
  | some ni =>
    refine RelR.bind (RelR.getP hn _) fun m m' hm => ?_
    exact RelR.bind (hm.replace o nw) fun m m' hm => forall₂_set hn ni hm

theorem checkQuery_rel {st : St I C} {st' : St J D} (h : StRel RI RC st st') (fuel qi : Nat) :
    RelR (fun _ _ => True) (st.checkQuery fuel qi) (st'.checkQuery fuel qi) := by
  induction fuel generalizing qi with
  | zero => exact rfl
  | succ k ih =>
    unfold checkQuery
    refine RelR.bind (RelR.getU h.qs qi) fun q q' hq => ?_
    cases q <;> cases q'
    · obtain ⟨rfl, rfl, hb⟩ := hq
      exact RelR.bind (ih _) fun _ _ _ => ih _
    · exact hq.elim
    · exact hq.elim
    · cases hq
      rw [h.ts]
      exact RelR.bind RelR.eq fun _ _ _ => trivial

theorem debugCheck_rel {st : St I C} {st' : St J D} (h : StRel RI RC st st') (cfg : Cfg) (fuel : Nat) :
    RelR (fun _ _ => True) (st.debugCheck cfg fuel) (st'.debugCheck cfg fuel) := by
  unfold debugCheck
  refine RelR.ite Iff.rfl ?_ trivial
  unfold checkConsistency
  rw [h.ns.length_eq, h.ts]
  refine RelR.bind (RelR.forM fun ni _ => ?_) fun _ _ _ =>
    RelR.bind (RelR.forM fun ti _ => ?_) fun _ _ _ => checkQuery_rel h fuel 0
  · unfold checkNexus
    refine RelR.bind (RelR.getU h.ns ni) fun n n' hn => ?_
    rw [hn.upTrapezoids, hn.downTrapezoids, h.ts]
    refine RelR.bind (R := (· = ·)) RelR.eq fun _ _ _ => ?_
    exact RelR.imp RelR.eq fun _ _ _ => trivial
  · unfold checkTrapezoid
    rw [h.ts]
    refine RelR.bind (R := (· = ·)) RelR.eq ?_
    rintro t _ rfl
    have hside : ∀ ni dir, RelR (fun _ _ => True) (st.checkSide ti ni dir) (st'.checkSide ti ni dir) := by
      intro ni dir
      cases ni with
      | none => exact trivial
      | some ni =>
        unfold checkSide
        refine RelR.bind (RelR.getU h.ns ni) fun n n' hn => ?_
        exact RelR.ite (by rw [hn.iterTrapezoids]) trivial rfl
    refine RelR.bind (hside _ _) fun _ _ _ => RelR.bind (hside _ _) fun _ _ _ => ?_
    refine RelR.bind (RelR.getU h.qs _) fun q q' hq => ?_
    cases q <;> cases q'
    · exact rfl
    · exact hq.elim
    · exact hq.elim
    · cases hq
      exact RelR.ite Iff.rfl trivial rfl

theorem addVertexAt_rel {st : St I C} {st' : St J D} (h : StRel RI RC st st') {vi : I} {vj : J}
    (hv : RI vi vj) {c : Coords C} {c' : Coords D} (hc : RC c c') (qi ti : Nat) :
    RelR (StRel RI RC) (st.addVertexAt vi c qi ti) (st'.addVertexAt vj c' qi ti) := by
  unfold addVertexAt
  simp only [h.ts, h.qs.length_eq, h.ns.length_eq]
  refine RelR.bind (RelR.getP h.qs _) fun q q' hq => ?_
  refine RelR.bind (RelR.modP h.qs _ fun _ _ _ => ⟨rfl, rfl, hc⟩) fun qs qs' hqs => ?_
  refine RelR.bind (R := (· = ·)) RelR.eq ?_
  rintro ts _ rfl
  refine RelR.bind (R := (· = ·)) RelR.eq ?_
  rintro t _ rfl
  refine RelR.bind (replaceAt_rel (forall₂_append h.ns (.cons ⟨hv, hc, rfl, rfl, rfl⟩ .nil)) _ _ _)
    fun ns ns' hns => ?_
  exact ⟨hns, h.ss, rfl, forall₂_append hqs (.cons hq (.cons rfl .nil))⟩

variable (hC : RespC RC)
include hC

theorem addVertex_rel {st : St I C} {st' : St J D} (h : StRel RI RC st st') (cfg : Cfg) (fuel : Nat)
    {p : PolyList I V} {xy : V → Coords C} {p' : PolyList J W} {xy' : W → Coords D}
    (hp : PolyRel RI RC p xy p' xy') {vi : I} {vj : J} (hv : RI vi vj) (qi : Nat) :
    RelR (fun r r' => StRel RI RC r.1 r'.1 ∧ r.2 = r'.2) (st.addVertex cfg fuel p xy vi qi)
      (st'.addVertex cfg fuel p' xy' vj qi) := by
  unfold addVertex
  refine RelR.bind (hp.coords vi vj hv) fun c c' hc => ?_
  refine RelR.bind (find_rel hC h.qs hc fuel qi) ?_
  rintro ⟨q, t⟩ _ rfl
  refine RelR.bind (addVertexAt_rel h hv hc q t) fun st1 st1' h1 => ?_
  exact RelR.bind (debugCheck_rel h1 cfg fuel) fun _ _ _ => ⟨h1, h.ns.length_eq⟩

variable [DecidableEq I] [DecidableEq J] (hI : RespI RI)

structure SegLoopRel (RI : I → J → Prop) (RC : Coords C → Coords D → Prop) (l : SegLoop I C)
    (l' : SegLoop J D) : Prop where
  st : StRel RI RC l.st l'.st
  ni : l.ni = l'.ni
  upleft : l.tiUpleft = l'.tiUpleft
  upright : l.tiUpright = l'.tiUpright

include hI

theorem addSegmentStart_rel {st : St I C} {st' : St J D} (h : StRel RI RC st st') (niMin niMax : Nat)
    {c1 c2 : Coords C} {c1' c2' : Coords D} (h1 : RC c1 c1') (h2 : RC c2 c2') :
    RelR (SegLoopRel RI RC) (st.addSegmentStart niMin niMax c1 c2)
      (st'.addSegmentStart niMin niMax c1' c2') := by
  unfold addSegmentStart
  simp only [h.ts, h.qs.length_eq, h.ss.length_eq]
  have hs : SegRel RC ⟨niMin, niMax, c1, c2⟩ ⟨niMin, niMax, c1', c2'⟩ := ⟨rfl, rfl, h1, h2⟩
  have hss := forall₂_append h.ss (.cons hs .nil)
  refine RelR.bind (RelR.getU h.ns _) fun n n' hn => ?_
  refine RelR.bind (hn.down_rel hC hI h.ns hss hs) ?_
  rintro ti _ rfl
  refine RelR.bind (R := (· = ·)) RelR.eq ?_
  rintro t _ rfl
  refine RelR.bind (RelR.getP h.qs _) fun q q' hq => ?_
  refine RelR.bind (RelR.modP h.qs _ fun _ _ _ => ⟨rfl, rfl, h1, h2⟩) fun qs qs' hqs => ?_
  refine RelR.bind (R := (· = ·)) RelR.eq ?_
  rintro ts _ rfl
  refine RelR.bind (R := (· = ·)) RelR.eq ?_
  rintro t _ rfl
  refine RelR.bind (Nexus.addSegment_rel hC h.ns hss _ _ _) fun ns ns' hns => ?_
  refine RelR.bind (R := (· = ·)) RelR.eq ?_
  rintro t _ rfl
  cases t.down with
  | none => exact rfl
  | some ni =>
    refine RelR.bind (RelR.getU hns ni) fun n n' hn => ?_
    rw [hs.isOnLeft hC hn.c]
    refine RelR.bind (replaceAt_rel hns _ _ _) fun ns ns' hns => ?_
    exact ⟨⟨hns, hss, rfl, forall₂_append hqs (.cons hq (.cons rfl .nil))⟩, rfl, rfl, rfl⟩

theorem addSegmentStep_rel {l : SegLoop I C} {l' : SegLoop J D} (h : SegLoopRel RI RC l l') (si : Nat)
    {s : Segment C} {s' : Segment D} (hs : SegRel RC s s') :
    RelR (SegLoopRel RI RC) (addSegmentStep si s l) (addSegmentStep si s' l') := by
  unfold addSegmentStep
  simp only [h.st.ts, h.st.qs.length_eq, h.ni, h.upleft, h.upright, hs.niMin]
  refine RelR.bind (RelR.getU h.st.ns _) fun n n' hn => ?_
  refine RelR.bind (hn.down_rel hC hI h.st.ns h.st.ss hs) ?_
  rintro ti _ rfl
  refine RelR.bind (R := (· = ·)) RelR.eq ?_
  rintro t _ rfl
  cases t.down with
  | none => exact rfl
  | some ni =>
    refine RelR.bind (R := (· = ·)) RelR.eq ?_
    rintro tl _ rfl
    refine RelR.bind (R := (· = ·)) RelR.eq ?_
    rintro tr _ rfl
    refine RelR.ite Iff.rfl ?_ (RelR.ite Iff.rfl ?_ rfl)
    all_goals
      refine RelR.bind (RelR.getP h.st.qs _) fun q q' hq => ?_
      refine RelR.bind (RelR.modP h.st.qs _ fun _ _ _ => ⟨rfl, rfl, hs.cMin, hs.cMax⟩)
        fun qs qs' hqs => ?_
      refine RelR.bind (R := (· = ·)) RelR.eq ?_
      rintro ts _ rfl
      refine RelR.bind (R := (· = ·)) RelR.eq ?_
      rintro ts _ rfl
      refine RelR.bind (R := (· = ·)) RelR.eq ?_
      rintro ts _ rfl
      refine RelR.bind (RelR.getU h.st.ns _) fun n n' hn => ?_
      rw [hs.isOnLeft hC hn.c]
      refine RelR.bind (replaceAt_rel h.st.ns _ _ _) fun ns ns' hns => ?_
      exact ⟨⟨hns, h.st.ss, rfl, forall₂_append hqs (.cons hq .nil)⟩, rfl, rfl, rfl⟩

theorem addSegment_rel {st : St I C} {st' : St J D} (h : StRel RI RC st st') (cfg : Cfg) (fuel : Nat)
    (niMin niMax : Nat) {c1 c2 : Coords C} {c1' c2' : Coords D} (h1 : RC c1 c1') (h2 : RC c2 c2') :
    RelR (StRel RI RC) (st.addSegment cfg fuel niMin niMax c1 c2)
      (st'.addSegment cfg fuel niMin niMax c1' c2') := by
  unfold addSegment
  rw [h.ss.length_eq]
  have hs : SegRel RC ⟨niMin, niMax, c1, c2⟩ ⟨niMin, niMax, c1', c2'⟩ := ⟨rfl, rfl, h1, h2⟩
  have hloop : ∀ k (l : SegLoop I C) (l' : SegLoop J D), SegLoopRel RI RC l l' →
      RelR (SegLoopRel RI RC) (addSegmentLoop st'.ss.length ⟨niMin, niMax, c1, c2⟩ k l)
        (addSegmentLoop st'.ss.length ⟨niMin, niMax, c1', c2'⟩ k l') := by
    intro k
    induction k with
    | zero => exact fun _ _ _ => rfl
    | succ k ih =>
      intro l l' hl
      unfold addSegmentLoop
      rw [hl.ni]
      refine RelR.ite Iff.rfl hl ?_
      exact RelR.bind (addSegmentStep_rel hC hI hl _ hs) fun l l' hl => ih l l' hl
  refine RelR.bind (addSegmentStart_rel hC hI h niMin niMax h1 h2) fun l l' hl => ?_
  refine RelR.bind (hloop fuel l l' hl) fun l l' hl => ?_
  rw [hl.upright]
  refine RelR.bind (Nexus.addSegment_rel hC hl.st.ns hl.st.ss _ _ _) fun ns ns' hns => ?_
  have hst : StRel RI RC { l.st with ns := ns } { l'.st with ns := ns' } :=
    ⟨hns, hl.st.ss, hl.st.ts, hl.st.qs⟩
  exact RelR.bind (debugCheck_rel hst cfg fuel) fun _ _ _ => hst

omit hI in
theorem addVertexVL_rel {st : St I C} {st' : St J D} (h : StRel RI RC st st') (cfg : Cfg) (fuel : Nat)
    {p : PolyList I V} {xy : V → Coords C} {p' : PolyList J W} {xy' : W → Coords D}
    (hp : PolyRel RI RC p xy p' xy') {vls : List (VLoc I C)} {vls' : List (VLoc J D)}
    (hvl : List.Forall₂ (VLocRel RI RC) vls vls') (vli : Nat) {vi : I} {vj : J} (hv : RI vi vj) (qi : Nat) :
    RelR (fun r r' => StRel RI RC r.1 r'.1 ∧ List.Forall₂ (VLocRel RI RC) r.2.1 r'.2.1 ∧ r.2.2 = r'.2.2)
      (st.addVertexVL cfg fuel p xy vls vli vi qi) (st'.addVertexVL cfg fuel p' xy' vls' vli vj qi) := by
  unfold addVertexVL
  refine RelR.bind (addVertex_rel hC h cfg fuel hp hv qi) ?_
  rintro ⟨st1, ni⟩ ⟨st1', ni'⟩ ⟨h1, h2⟩
  cases h2
  refine RelR.bind (RelR.getP hvl vli) fun vl vl' hvl' => ?_
  refine ⟨h1, forall₂_set hvl vli ⟨?_, rfl⟩, rfl⟩
  cases vl <;> cases vl'
  · exact hvl'.1
  · exact hvl'.elim
  · exact hvl'.elim
  · exact hvl'.1

omit hI in
theorem addEnds_rel {st : St I C} {st' : St J D} (h : StRel RI RC st st') (cfg : Cfg) (fuel : Nat)
    {p : PolyList I V} {xy : V → Coords C} {p' : PolyList J W} {xy' : W → Coords D}
    (hp : PolyRel RI RC p xy p' xy') {vls : List (VLoc I C)} {vls' : List (VLoc J D)}
    (hvl : List.Forall₂ (VLocRel RI RC) vls vls') (si : Nat) :
    RelR (fun r r' => StRel RI RC r.1 r'.1 ∧ List.Forall₂ (VLocRel RI RC) r.2.1 r'.2.1 ∧
        r.2.2 = r'.2.2)
      (st.addEnds cfg fuel p xy vls si) (st'.addEnds cfg fuel p' xy' vls' si) := by
  unfold addEnds
  rw [hvl.length_eq]
  refine RelR.bind (RelR.getP hvl _) fun vl0 vl0' h0 => ?_
  refine RelR.bind (RelR.getP hvl _) fun vl1 vl1' h1 => ?_
  cases vl0 <;> cases vl0'
  · obtain ⟨a1, a2, rfl⟩ := h0
    cases vl1 <;> cases vl1'
    · obtain ⟨b1, b2, rfl⟩ := h1
      refine RelR.ite (by rw [hC.ltB a1 b1]) ?_ ?_
      · refine RelR.bind (addVertexVL_rel hC h cfg fuel hp hvl _ a2 _) ?_
        rintro ⟨x, y, z⟩ ⟨x', y', z'⟩ ⟨r1, r2, r3⟩
        cases r3
        refine RelR.bind (addVertexVL_rel hC r1 cfg fuel hp r2 _ b2 _) ?_
        rintro ⟨x, y, z⟩ ⟨x', y', z'⟩ ⟨r1, r2, r3⟩
        cases r3
        exact ⟨r1, r2, rfl⟩
      · refine RelR.bind (addVertexVL_rel hC h cfg fuel hp hvl _ b2 _) ?_
        rintro ⟨x, y, z⟩ ⟨x', y', z'⟩ ⟨r1, r2, r3⟩
        cases r3
        refine RelR.bind (addVertexVL_rel hC r1 cfg fuel hp r2 _ a2 _) ?_
        rintro ⟨x, y, z⟩ ⟨x', y', z'⟩ ⟨r1, r2, r3⟩
        cases r3
        exact ⟨r1, r2, rfl⟩
    · exact h1.elim
    · exact h1.elim
    · obtain ⟨b1, rfl⟩ := h1
      refine RelR.bind (addVertexVL_rel hC h cfg fuel hp hvl _ a2 _) ?_
      rintro ⟨x, y, z⟩ ⟨x', y', z'⟩ ⟨r1, r2, r3⟩
      cases r3
      exact ⟨r1, r2, rfl⟩
  · exact h0.elim
  · exact h0.elim
  · obtain ⟨a1, rfl⟩ := h0
    cases vl1 <;> cases vl1'
    · obtain ⟨b1, b2, rfl⟩ := h1
      refine RelR.bind (addVertexVL_rel hC h cfg fuel hp hvl _ b2 _) ?_
      rintro ⟨x, y, z⟩ ⟨x', y', z'⟩ ⟨r1, r2, r3⟩
      cases r3
      exact ⟨r1, r2, rfl⟩
    · exact h1.elim
    · exact h1.elim
    · obtain ⟨b1, rfl⟩ := h1
      exact ⟨h, hvl, rfl⟩

theorem addNthSegment_rel {st : St I C} {st' : St J D} (h : StRel RI RC st st') (cfg : Cfg) (fuel : Nat)
    {p : PolyList I V} {xy : V → Coords C} {p' : PolyList J W} {xy' : W → Coords D}
    (hp : PolyRel RI RC p xy p' xy') {vls : List (VLoc I C)} {vls' : List (VLoc J D)}
    (hvl : List.Forall₂ (VLocRel RI RC) vls vls') (si : Nat) :
    RelR (fun r r' => StRel RI RC r.1 r'.1 ∧ List.Forall₂ (VLocRel RI RC) r.2.1 r'.2.1 ∧
        r.2.2 = r'.2.2)
      (st.addNthSegment cfg fuel p xy vls si) (st'.addNthSegment cfg fuel p' xy' vls' si) := by
  unfold addNthSegment
  refine RelR.bind (addEnds_rel hC h cfg fuel hp hvl si) ?_
  rintro ⟨x, y, a, b, d⟩ ⟨x', y', a', b', d'⟩ ⟨r1, r2, r3⟩
  cases r3
  refine RelR.bind (RelR.getU r1.ns _) fun n0 n0' h0 => ?_
  refine RelR.bind (RelR.getU r1.ns _) fun n1 n1' h1 => ?_
  refine RelR.bind (RelR.ite (by rw [hC.ltB h0.c h1.c]) (addSegment_rel hC hI r1 cfg fuel _ _ h0.c h1.c)
    (addSegment_rel hC hI r1 cfg fuel _ _ h1.c h0.c)) fun st st' hst => ?_
  exact ⟨hst, r2, rfl⟩

omit hI [DecidableEq I] [DecidableEq J] in
theorem walk_rel {st : St I C} {st' : St J D} (h : StRel RI RC st st') (dir : Dir)
    {a b : Coords C} {a' b' : Coords D} (ha : RC a a') (hb : RC b b') (fuel ti : Nat) :
    RelR (· = ·) (st.walk dir a b fuel ti) (st'.walk dir a' b' fuel ti) := by
  induction fuel generalizing ti with
  | zero => exact rfl
  | succ k ih =>
    unfold walk
    rw [h.ts]
    refine RelR.bind (R := (· = ·)) RelR.eq ?_
    rintro t _ rfl
    refine RelR.bind (R := (· = ·)) ?_ ?_
    · unfold reached
      cases dir
      · cases t.up with
        | none => exact rfl
        | some ni =>
          exact RelR.bind (RelR.getP h.ns ni) fun n n' hn => hC.gtB hn.c hb
      · cases t.down with
        | none => exact rfl
        | some ni =>
          exact RelR.bind (RelR.getP h.ns ni) fun n n' hn => hC.ltB hn.c hb
    · rintro d _ rfl
      refine RelR.ite Iff.rfl rfl ?_
      cases dir
      · cases t.up with
        | none => exact rfl
        | some ni =>
          refine RelR.bind (RelR.getU h.ns ni) fun n n' hn => ?_
          rw [hn.between hC _ ha hb]
          exact ih _
      · cases t.down with
        | none => exact rfl
        | some ni =>
          refine RelR.bind (RelR.getU h.ns ni) fun n n' hn => ?_
          rw [hn.between hC _ ha hb]
          exact ih _

structure RelocRel (RI : I → J → Prop) (RC : Coords C → Coords D → Prop) (r : Reloc I C)
    (r' : Reloc J D) : Prop where
  vls : List.Forall₂ (VLocRel RI RC) r.vls r'.vls
  unlocated : r.unlocated = r'.unlocated
  target : r.target = r'.target

/-- The origin is related too, unless the next vertex is an inserted one. -/
def OriginRel (RC : Coords C → Coords D → Prop) (r : Reloc I C) (r' : Reloc J D) : Prop :=
  (r.loc = r'.loc ∧ RC r.cOrigin r'.cOrigin) ∨
    ∃ c ni, r.vls[(r.target + 1) % r.vls.length]? = some (.inserted c ni)

omit hI [DecidableEq I] [DecidableEq J] in
theorem relocStep_rel {st : St I C} {st' : St J D} (h : StRel RI RC st st') (fuel : Nat)
    {r : Reloc I C} {r' : Reloc J D} (hr : RelocRel RI RC r r') (ho : OriginRel RC r r') :
    RelR (fun r r' => RelocRel RI RC r r' ∧ OriginRel RC r r') (st.relocStep fuel r)
      (st'.relocStep fuel r') := by
  unfold relocStep
  have hlen := hr.vls.length_eq
  refine RelR.bind (R := fun v v' => VLocRel RI RC v v' ∧
    r.vls[(r.target + 1) % r.vls.length]? = some v) ?_ ?_
  · rw [← hr.target, ← hlen]
    refine RelR.imp (RelR.getP hr.vls _).withEq fun v v' hv => ⟨hv.1, ?_⟩
    have := hv.2
    unfold Tri.getP at this
    split at this
    · cases this; assumption
    · cases this
  · rintro v v' ⟨hv, hg⟩
    cases v <;> cases v'
    · obtain ⟨g1, g2, rfl⟩ := hv
      rcases ho with ⟨o1, o2⟩ | ⟨c, ni, o⟩
      · simp only
        rw [hC.gtB g1 o2, ← o1, ← hr.target, ← hlen]
        refine RelR.bind (R := (· = ·)) ?_ ?_
        · unfold startTrapezoid
          split
          · exact RelR.bind (RelR.getU h.ns _) fun n n' hn => hn.toward hC h.ns h.ss _ g1
          · exact rfl
        · rintro ti _ rfl
          refine RelR.bind (walk_rel hC h _ o2 g1 fuel ti) ?_
          rintro ti _ rfl
          rw [hr.unlocated]
          refine RelR.bind (R := (· = ·)) RelR.eq ?_
          rintro u _ rfl
          rw [h.ts]
          refine RelR.bind (R := (· = ·)) RelR.eq ?_
          rintro t _ rfl
          exact ⟨⟨forall₂_set hr.vls _ ⟨g1, g2, rfl⟩, rfl, rfl⟩, .inl ⟨rfl, g1⟩⟩
      · rw [hg] at o; cases o
    · exact hv.elim
    · exact hv.elim
    · obtain ⟨g1, rfl⟩ := hv
      refine RelR.bind (RelR.getU h.ns _) fun n n' hn => ?_
      exact ⟨⟨hr.vls, hr.unlocated, by simp only; rw [hr.target, hlen]⟩, .inl ⟨rfl, hn.c⟩⟩

omit hI [DecidableEq I] [DecidableEq J] in
theorem relocate_rel {st : St I C} {st' : St J D} (h : StRel RI RC st st') (fuel : Nat)
    {vls : List (VLoc I C)} {vls' : List (VLoc J D)} (hvl : List.Forall₂ (VLocRel RI RC) vls vls')
    (vi0 pending : Nat) (hins : ∃ c ni, vls[(vi0 + 1) % vls.length]? = some (.inserted c ni)) :
    RelR (List.Forall₂ (VLocRel RI RC)) (st.relocate fuel vls vi0 pending)
      (st'.relocate fuel vls' vi0 pending) := by
  have key : ∀ k (r : Reloc I C) (r' : Reloc J D), RelocRel RI RC r r' → OriginRel RC r r' →
      RelR (List.Forall₂ (VLocRel RI RC)) (st.relocLoop fuel k r) (st'.relocLoop fuel k r') := by
    intro k
    induction k with
    | zero => exact fun _ _ _ _ => rfl
    | succ k ih =>
      intro r r' hr ho
      unfold relocLoop
      refine RelR.ite (by rw [hr.unlocated]) hr.vls ?_
      exact RelR.bind (relocStep_rel hC h fuel hr ho) fun r r' hr => ih r r' hr.1 hr.2
  exact key fuel _ _ ⟨hvl, rfl, rfl⟩ (.inr hins)

end St

theorem addVertexVL_end {cfg : Cfg} {fuel : Nat} {p : PolyList I V} {xy : V → Coords C} {st : St I C}
    {vls : List (VLoc I C)} {vli : Nat} {vi : I} {qi : Nat} :
    Ens (fun _ => True) (fun r => vli < vls.length ∧ ∃ c, r.2.1 = vls.set vli (.inserted c r.2.2))
      (St.addVertexVL cfg fuel p xy st vls vli vi qi) := by
  unfold St.addVertexVL
  refine Ens.bind (P := fun _ => True) ?_ fun r _ => ?_
  · cases st.addVertex cfg fuel p xy vi qi <;> trivial
  · exact Ens.bind (Ens.getP trivial) fun vl hvl => ⟨lt_of_get hvl, vl.coords, rfl⟩

/-- After `add_nth_segment` the end of the segment is inserted. -/
theorem addNthSegment_end [DecidableEq I] {cfg : Cfg} {fuel : Nat} {p : PolyList I V}
    {xy : V → Coords C} {st : St I C} {vls : List (VLoc I C)} {si : Nat} :
    Ens (fun _ => True) (fun r => r.2.1.length = vls.length ∧
      ∃ c ni, r.2.1[(si + 1) % r.2.1.length]? = some (.inserted c ni))
      (st.addNthSegment cfg fuel p xy vls si) := by
  unfold St.addNthSegment
  refine Ens.bind (P := fun r => r.2.1.length = vls.length ∧
      ∃ c ni, r.2.1[(si + 1) % r.2.1.length]? = some (.inserted c ni)) ?_ fun r hr => ?_
  · unfold St.addEnds
    refine Ens.bind (Ens.getP trivial) fun vl0 h0 => Ens.bind (Ens.getP trivial) fun vl1 h1 => ?_
    cases vl0 <;> cases vl1
    · refine Ens.ite (fun _ => ?_) fun _ => ?_
      · refine Ens.bind addVertexVL_end fun r hr => Ens.bind addVertexVL_end fun r' hr' => ?_
        obtain ⟨g1, c1, e1⟩ := hr
        obtain ⟨g2, c2, e2⟩ := hr'
        have hl : r'.2.1.length = vls.length := by rw [e2, e1]; simp
        refine ⟨hl, c2, r'.2.2, ?_⟩
        simp only [hl]
        rw [e2, List.getElem?_set_self g2]
      · refine Ens.bind addVertexVL_end fun r hr => Ens.bind addVertexVL_end fun r' hr' => ?_
        obtain ⟨g1, c1, e1⟩ := hr
        obtain ⟨g2, c2, e2⟩ := hr'
        have hl : r'.2.1.length = vls.length := by rw [e2, e1]; simp
        refine ⟨hl, ?_⟩
        simp only [hl]
        rw [e2]
        by_cases hsi : si = (si + 1) % vls.length
        · rw [← hsi, List.getElem?_set_self g2]
          exact ⟨_, _, rfl⟩
        · rw [List.getElem?_set_ne hsi, e1, List.getElem?_set_self g1]
          exact ⟨_, _, rfl⟩
    · refine Ens.bind addVertexVL_end fun r hr => ?_
      obtain ⟨g1, c1, e1⟩ := hr
      have hl : r.2.1.length = vls.length := by rw [e1]; simp
      refine ⟨hl, ?_⟩
      simp only [hl]
      rw [e1]
      by_cases hsi : si = (si + 1) % vls.length
      · rw [← hsi, List.getElem?_set_self g1]
        exact ⟨_, _, rfl⟩
      · rw [List.getElem?_set_ne hsi, h1]
        exact ⟨_, _, rfl⟩
    · refine Ens.bind addVertexVL_end fun r hr => ?_
      obtain ⟨g1, c1, e1⟩ := hr
      have hl : r.2.1.length = vls.length := by rw [e1]; simp
      refine ⟨hl, ?_⟩
      simp only [hl]
      rw [e1, List.getElem?_set_self g1]
      exact ⟨_, _, rfl⟩
    · exact ⟨rfl, _, _, h1⟩
  · refine Ens.bind (P := fun _ => True) (Ens.any _) fun _ _ => ?_
    refine Ens.bind (P := fun _ => True) (Ens.any _) fun _ _ => ?_
    exact Ens.bind (P := fun _ => True) (Ens.any _) fun _ _ => hr

namespace St
variable (hC : RespC RC) [DecidableEq I] [DecidableEq J] (hI : RespI RI)

structure PolyLoopRel (RI : I → J → Prop) (RC : Coords C → Coords D → Prop) (l : PolyLoop I C)
    (l' : PolyLoop J D) : Prop where
  st : StRel RI RC l.st l'.st
  vls : List.Forall₂ (VLocRel RI RC) l.vls l'.vls
  pending : l.pending = l'.pending
  i : l.i = l'.i
  updateCount : l.updateCount = l'.updateCount
  nextUpdate : l.nextUpdate = l'.nextUpdate

include hC hI

theorem polyStep_rel (cfg : Cfg) (fuel : Nat)
    {p : PolyList I V} {xy : V → Coords C} {p' : PolyList J W} {xy' : W → Coords D}
    (hp : PolyRel RI RC p xy p' xy') {l : PolyLoop I C} {l' : PolyLoop J D} (h : PolyLoopRel RI RC l l')
    (vi0 : Nat) :
    RelR (PolyLoopRel RI RC) (polyStep cfg fuel p xy l vi0) (polyStep cfg fuel p' xy' l' vi0) := by
  unfold polyStep
  refine RelR.bind (addNthSegment_rel hC hI h.st cfg fuel hp h.vls vi0).withEq ?_
  rintro ⟨st, vls, n⟩ ⟨st', vls', n'⟩ ⟨⟨h1, h2, h3⟩, h4⟩
  cases h3
  rw [h.pending, h.i, h.nextUpdate, h.updateCount]
  refine RelR.bind (R := (· = ·)) RelR.eq ?_
  rintro pd _ rfl
  refine RelR.ite Iff.rfl ?_ ⟨h1, h2, rfl, rfl, rfl, rfl⟩
  refine RelR.bind (relocate_rel hC h1 fuel h2 _ _ ?_) fun vls vls' hvl => ?_
  · exact (addNthSegment_end.of_ok h4).2
  · exact ⟨h1, hvl, rfl, rfl, rfl, by simp only; rw [hvl.length_eq]⟩

theorem addPolygon_rel (cfg : Cfg) (fuel k : Nat)
    {p : PolyList I V} {xy : V → Coords C} {p' : PolyList J W} {xy' : W → Coords D}
    (hp : PolyRel RI RC p xy p' xy') {st : St I C} {st' : St J D} (h : StRel RI RC st st')
    {vls : List (VLoc I C)} {vls' : List (VLoc J D)} (hvl : List.Forall₂ (VLocRel RI RC) vls vls') :
    RelR (StRel RI RC) (addPolygon cfg fuel p xy k st vls) (addPolygon cfg fuel p' xy' k st' vls') := by
  unfold addPolygon
  rw [hvl.length_eq]
  refine RelR.bind (RelR.foldlM (Q := (· = ·)) (R := PolyLoopRel RI RC) ?_ (List.forall₂_same.2 fun _ _ => rfl)
    ⟨h, hvl, rfl, rfl, rfl, rfl⟩) fun l l' hl => hl.st
  rintro s t c _ hst rfl
  exact polyStep_rel hC hI cfg fuel hp hst c

structure BuildLoopRel (RI : I → J → Prop) (RC : Coords C → Coords D → Prop) (l : BuildLoop I C)
    (l' : BuildLoop J D) : Prop where
  st : StRel RI RC l.st l'.st
  vls : List.Forall₂ (VLocRel RI RC) l.vLookup l'.vLookup
  k : l.k = l'.k

end St

/-- Related elements of the index sequence. -/
def ElemRel (RI : I → J → Prop) : Option (Elem I) → Option (Elem J) → Prop
  | none, none => True
  | some (.cont i), some (.cont j) => RI i j
  | some .newPolygon, some .newPolygon => True
  | _, _ => False

theorem trapezoidize_rel (hC : RespC RC) [DecidableEq I] [DecidableEq J] (hI : RespI RI) (cfg : Cfg)
    (fuel : Nat) {p : PolyList I V} {xy : V → Coords C} {p' : PolyList J W} {xy' : W → Coords D}
    (hp : PolyRel RI RC p xy p' xy') (he : List.Forall₂ (ElemRel RI) p.elems p'.elems) :
    RelR (StRel RI RC) (trapezoidize cfg fuel p xy) (trapezoidize cfg fuel p' xy') := by
  unfold trapezoidize St.build
  refine RelR.bind (RelR.foldlM (R := St.BuildLoopRel RI RC) ?_ (forall₂_append he
    (.cons (show ElemRel RI (some .newPolygon) (some .newPolygon) from trivial) .nil))
    ⟨St.init_rel, .nil, rfl⟩) fun l l' hl => hl.st
  intro l l' e e' hl he
  rcases e with _ | _ | _ <;> rcases e' with _ | _ | _
  · exact rfl
  · exact he.elim
  · exact he.elim
  · exact he.elim
  · refine RelR.bind (hp.coords _ _ he) fun c c' hc => ?_
    exact ⟨hl.st, forall₂_append hl.vls (.cons ⟨hc, he, rfl⟩ .nil), hl.k⟩
  · exact he.elim
  · exact he.elim
  · exact he.elim
  · unfold St.buildStep
    rw [hl.vls.length_eq]
    refine RelR.ite Iff.rfl (RelR.ite Iff.rfl rfl ?_) hl
    rw [hl.k]
    exact RelR.bind (RelR.mapErr (St.addPolygon_rel hC hI cfg fuel l'.k hp hl.st hl.vls))
      fun st st' h => ⟨h, .nil, rfl⟩

end
end Tri
