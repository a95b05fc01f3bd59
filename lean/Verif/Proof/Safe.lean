import Verif.Proof.Ens

/-!
# All stored positions are in range

For an arbitrary `Scalar`: every index stored in the trapezoidation points into the vector it is used
with, and every vertex index stored was yielded by the polygon list.
-/

set_option linter.unusedSectionVars false

namespace Tri

variable {I V C : Type}

/-- The values in a `Zot`. -/
def Zot.toList {α : Type} : Zot α → List α
  | .zero => []
  | .one a => [a]
  | .two a b => [a, b]

/-- What never changes in a nexus. -/
def Nexus.key (n : Nexus I C) : I × Coords C := (n.vi, n.c)

/-- The vertices of a state, in order of insertion. -/
def St.keys (st : St I C) : List (I × Coords C) := st.ns.map Nexus.key

structure NexusOK (T S : Nat) (A : I × Coords C → Prop) (n : Nexus I C) : Prop where
  up : n.tiUpleft < T
  down : n.tiDownleft < T
  divs : ∀ d ∈ n.dividers.toList, d.tiRight < T ∧ d.si < S
  src : A n.key

structure TrapOK (S N Q : Nat) (t : Trapezoid) : Prop where
  left : ∀ s, t.left = some s → s < S
  right : ∀ s, t.right = some s → s < S
  down : ∀ n, t.down = some n → n < N
  up : ∀ n, t.up = some n → n < N
  sink : t.sink < Q

def SegOK (N : Nat) (s : Segment C) : Prop := s.niMin < N ∧ s.niMax < N

def QOK (Q T : Nat) : QueryNode C → Prop
  | .branch l r _ => l < Q ∧ r < Q
  | .sink t => t < T

structure WF (A : I × Coords C → Prop) (st : St I C) : Prop where
  ns : ∀ n ∈ st.ns, NexusOK st.ts.length st.ss.length A n
  ss : ∀ s ∈ st.ss, SegOK st.ns.length s
  ts : ∀ t ∈ st.ts, TrapOK st.ss.length st.ns.length st.qs.length t
  qs : ∀ q ∈ st.qs, QOK st.qs.length st.ts.length q
  root : 0 < st.qs.length
  size : st.ts.length = 1 + st.ns.length + st.ss.length

variable {A : I × Coords C → Prop}

theorem NexusOK.mono {T S T' S' : Nat} (hT : T ≤ T') (hS : S ≤ S') {n : Nexus I C}
    (h : NexusOK T S A n) : NexusOK T' S' A n where
  up := by have := h.up; omega
  down := by have := h.down; omega
  divs d hd := by have := h.divs d hd; omega
  src := h.src

theorem TrapOK.mono {S N Q S' N' Q' : Nat} (hS : S ≤ S') (hN : N ≤ N') (hQ : Q ≤ Q') {t : Trapezoid}
    (h : TrapOK S N Q t) : TrapOK S' N' Q' t where
  left s hs := by have := h.left s hs; omega
  right s hs := by have := h.right s hs; omega
  down s hs := by have := h.down s hs; omega
  up s hs := by have := h.up s hs; omega
  sink := by have := h.sink; omega

theorem SegOK.mono {N N' : Nat} (hN : N ≤ N') {s : Segment C} (h : SegOK N s) : SegOK N' s :=
  ⟨by have := h.1; omega, by have := h.2; omega⟩

theorem QOK.mono {Q T Q' T' : Nat} (hQ : Q ≤ Q') (hT : T ≤ T') {q : QueryNode C} (h : QOK Q T q) :
    QOK Q' T' q := by
  cases q with
  | branch l r b => exact ⟨by have := h.1; omega, by have := h.2; omega⟩
  | sink t => exact Nat.lt_of_lt_of_le h hT

theorem WF.init : WF A (St.init : St I C) where
  ns := by simp [St.init]
  ss := by simp [St.init]
  ts := by
    intro t ht
    simp only [St.init, List.mem_singleton] at ht
    subst ht
    exact ⟨by simp [Trapezoid.all], by simp [Trapezoid.all], by simp [Trapezoid.all],
      by simp [Trapezoid.all], by simp [Trapezoid.all, St.init]⟩
  qs := by simp [St.init, QOK]
  root := by simp [St.init]
  size := rfl

/-- Safe in the sense that the nexuses stay in range and keep their vertices. -/
def NsPost (T S : Nat) (A : I × Coords C → Prop) (ns ns' : List (Nexus I C)) : Prop :=
  (∀ n ∈ ns', NexusOK T S A n) ∧ ns'.map Nexus.key = ns.map Nexus.key

theorem NsPost.length {T S : Nat} {ns ns' : List (Nexus I C)} (h : NsPost T S A ns ns') :
    ns'.length = ns.length := by
  simpa using congrArg List.length h.2

theorem replaceTrapezoid_safe {T S : Nat} {n : Nexus I C} (h : NexusOK T S A n) {a b : Nat}
    (hb : b < T) :
    Safe (fun n' => NexusOK T S A n' ∧ n'.key = n.key) (n.replaceTrapezoid a b) := by
  have hne : Fault.err IErr.notConnected ≠ .ub := by simp
  unfold Nexus.replaceTrapezoid
  split
  · exact ⟨⟨hb, h.down, h.divs, h.src⟩, rfl⟩
  split
  · exact ⟨⟨h.up, hb, h.divs, h.src⟩, rfl⟩
  have hd := h.divs
  split
  · rename_i d0 hz
    rw [hz] at hd
    split
    · exact ⟨⟨h.up, h.down, by simpa [Zot.toList, hb] using (hd d0 (by simp [Zot.toList])).2, h.src⟩,
        rfl⟩
    · exact hne
  · rename_i d0 d1 hz
    rw [hz] at hd
    have h0 := hd d0 (by simp [Zot.toList])
    have h1 := hd d1 (by simp [Zot.toList])
    split
    · exact ⟨⟨h.up, h.down, by simp [Zot.toList, hb, h0.2, h1], h.src⟩, rfl⟩
    split
    · exact ⟨⟨h.up, h.down, by simp [Zot.toList, hb, h0, h1.2], h.src⟩, rfl⟩
    · exact hne
  · exact hne

theorem replaceAt_safe {T S : Nat} {ns : List (Nexus I C)} (h : ∀ n ∈ ns, NexusOK T S A n)
    (ni : Option Nat) {a b : Nat} (hb : b < T) :
    Safe (NsPost T S A ns) (St.replaceAt ns ni a b) := by
  cases ni with
  | none => exact ⟨h, rfl⟩
  | some ni =>
    refine Ens.bind (Ens.getP (by simp)) fun n hn => ?_
    refine Ens.bind (replaceTrapezoid_safe (h n (mem_of_get hn)) hb) fun n' hn' => ?_
    exact ⟨forall_set h hn'.1, map_set_same hn hn'.2⟩

theorem addSegment_safe [Scalar C] {T S : Nat} {ns : List (Nexus I C)} {ss : List (Segment C)}
    (h : ∀ n ∈ ns, NexusOK T S A n) (ni : Nat) {si ti : Nat} (hs : si < S) (ht : ti < T) :
    Safe (NsPost T S A ns) (Nexus.addSegment ns ss ni si ti) := by
  unfold Nexus.addSegment
  have hdir : Safe (fun _ => True) (Nexus.getSegmentDirection ss ni si) := by
    refine Ens.bind (Ens.getP (by simp)) fun s _ => ?_
    exact Ens.ite (fun _ => trivial) fun _ => Ens.ite (fun _ => trivial) fun _ => by simp [Ens]
  refine Ens.bind hdir fun dir _ => ?_
  refine Ens.bind (Ens.getP (by simp)) fun n hn => ?_
  have hn0 := h n (mem_of_get hn)
  have hd := hn0.divs
  split
  · exact ⟨forall_set h ⟨hn0.up, hn0.down, by simp [Zot.toList, hs, ht], hn0.src⟩, map_set_same hn rfl⟩
  · rename_i d0 hz
    rw [hz] at hd
    have h0 := hd d0 (by simp [Zot.toList])
    have hsw : Safe (fun _ => True) (Nexus.swapDividers ns ss d0 ⟨si, ti, dir⟩) := by
      unfold Nexus.swapDividers
      refine Ens.ite (fun _ => ?_) fun _ => trivial
      refine Ens.bind (Ens.getP (by simp)) fun s _ => ?_
      refine Ens.bind (Ens.getP (by simp)) fun s _ => ?_
      exact Ens.bind (Ens.getP (by simp)) fun s _ => trivial
    refine Ens.bind hsw fun sw _ => ?_
    refine Ens.ite (fun _ => ?_) fun _ => ?_
    · exact ⟨forall_set h ⟨hn0.up, hn0.down, by simp [Zot.toList, hs, ht, h0], hn0.src⟩,
        map_set_same hn rfl⟩
    · exact ⟨forall_set h ⟨hn0.up, hn0.down, by simp [Zot.toList, hs, ht, h0], hn0.src⟩,
        map_set_same hn rfl⟩
  · simp [Ens]

theorem find_safe [Scalar C] {qs : List (QueryNode C)} {T : Nat}
    (h : ∀ q ∈ qs, QOK qs.length T q) (c : Coords C) (fuel qi : Nat) (hq : qi < qs.length) :
    Safe (fun r => r.1 < qs.length ∧ r.2 < T) (St.find qs c fuel qi) := by
  induction fuel generalizing qi with
  | zero => simp [St.find, Ens]
  | succ k ih =>
    unfold St.find
    refine Ens.bind (Ens.getU hq) fun q hq' => ?_
    have := h q (mem_of_get hq')
    cases q with
    | branch l r b =>
      simp only
      split
      · exact ih _ this.1
      · exact ih _ this.2
    | sink t => exact ⟨hq, this⟩

/-- The consistency checks stay in range. -/
theorem filterDividers_mem {n : Nexus I C} {dir : Dir} {d : Divider}
    (h : d ∈ (n.filterDividers dir).toList) : d ∈ n.dividers.toList ∧ d.dir = dir := by
  unfold Nexus.filterDividers at h
  rcases hz : n.dividers with _ | d0 | ⟨d0, d1⟩ <;> rw [hz] at h
  · simp [Zot.first, Zot.second, Zot.fromOptions, Zot.toList] at h
  · simp only [Zot.first, Zot.second, Option.filter] at h
    split at h <;> simp_all [Zot.fromOptions, Zot.toList]
  · simp only [Zot.first, Zot.second, Option.filter] at h
    split at h <;> split at h <;> simp_all [Zot.fromOptions, Zot.toList]
    rcases h with rfl | rfl <;> simp_all

theorem zot_last_mem {α : Type} {z : Zot α} {a : α} (h : z.last = some a) : a ∈ z.toList := by
  rcases z with _ | a | ⟨a, b⟩ <;> simp_all [Zot.last, Zot.toList]

theorem zot_map_last {α β : Type} (f : α → β) (z : Zot α) : (z.map f).last = z.last.map f := by
  cases z <;> rfl

theorem upTrapezoids_ok {T S : Nat} {n : Nexus I C} (h : NexusOK T S A n) :
    ∀ t ∈ n.upTrapezoids.toList, t < T := by
  intro t ht
  unfold Nexus.upTrapezoids at ht
  split at ht
  · simp only [Ot.toList, List.mem_singleton] at ht
    subst ht; exact h.up
  · rename_i t' ht'
    simp only [Nexus.filterTrapezoids, zot_map_last, Option.map_eq_some_iff] at ht'
    obtain ⟨d, hd, rfl⟩ := ht'
    simp only [Ot.toList, List.mem_cons, List.not_mem_nil, or_false] at ht
    rcases ht with rfl | rfl
    · exact h.up
    · exact (h.divs d (filterDividers_mem (zot_last_mem hd)).1).1

theorem downTrapezoids_ok {T S : Nat} {n : Nexus I C} (h : NexusOK T S A n) :
    ∀ t ∈ n.downTrapezoids.toList, t < T := by
  intro t ht
  unfold Nexus.downTrapezoids at ht
  split at ht
  · simp only [Ot.toList, List.mem_singleton] at ht
    subst ht; exact h.down
  · rename_i t' ht'
    simp only [Nexus.filterTrapezoids, zot_map_last, Option.map_eq_some_iff] at ht'
    obtain ⟨d, hd, rfl⟩ := ht'
    simp only [Ot.toList, List.mem_cons, List.not_mem_nil, or_false] at ht
    rcases ht with rfl | rfl
    · exact h.down
    · exact (h.divs d (filterDividers_mem (zot_last_mem hd)).1).1

theorem leftmost_ok {T S : Nat} {n : Nexus I C} (h : NexusOK T S A n) (dir : Dir) :
    n.leftmost dir < T := by
  cases dir
  · exact h.up
  · exact h.down

namespace WF

variable {st : St I C}

theorem checkQuery_safe (h : WF A st) (fuel qi : Nat) (hq : qi < st.qs.length) :
    Safe (fun _ => True) (st.checkQuery fuel qi) := by
  induction fuel generalizing qi with
  | zero => simp [St.checkQuery, Ens]
  | succ k ih =>
    unfold St.checkQuery
    refine Ens.bind (Ens.getU hq) fun q hq' => ?_
    have := h.qs q (mem_of_get hq')
    cases q with
    | branch l r b => exact Ens.bind (ih _ this.1) fun _ _ => ih _ this.2
    | sink t => exact Ens.bind (Ens.getU this) fun _ _ => trivial

theorem checkSide_safe (_h : WF A st) (ti : Nat) (ni : Option Nat) (dir : Dir)
    (hn : ∀ n, ni = some n → n < st.ns.length) :
    Safe (fun _ => True) (st.checkSide ti ni dir) := by
  unfold St.checkSide
  split
  · exact Ens.bind (Ens.getU (hn _ rfl)) fun n _ => Ens.ite (fun _ => trivial) fun _ => by simp [Ens]
  · exact trivial

theorem debugCheck_safe (h : WF A st) (cfg : Cfg) (fuel : Nat) :
    Safe (fun _ => True) (st.debugCheck cfg fuel) := by
  have h1 : ∀ ti ∈ List.range st.ns.length, Safe (fun _ => True) (st.checkNexus ti) := by
    intro ni hni
    refine Ens.bind (Ens.getU (List.mem_range.1 hni)) fun n hn => ?_
    have hn0 := h.ns n (mem_of_get hn)
    refine Ens.bind (Ens.forM _ fun t ht => ?_) fun _ _ => Ens.forM _ fun t ht => ?_
    · exact Ens.bind (Ens.getU (upTrapezoids_ok hn0 t ht)) fun t _ =>
        Ens.ite (fun _ => trivial) fun _ => by simp [Ens]
    · exact Ens.bind (Ens.getU (downTrapezoids_ok hn0 t ht)) fun t _ =>
        Ens.ite (fun _ => trivial) fun _ => by simp [Ens]
  have h2 : ∀ ti ∈ List.range st.ts.length, Safe (fun _ => True) (st.checkTrapezoid ti) := by
    intro ti hti
    refine Ens.bind (Ens.getU (List.mem_range.1 hti)) fun t ht => ?_
    have ht0 := h.ts t (mem_of_get ht)
    refine Ens.bind (h.checkSide_safe _ _ _ ht0.down) fun _ _ => ?_
    refine Ens.bind (h.checkSide_safe _ _ _ ht0.up) fun _ _ => ?_
    refine Ens.bind (Ens.getU ht0.sink) fun q hq => ?_
    cases q with
    | branch l r b => simp [Ens]
    | sink t' => exact Ens.ite (fun _ => trivial) fun _ => by simp [Ens]
  unfold St.debugCheck
  refine Ens.ite (fun _ => ?_) fun _ => trivial
  exact Ens.bind (Ens.forM _ h1) fun _ _ => Ens.bind (Ens.forM _ h2) fun _ _ =>
    h.checkQuery_safe _ _ h.root

theorem addVertexAt_safe (h : WF A st) {vi : I} {c : Coords C} (hA : A (vi, c)) {qp ti : Nat}
    (hti : ti < st.ts.length) :
    Safe (fun st' => WF A st' ∧ st'.keys = st.keys ++ [(vi, c)] ∧ st'.ss = st.ss ∧
      st.qs.length ≤ st'.qs.length) (st.addVertexAt vi c qp ti) := by
  unfold St.addVertexAt
  refine Ens.bind (Ens.getP (by simp)) fun qLeft hqL => ?_
  refine Ens.bind (Ens.modP (by simp)) fun qs hqs => ?_
  refine Ens.bind (Ens.modP (by simp)) fun ts hts => ?_
  refine Ens.bind (Ens.getP (by simp)) fun t ht => ?_
  obtain ⟨q0, hq0, rfl⟩ := hqs
  obtain ⟨t0, ht0, rfl⟩ := hts
  have htt : t = Trapezoid.setSink st.qs.length t0 := by
    rw [List.getElem?_set_self (lt_of_get ht0)] at ht
    exact (Option.some.inj ht).symm
  have hok := h.ts t0 (mem_of_get ht0)
  refine Ens.bind (replaceAt_safe (T := st.ts.length + 1) (S := st.ss.length) (A := A)
    (forall_append (fun n hn => (h.ns n hn).mono (by omega) (Nat.le_refl _)) ?_) _
    (Nat.lt_succ_self _)) fun ns hns => ?_
  · intro n hn
    rw [List.mem_singleton] at hn
    subst hn
    exact ⟨Nat.lt_succ_self _, by simp [Nexus.new]; omega, by simp [Nexus.new, Zot.toList], hA⟩
  · have hlen := hns.length
    simp only [List.length_append, List.length_singleton] at hlen
    subst htt
    refine ⟨⟨?_, ?_, ?_, ?_, ?_, ?_⟩, ?_, rfl, ?_⟩
    · simpa using hns.1
    · simp only [hlen]
      exact fun s hs => (h.ss s hs).mono (by omega)
    · simp only [hlen, List.length_append, List.length_set, List.length_cons, List.length_nil,
        Nat.zero_add]
      refine forall_append (forall_set (forall_set (fun t ht => (h.ts t ht).mono (Nat.le_refl _)
        (Nat.le_succ _) (by omega)) ?_) ?_) ?_
      · exact ⟨hok.left, hok.right, fun n hn => by have := hok.down n hn; omega,
          fun n hn => by have := hok.up n hn; omega, by simp [Trapezoid.setSink]⟩
      · exact ⟨hok.left, hok.right, fun n hn => by have := hok.down n hn; omega,
          fun n hn => by simp at hn; omega,
          by simp⟩
      · intro t ht
        rw [List.mem_singleton] at ht
        subst ht
        exact ⟨hok.left, hok.right, fun n hn => by simp at hn; omega,
          fun n hn => by have := hok.up n hn; omega, by simp⟩
    · simp only [List.length_append, List.length_set, List.length_cons, List.length_nil,
        Nat.zero_add]
      refine forall_append (forall_set (fun q hq => (h.qs q hq).mono (by omega) (by omega)) ?_) ?_
      · exact ⟨by omega, by omega⟩
      · intro q hq
        simp only [List.mem_cons, List.not_mem_nil, or_false] at hq
        rcases hq with rfl | rfl
        · exact (h.qs _ (mem_of_get hqL)).mono (by omega) (by omega)
        · exact Nat.lt_succ_self _
    · simp
    · have := h.size
      simp only [List.length_append, List.length_set, List.length_cons, List.length_nil, hlen]
      omega
    · simp only [St.keys, hns.2, List.map_append, List.map_cons, List.map_nil]; rfl
    · simp

theorem downDir_safe [Scalar C] [DecidableEq I] {T S : Nat} {n : Nexus I C} (h : NexusOK T S A n)
    (ns : List (Nexus I C)) (ss : List (Segment C)) (s : Segment C) :
    Safe (· < T) (n.getDownTrapezoidInDirection ns ss s) := by
  unfold Nexus.getDownTrapezoidInDirection
  split
  · exact h.down
  · rename_i d hd
    have h0 : Safe (fun _ => True) (n.downTestCoords ns ss s d) := by
      refine Ens.bind (Ens.getP (by simp)) fun _ _ => ?_
      refine Ens.ite (fun _ => by simp [Ens]) fun _ => ?_
      refine Ens.bind (Ens.getP (by simp)) fun _ _ => ?_
      refine Ens.ite (fun _ => ?_) fun _ => trivial
      refine Ens.bind (Ens.getP (by simp)) fun _ _ => ?_
      exact Ens.bind (Ens.getP (by simp)) fun _ _ => trivial
    refine Ens.bind h0 fun c _ => ?_
    exact Ens.ite (fun _ => (h.divs d (filterDividers_mem (zot_last_mem hd)).1).1) fun _ => h.down

end WF

/-- Invariant of the loop of `add_segment`, started in `st0` for segment `s`. -/
structure SegInv (A : I × Coords C → Prop) (st0 : St I C) (s : Segment C) (l : St.SegLoop I C) :
    Prop where
  wf : WF A l.st
  keys : l.st.keys = st0.keys
  ss : l.st.ss = st0.ss ++ [s]
  ni : l.ni < l.st.ns.length
  left : l.tiUpleft < l.st.ts.length
  right : l.tiUpright < l.st.ts.length
  qs : st0.qs.length ≤ l.st.qs.length

variable [Scalar C] [DecidableEq I]

theorem addSegmentStart_safe {st : St I C} (h : WF A st) {niMin niMax : Nat}
    (hmin : niMin < st.ns.length) (hmax : niMax < st.ns.length) (cMin cMax : Coords C) :
    Safe (SegInv A st ⟨niMin, niMax, cMin, cMax⟩) (st.addSegmentStart niMin niMax cMin cMax) := by
  unfold St.addSegmentStart
  refine Ens.bind (Ens.getU hmax) fun nMax hnMax => ?_
  refine Ens.bind (WF.downDir_safe (h.ns nMax (mem_of_get hnMax)) ..) fun ti hti => ?_
  refine Ens.bind (Ens.getU hti) fun t ht => ?_
  refine Ens.bind (Ens.getP (by simp)) fun qLeft hqL => ?_
  refine Ens.bind (Ens.modP (by simp)) fun qs hqs => ?_
  refine Ens.bind (Ens.modP (by simp)) fun ts hts => ?_
  refine Ens.bind (Ens.getP (by simp)) fun t' ht' => ?_
  obtain ⟨q0, hq0, rfl⟩ := hqs
  obtain ⟨t0, ht0, rfl⟩ := hts
  have htt : t' = Trapezoid.setSink st.qs.length t0 := by
    rw [List.getElem?_set_self (lt_of_get ht0)] at ht'
    exact (Option.some.inj ht').symm
  subst htt
  have hok := h.ts t0 (mem_of_get ht0)
  refine Ens.bind (addSegment_safe (T := st.ts.length + 1) (S := st.ss.length + 1) (A := A)
    (fun n hn => (h.ns n hn).mono (by omega) (by omega)) _ (by omega) (by omega)) fun ns hns => ?_
  have hlen := hns.length
  have hts' : ∀ t ∈ ((st.ts.set ti (Trapezoid.setSink st.qs.length t0)).set ti
      ((Trapezoid.setSink st.qs.length t0).splitVertical st.qs.length (st.qs.length + 1)
        st.ss.length).1 ++ [((Trapezoid.setSink st.qs.length t0).splitVertical st.qs.length
          (st.qs.length + 1) st.ss.length).2]), TrapOK (st.ss.length + 1) st.ns.length
        (st.qs.length + 2) t := by
    refine forall_append (forall_set (forall_set (fun t ht => (h.ts t ht).mono (by omega)
        (by omega) (by omega)) ?_) ?_) ?_
    · exact ⟨fun n hn => by have := hok.left n hn; omega, fun n hn => by have := hok.right n hn; omega,
        hok.down, hok.up, by simp [Trapezoid.setSink]⟩
    · exact ⟨fun n hn => by have := hok.left n hn; omega,
        fun n hn => by simp [Trapezoid.splitVertical] at hn; omega,
        hok.down, hok.up, by simp [Trapezoid.splitVertical]⟩
    · intro t ht
      rw [List.mem_singleton] at ht
      subst ht
      exact ⟨fun n hn => by simp [Trapezoid.splitVertical] at hn; omega,
        fun n hn => by have := hok.right n hn; omega,
        hok.down, hok.up, by simp [Trapezoid.splitVertical]⟩
  refine Ens.bind (Ens.getU (by simp; omega)) fun t2 ht2 => ?_
  have hok2 := hts' t2 (mem_of_get ht2)
  split
  · simp [Ens]
  · rename_i ni hni
    have hni' := hok2.down ni hni
    refine Ens.bind (Ens.getU (by omega)) fun n hn => ?_
    refine Ens.bind (replaceAt_safe hns.1 _ (Nat.lt_succ_self _)) fun ns' hns' => ?_
    have hlen' := hns'.length
    refine ⟨⟨?_, ?_, ?_, ?_, ?_, ?_⟩, ?_, rfl, ?_, ?_, ?_, ?_⟩
    · simpa using hns'.1
    · simp only [hlen', hlen]
      refine forall_append h.ss ?_
      intro s hs
      rw [List.mem_singleton] at hs
      subst hs
      exact ⟨hmin, hmax⟩
    · simpa [hlen', hlen, Trapezoid.splitVertical] using hts'
    · simp only [List.length_append, List.length_set, List.length_cons, List.length_nil,
        Nat.zero_add]
      refine forall_append (forall_set (fun q hq => (h.qs q hq).mono (by omega) (by omega)) ?_) ?_
      · exact ⟨by omega, by omega⟩
      · intro q hq
        simp only [List.mem_cons, List.not_mem_nil, or_false] at hq
        rcases hq with rfl | rfl
        · exact (h.qs _ (mem_of_get hqL)).mono (by omega) (by omega)
        · exact Nat.lt_succ_self _
    · simp
    · have := h.size
      simp only [List.length_append, List.length_set, List.length_cons, List.length_nil, hlen', hlen]
      omega
    · simp only [St.keys, hns'.2, hns.2]
    · simpa [hlen', hlen] using hni'
    · simp; omega
    · simp
    · simp

theorem addSegmentStep_safe {st0 : St I C} {s : Segment C} {l : St.SegLoop I C}
    (h : SegInv A st0 s l) : Safe (SegInv A st0 s) (St.addSegmentStep st0.ss.length s l) := by
  have hsi : st0.ss.length < l.st.ss.length := by rw [h.ss]; simp
  have hwf := h.wf
  unfold St.addSegmentStep
  refine Ens.bind (Ens.getU h.ni) fun n hn => ?_
  refine Ens.bind (WF.downDir_safe (hwf.ns n (mem_of_get hn)) ..) fun ti hti => ?_
  refine Ens.bind (Ens.getU hti) fun t ht => ?_
  have hok := hwf.ts t (mem_of_get ht)
  split
  · simp [Ens]
  rename_i ni hni
  have hni' := hok.down ni hni
  refine Ens.bind (Ens.getU h.left) fun tl htl => ?_
  refine Ens.bind (Ens.getU h.right) fun tr htr => ?_
  have hokl := hwf.ts tl (mem_of_get htl)
  have hokr := hwf.ts tr (mem_of_get htr)
  have qsOK : ∀ (a b : Nat) (x : Branch C) (q : QueryNode C), a ≤ l.st.qs.length → b ≤ l.st.qs.length →
      q ∈ l.st.qs → ∀ k, ∀ q' ∈ l.st.qs.set k (.branch a b x) ++ [q],
        QOK (l.st.qs.length + 1) l.st.ts.length q' := by
    intro a b x q ha hb hq k
    refine forall_append (forall_set (fun q hq => (hwf.qs q hq).mono (by omega) (by omega))
      ⟨by omega, by omega⟩) ?_
    intro q' hq'
    rw [List.mem_singleton] at hq'
    subst hq'
    exact (hwf.qs _ hq).mono (by omega) (by omega)
  refine Ens.ite (fun _ => ?_) fun _ => Ens.ite (fun _ => ?_) fun _ => by simp [Ens]
  · refine Ens.bind (Ens.getP (by simp)) fun qL hqL => ?_
    refine Ens.bind (Ens.modP (by simp)) fun qs hqs => ?_
    refine Ens.bind (Ens.modP (by simp)) fun ts1 hts1 => ?_
    refine Ens.bind (Ens.modP (by simp)) fun ts2 hts2 => ?_
    refine Ens.bind (Ens.modP (by simp)) fun ts3 hts3 => ?_
    refine Ens.bind (Ens.getU hni') fun n2 hn2 => ?_
    refine Ens.bind (replaceAt_safe hwf.ns _ h.right) fun ns' hns' => ?_
    obtain ⟨q0, hq0, rfl⟩ := hqs
    obtain ⟨t1, ht1, rfl⟩ := hts1
    obtain ⟨t2, ht2, rfl⟩ := hts2
    obtain ⟨t3, ht3, rfl⟩ := hts3
    have hlen := hns'.length
    have p0 : ∀ t ∈ l.st.ts, TrapOK l.st.ss.length l.st.ns.length (l.st.qs.length + 1) t :=
      fun t ht => (hwf.ts t ht).mono (by omega) (by omega) (by omega)
    have p1 := forall_set (i := ti) p0 (a := t1.setSink l.st.qs.length) (by
      have := p0 t1 (mem_of_get ht1)
      exact ⟨this.left, this.right, this.down, this.up, by simp [Trapezoid.setSink]⟩)
    have p2 := forall_set (i := ti) p1 (a := t2.setRight st0.ss.length) (by
      have := p1 t2 (mem_of_get ht2)
      exact ⟨this.left, by simp [Trapezoid.setRight, hsi], this.down, this.up, this.sink⟩)
    have p3 := forall_set (i := l.tiUpright) p2 (a := t3.setDown ni) (by
      have := p2 t3 (mem_of_get ht3)
      exact ⟨this.left, this.right, by simp [Trapezoid.setDown, hni'], this.up, this.sink⟩)
    refine ⟨⟨?_, ?_, ?_, ?_, ?_, ?_⟩, ?_, h.ss, ?_, ?_, ?_, ?_⟩
    · simpa using hns'.1
    · simpa [hlen] using hwf.ss
    · simpa [hlen] using p3
    · simpa using qsOK _ _ _ _ (Nat.le_refl _) (Nat.le_of_lt hokr.sink) (mem_of_get hqL) _
    · simp
    · simpa [hlen] using hwf.size
    · simpa [St.keys, hns'.2] using h.keys
    · simpa [hlen] using hni'
    · simpa using hti
    · simpa using h.right
    · simp; have := h.qs; omega
  · refine Ens.bind (Ens.getP (by simp)) fun qL hqL => ?_
    refine Ens.bind (Ens.modP (by simp)) fun qs hqs => ?_
    refine Ens.bind (Ens.modP (by simp)) fun ts1 hts1 => ?_
    refine Ens.bind (Ens.modP (by simp)) fun ts2 hts2 => ?_
    refine Ens.bind (Ens.modP (by simp)) fun ts3 hts3 => ?_
    refine Ens.bind (Ens.getU hni') fun n2 hn2 => ?_
    refine Ens.bind (replaceAt_safe hwf.ns _ h.left) fun ns' hns' => ?_
    obtain ⟨q0, hq0, rfl⟩ := hqs
    obtain ⟨t1, ht1, rfl⟩ := hts1
    obtain ⟨t2, ht2, rfl⟩ := hts2
    obtain ⟨t3, ht3, rfl⟩ := hts3
    have hlen := hns'.length
    have p0 : ∀ t ∈ l.st.ts, TrapOK l.st.ss.length l.st.ns.length (l.st.qs.length + 1) t :=
      fun t ht => (hwf.ts t ht).mono (by omega) (by omega) (by omega)
    have p1 := forall_set (i := ti) p0 (a := t1.setSink l.st.qs.length) (by
      have := p0 t1 (mem_of_get ht1)
      exact ⟨this.left, this.right, this.down, this.up, by simp [Trapezoid.setSink]⟩)
    have p2 := forall_set (i := ti) p1 (a := t2.setLeft st0.ss.length) (by
      have := p1 t2 (mem_of_get ht2)
      exact ⟨by simp [Trapezoid.setLeft, hsi], this.right, this.down, this.up, this.sink⟩)
    have p3 := forall_set (i := l.tiUpleft) p2 (a := t3.setDown ni) (by
      have := p2 t3 (mem_of_get ht3)
      exact ⟨this.left, this.right, by simp [Trapezoid.setDown, hni'], this.up, this.sink⟩)
    refine ⟨⟨?_, ?_, ?_, ?_, ?_, ?_⟩, ?_, h.ss, ?_, ?_, ?_, ?_⟩
    · simpa using hns'.1
    · simpa [hlen] using hwf.ss
    · simpa [hlen] using p3
    · simpa using qsOK _ _ _ _ (Nat.le_of_lt hokl.sink) (Nat.le_refl _) (mem_of_get hqL) _
    · simp
    · simpa [hlen] using hwf.size
    · simpa [St.keys, hns'.2] using h.keys
    · simpa [hlen] using hni'
    · simpa using h.left
    · simpa using hti
    · simp; have := h.qs; omega

theorem addSegmentLoop_safe {st0 : St I C} {s : Segment C} (fuel : Nat) {l : St.SegLoop I C}
    (h : SegInv A st0 s l) : Safe (SegInv A st0 s) (St.addSegmentLoop st0.ss.length s fuel l) := by
  induction fuel generalizing l with
  | zero => simp [St.addSegmentLoop, Ens]
  | succ k ih =>
    unfold St.addSegmentLoop
    exact Ens.ite (fun _ => h) fun _ => Ens.bind (addSegmentStep_safe h) fun l' hl' => ih hl'

namespace WF

theorem addSegment_safe' {st : St I C} (h : WF A st) (cfg : Cfg) (fuel : Nat) {niMin niMax : Nat}
    (hmin : niMin < st.ns.length) (hmax : niMax < st.ns.length) (cMin cMax : Coords C) :
    Safe (fun st' => WF A st' ∧ st'.keys = st.keys ∧ st'.ss = st.ss ++ [⟨niMin, niMax, cMin, cMax⟩] ∧
      st.qs.length ≤ st'.qs.length) (st.addSegment cfg fuel niMin niMax cMin cMax) := by
  unfold St.addSegment
  refine Ens.bind (addSegmentStart_safe h hmin hmax cMin cMax) fun l hl => ?_
  refine Ens.bind (addSegmentLoop_safe fuel hl) fun l hl => ?_
  refine Ens.bind (addSegment_safe hl.wf.ns _ (by rw [hl.ss]; simp) hl.right) fun ns hns => ?_
  have hlen := hns.length
  have hwf : WF A { l.st with ns := ns } := by
    refine ⟨hns.1, ?_, ?_, hl.wf.qs, hl.wf.root, ?_⟩
    · simpa [hlen] using hl.wf.ss
    · simpa [hlen] using hl.wf.ts
    · simpa [hlen] using hl.wf.size
  refine Ens.bind (hwf.debugCheck_safe cfg fuel) fun _ _ => ?_
  exact ⟨hwf, by simpa [St.keys, hns.2] using hl.keys, hl.ss, hl.qs⟩

theorem addVertex_safe {st : St I C} (h : WF A st) (cfg : Cfg) (fuel : Nat) (p : PolyList I V)
    (xy : V → Coords C) {vi : I} {c : Coords C} (hA : A (vi, c)) 
    (hc : p.coords (ε := IErr) xy vi = .ok c)
    {qi : Nat} (hq : qi < st.qs.length) :
    Safe (fun r => WF A r.1 ∧ r.1.keys = st.keys ++ [(vi, c)] ∧ r.1.ss = st.ss ∧
      st.qs.length ≤ r.1.qs.length ∧ r.2 = st.ns.length) (st.addVertex cfg fuel p xy vi qi) := by
  unfold St.addVertex
  rw [hc]
  refine Ens.bind (Ens.ok (P := (· = c)) rfl) fun c' hc' => ?_
  subst hc'
  refine Ens.bind (find_safe h.qs c' fuel qi hq) fun r hr => ?_
  refine Ens.bind (h.addVertexAt_safe hA hr.2) fun st' hst' => ?_
  refine Ens.bind (hst'.1.debugCheck_safe cfg fuel) fun _ _ => ?_
  exact ⟨hst'.1, hst'.2.1, hst'.2.2.1, hst'.2.2.2, rfl⟩

end WF

end Tri
