import Verif.Proof.Locs

/-!
# The vertices of any trapezoidation can be ranked

For an arbitrary `Scalar` and for arbitrary input, valid or not: there is a ranking of the vertex
nodes such that every trapezoid's lower vertex is ranked below its upper one, every trapezoid listed
above a vertex ends above it and every trapezoid listed below a vertex ends below it.  Walks through
the trapezoids therefore go up or down in the ranking and end.
-/

set_option linter.unusedSectionVars false

namespace Tri

variable {I V C : Type}

section Ens

variable {ε α : Type} {E : Fault ε → Prop} {P Q : α → Prop} {r : Res ε α}

/-- What is known of the values of a safe run can be used in any other statement about it. -/
theorem Ens.with {E' : Fault ε → Prop} (h : Ens E P r) (h' : Ens E' Q r) :
    Ens E (fun a => P a ∧ Q a) r := by
  cases r with
  | ok a => exact ⟨h, h'⟩
  | error e => exact h

theorem Ens.getP_lt {xs : List α} {i : Nat} (h : i < xs.length) :
    Ens E (fun a => xs[i]? = some a) (Tri.getP xs i : Res ε α) := by
  unfold Tri.getP
  rw [List.getElem?_eq_getElem h]
  exact rfl

theorem Ens.modP_lt {xs : List α} {i : Nat} {f : α → α} (h : i < xs.length) :
    Ens E (fun ys => ∃ a, xs[i]? = some a ∧ ys = xs.set i (f a)) (Tri.modP xs i f : Res ε _) := by
  unfold Tri.modP
  rw [List.getElem?_eq_getElem h]
  exact ⟨_, rfl, rfl⟩

theorem Ens.subP_le {a b : Nat} {E : Fault ε → Prop} (h : b ≤ a) :
    Ens E (fun d => d = a - b) (Tri.subP a b : Res ε Nat) := by
  unfold Tri.subP
  rw [if_pos h]
  exact rfl

end Ens

/-- A descending first divider is followed by a descending one. -/
def DOrd (n : Nexus I C) : Prop :=
  ∀ d0 d1, n.dividers = .two d0 d1 → d0.dir = .desc → d1.dir = .desc

theorem mem_iter {n : Nexus I C} {dir : Dir} {t : Nat} :
    t ∈ n.iterTrapezoids dir ↔
      t = n.leftmost dir ∨ ∃ d ∈ n.dividers.toList, d.dir = dir ∧ d.tiRight = t := by
  unfold Nexus.iterTrapezoids
  rcases n.dividers with _ | d0 | ⟨d0, d1⟩
  · simp [Zot.toList]
  · by_cases h : d0.dir = dir <;> simp [Zot.toList, h, @eq_comm _ t d0.tiRight]
  · by_cases h : d0.dir = dir <;> by_cases h' : d1.dir = dir <;> 
      simp [Zot.toList, h, h', @eq_comm _ t d0.tiRight, @eq_comm _ t d1.tiRight]

theorem NexusOK.iter_lt {T S : Nat} {A : I × Coords C → Prop} {n : Nexus I C}
    (h : NexusOK T S A n) {dir : Dir} {t : Nat} (ht : t ∈ n.iterTrapezoids dir) : t < T := by
  rcases mem_iter.1 ht with rfl | ⟨d, hd, -, rfl⟩
  · exact leftmost_ok h dir
  · exact (h.divs d hd).1

/-- `n'` is `n` with an occurrence of trapezoid `a` replaced by `b`. -/
structure Relisted (a b : Nat) (n n' : Nexus I C) : Prop where
  iter : ∀ dir, ∀ t ∈ n'.iterTrapezoids dir, t ∈ n.iterTrapezoids dir ∨
    t = b ∧ a ∈ n.iterTrapezoids dir
  dord : DOrd n → DOrd n'

theorem replaceTrapezoid_ranked {E : Fault IErr → Prop} (hE : ∀ e, E (.err e)) (n : Nexus I C)
    (a b : Nat) : Ens E (Relisted a b n) (n.replaceTrapezoid a b) := by
  unfold Nexus.replaceTrapezoid
  split
  · rename_i h
    refine ⟨fun dir t ht => ?_, fun h => h⟩
    rw [mem_iter] at ht
    simp only [mem_iter]
    cases dir <;> simp only [Nexus.leftmost] at ht ⊢
    · rcases ht with rfl | ht
      · exact .inr ⟨rfl, .inl h.symm⟩
      · exact .inl (.inr ht)
    · exact .inl ht
  split
  · rename_i h
    refine ⟨fun dir t ht => ?_, fun h => h⟩
    rw [mem_iter] at ht
    simp only [mem_iter]
    cases dir <;> simp only [Nexus.leftmost] at ht ⊢
    · exact .inl ht
    · rcases ht with rfl | ht
      · exact .inr ⟨rfl, .inl h.symm⟩
      · exact .inl (.inr ht)
  split
  · rename_i d0 hz
    split
    · rename_i h
      refine ⟨fun dir t ht => ?_, fun h d0 d1 hd => by simp at hd⟩
      rw [mem_iter] at ht
      simp only [mem_iter, hz, Zot.toList, List.mem_singleton] at ht ⊢
      rcases ht with rfl | ⟨d, rfl, hd, rfl⟩
      · exact .inl (.inl (by cases dir <;> rfl))
      · exact .inr ⟨rfl, .inr ⟨d0, rfl, hd, h⟩⟩
    · exact hE _
  · rename_i d0 d1 hz
    split
    · rename_i h
      refine ⟨fun dir t ht => ?_, fun h e0 e1 hd => ?_⟩
      · rw [mem_iter] at ht
        simp only [mem_iter, hz, Zot.toList, List.mem_cons, List.not_mem_nil, or_false] at ht ⊢
        rcases ht with rfl | ⟨d, rfl | rfl, hd, rfl⟩
        · exact .inl (.inl (by cases dir <;> rfl))
        · exact .inr ⟨rfl, .inr ⟨d0, .inl rfl, hd, h⟩⟩
        · exact .inl (.inr ⟨d, .inr rfl, hd, rfl⟩)
      · simp only [Zot.two.injEq] at hd
        obtain ⟨rfl, rfl⟩ := hd
        exact h d0 d1 hz
    split
    · rename_i h
      refine ⟨fun dir t ht => ?_, fun h e0 e1 hd => ?_⟩
      · rw [mem_iter] at ht
        simp only [mem_iter, hz, Zot.toList, List.mem_cons, List.not_mem_nil, or_false] at ht ⊢
        rcases ht with rfl | ⟨d, rfl | rfl, hd, rfl⟩
        · exact .inl (.inl (by cases dir <;> rfl))
        · exact .inl (.inr ⟨d, .inl rfl, hd, rfl⟩)
        · exact .inr ⟨rfl, .inr ⟨d1, .inr rfl, hd, h⟩⟩
      · simp only [Zot.two.injEq] at hd
        obtain ⟨rfl, rfl⟩ := hd
        exact h d0 d1 hz
    · exact hE _
  · exact hE _

/-- `ns'` is `ns` with, at `ni`, an occurrence of `a` replaced by `b`. -/
def RelistedAt (ni : Option Nat) (a b : Nat) (ns ns' : List (Nexus I C)) : Prop :=
  ns'.length = ns.length ∧ ∀ i n', ns'[i]? = some n' → ∃ n, ns[i]? = some n ∧
    (DOrd n → DOrd n') ∧ ∀ dir, ∀ t ∈ n'.iterTrapezoids dir, t ∈ n.iterTrapezoids dir ∨
      ni = some i ∧ t = b ∧ a ∈ n.iterTrapezoids dir

theorem replaceAt_ranked {E : Fault IErr → Prop} (hE : ∀ e, E (.err e)) (ns : List (Nexus I C))
    (ni : Option Nat) (a b : Nat) (hni : ∀ i, ni = some i → i < ns.length) :
    Ens E (RelistedAt ni a b ns) (St.replaceAt ns ni a b) := by
  cases ni with
  | none => exact ⟨rfl, fun i n' hn => ⟨n', hn, fun h => h, fun dir t ht => .inl ht⟩⟩
  | some ni =>
    refine Ens.bind (Ens.getP_lt (hni ni rfl)) fun n hn => ?_
    refine Ens.bind (replaceTrapezoid_ranked hE n a b) fun n' hn' => ?_
    refine ⟨by simp, fun i m hm => ?_⟩
    rw [List.getElem?_set] at hm
    split at hm
    · rename_i hij
      subst hij
      split at hm
      · cases hm
        refine ⟨n, hn, hn'.dord, fun dir t ht => ?_⟩
        rcases hn'.iter dir t ht with h | h
        · exact .inl h
        · exact .inr ⟨rfl, h⟩
      · cases hm
    · exact ⟨m, hm, fun h => h, fun dir t ht => .inl ht⟩

/-- `ns'` is `ns` with trapezoid `ti` added to the list of `ni` in direction `d`. -/
def ListedAt (ni ti : Nat) (d : Dir) (ns ns' : List (Nexus I C)) : Prop :=
  ns'.length = ns.length ∧ ∀ i n', ns'[i]? = some n' → ∃ n, ns[i]? = some n ∧
    (DOrd n → DOrd n') ∧ ∀ dir, ∀ t ∈ n'.iterTrapezoids dir, t ∈ n.iterTrapezoids dir ∨
      i = ni ∧ t = ti ∧ dir = d

theorem nexusAddSegment_ranked [Scalar C] {E : Fault IErr → Prop} (hE : ∀ e, E (.err e))
    {ns : List (Nexus I C)} {ss : List (Segment C)} (hss : ∀ s ∈ ss, SegOK ns.length s)
    (hns : ∀ n ∈ ns, ∀ d ∈ n.dividers.toList, d.si < ss.length)
    {ni si : Nat} (hni : ni < ns.length) {s : Segment C} (hs : ss[si]? = some s) (ti : Nat) :
    Ens E (ListedAt ni ti (if ni = s.niMax then .desc else .asc) ns)
      (Nexus.addSegment ns ss ni si ti) := by
  unfold Nexus.addSegment
  have hdir : Ens E (fun d => d = if ni = s.niMax then .desc else .asc)
      (Nexus.getSegmentDirection ss ni si) := by
    refine Ens.bind (Ens.getP_lt (lt_of_get hs)) fun s' hs' => ?_
    rw [hs] at hs'
    cases hs'
    refine Ens.ite (fun h => by simp [Ens, h]) fun h =>
      Ens.ite (fun _ => by simp [Ens, h]) fun _ => hE _
  refine Ens.bind hdir fun dir hd => ?_
  subst hd
  generalize (if ni = s.niMax then Dir.desc else Dir.asc) = dir
  refine Ens.bind (Ens.getP_lt hni) fun n hn => ?_
  have key : ∀ z : Zot Divider,
      (∀ d ∈ z.toList, d ∈ n.dividers.toList ∨ d = ⟨si, ti, dir⟩) →
      (DOrd n → DOrd { n with dividers := z }) →
      ListedAt ni ti dir ns (ns.set ni { n with dividers := z }) := by
    intro z hz hdo
    refine ⟨by simp, fun i m hm => ?_⟩
    rw [List.getElem?_set] at hm
    split at hm
    · rename_i hij
      subst hij
      cases hm
      refine ⟨n, hn, hdo, fun d t ht => ?_⟩
      rw [mem_iter] at ht
      simp only [mem_iter]
      rcases ht with rfl | ⟨x, hx, hxd, rfl⟩
      · exact .inl (.inl (by cases d <;> rfl))
      · rcases hz x hx with h | rfl
        · exact .inl (.inr ⟨x, h, hxd, rfl⟩)
        · exact .inr ⟨trivial, rfl, hxd.symm⟩
    · exact ⟨m, hm, fun h => h, fun dir t ht => .inl ht⟩
  split
  · exact key _ (by simp [Zot.toList]) fun _ d0 d1 h => by simp at h
  · rename_i d0 hz
    have hd0 := hns n (mem_of_get hn) d0 (by simp [hz, Zot.toList])
    have hsw : Ens E (fun b => d0.dir = dir ∨ b = decide (dir = .asc))
        (Nexus.swapDividers ns ss d0 ⟨si, ti, dir⟩) := by
      unfold Nexus.swapDividers
      refine Ens.ite (fun h => ?_) fun _ => .inr rfl
      refine Ens.bind (Ens.getP_lt hd0) fun s0 _ => ?_
      refine Ens.bind (Ens.getP_lt (lt_of_get hs)) fun s1 hs1 => ?_
      have := hss s1 (mem_of_get hs1)
      refine Ens.bind (Ens.getP_lt ?_) fun _ _ => .inl h
      cases dir
      · exact this.2
      · exact this.1
    refine Ens.bind hsw fun sw hsw => ?_
    refine Ens.ite (fun hs => key _ ?_ ?_) fun hs => key _ ?_ ?_
    · simp only [Zot.toList, List.mem_cons, List.not_mem_nil, or_false, hz]
      rintro d (rfl | rfl)
      · exact .inr rfl
      · exact .inl rfl
    · rintro - e0 e1 h h0
      simp only [Zot.two.injEq] at h
      obtain ⟨rfl, rfl⟩ := h
      subst hs
      simp only at h0
      rcases hsw with h | h
      · rw [h, h0]
      · simp [h0] at h
    · simp only [Zot.toList, List.mem_cons, List.not_mem_nil, or_false, hz]
      rintro d (rfl | rfl)
      · exact .inl rfl
      · exact .inr rfl
    · rintro - e0 e1 h h0
      simp only [Zot.two.injEq] at h
      obtain ⟨rfl, rfl⟩ := h
      rcases hsw with h | h
      · exact h.symm.trans h0
      · cases dir
        · simp [h] at hs
        · rfl
  · exact hE _

/-- The ranking `ρ` of the vertex nodes fits the trapezoidation. -/
structure Ranked (ρ : Nat → Nat) (ns : List (Nexus I C)) (ts : List Trapezoid) : Prop where
  trap : ∀ (t : Trapezoid), t ∈ ts → ∀ d u, t.down = some d → t.up = some u → ρ d < ρ u
  above : ∀ i n, ns[i]? = some n → ∀ ti ∈ n.iterTrapezoids .asc, ∀ t, ts[ti]? = some t →
    ∀ u, t.up = some u → ρ i < ρ u
  below : ∀ i n, ns[i]? = some n → ∀ ti ∈ n.iterTrapezoids .desc, ∀ t, ts[ti]? = some t →
    ∀ d, t.down = some d → ρ d < ρ i
  dord : ∀ n ∈ ns, DOrd n

/-- Search nodes point to later ones, and the sink of every trapezoid is its own. -/
structure QOrd (ts : List Trapezoid) (qs : List (QueryNode C)) : Prop where
  mono : ∀ (i l r : Nat) (b : Branch C), qs[i]? = some (.branch l r b) → i < l ∧ i < r
  own : ∀ (i : Nat) (t : Trapezoid), ts[i]? = some t → qs[t.sink]? = some (.sink i)

/-- No path through the search nodes has more than `D` edges. -/
def Deep (D : Nat) (qs : List (QueryNode C)) : Prop :=
  ∃ δ : Nat → Nat, (∀ i, δ i ≤ D) ∧ ∀ (i l r : Nat) (b : Branch C), qs[i]? = some (.branch l r b) → δ i < δ l ∧ δ i < δ r

/-- The branches of `qs'` are those of `qs` and new ones, which lead from old nodes to new ones. -/
def QLev (qs qs' : List (QueryNode C)) : Prop :=
  ∀ (i l r : Nat) (b : Branch C), qs'[i]? = some (.branch l r b) →
    qs[i]? = some (.branch l r b) ∨ (i < qs.length ∧ qs.length ≤ l ∧ qs.length ≤ r)

theorem Deep.step {D T : Nat} {qs qs' : List (QueryNode C)} (h : Deep D qs) (hq : ∀ q ∈ qs, QOK qs.length T q)
    (hl : QLev qs qs') : Deep (D + 1) qs' := by
  obtain ⟨δ, h1, h2⟩ := h
  refine ⟨fun i => if i < qs.length then δ i else D + 1, fun i => ?_, fun i l r b hb => ?_⟩
  · simp only
    split
    · have := h1 i; omega
    · exact Nat.le_refl _
  · rcases hl i l r b hb with h | ⟨h3, h4, h5⟩
    · have h3 := hq _ (mem_of_get h)
      have h4 := h2 i l r b h
      simp only [lt_of_get h, h3.1, h3.2, if_true]
      exact h4
    · have := h1 i
      simp only [h3, if_true, if_neg (Nat.not_lt.2 h4), if_neg (Nat.not_lt.2 h5)]
      omega

/-- A node that is replaced by a branch to new nodes. -/
theorem QLev.set {qs qs' new : List (QueryNode C)} {q l r : Nat} {b : Branch C} (h : QLev qs qs')
    (hq : q < qs.length) (hl : qs.length ≤ l) (hr : qs.length ≤ r) (hnew : ∀ x ∈ new, ∃ t, x = .sink t) :
    QLev qs (qs'.set q (.branch l r b) ++ new) := by
  intro i l' r' b' hi
  rw [List.getElem?_append] at hi
  split at hi
  · rw [List.getElem?_set] at hi
    split at hi
    · rename_i hij
      subst hij
      split at hi
      · cases hi
        exact .inr ⟨hq, hl, hr⟩
      · cases hi
    · exact h i l' r' b' hi
  · obtain ⟨t, ht⟩ := hnew _ (mem_of_get hi)
    cases ht

theorem QLev.refl (qs : List (QueryNode C)) : QLev qs qs := fun _ _ _ _ h => .inl h

/-- The state of a trapezoidation with at most `N` vertices and segments. -/
structure Tidy (N : Nat) (st : St I C) : Prop where
  rank : ∃ ρ, (∀ i, i < st.ns.length → ρ i < st.ns.length) ∧ Ranked ρ st.ns st.ts
  ord : QOrd st.ts st.qs
  size : st.qs.length ≤ 1 + 2 * st.ns.length + st.ss.length * (N + 2)
  deep : Deep (st.ns.length + st.ss.length) st.qs

theorem Tidy.init (N : Nat) : Tidy N (St.init : St I C) where
  rank := ⟨fun _ => 0, by simp [St.init], by simp [St.init, Trapezoid.all], by simp [St.init],
    by simp [St.init], by simp [St.init]⟩
  ord := ⟨by
      intro i l r b h
      rcases i with _ | i <;> simp [St.init] at h,
    by
      intro i t h
      rcases i with _ | i
      · simp [St.init, Trapezoid.all] at h ⊢
        subst h
        rfl
      · simp [St.init] at h⟩
  size := by simp [St.init]
  deep := ⟨fun _ => 0, fun _ => Nat.zero_le _, by
    intro i l r b h
    rcases i with _ | i <;> simp [St.init] at h⟩

theorem find_ranked [Scalar C] {E : Fault IErr → Prop} {D : Nat}
    {qs : List (QueryNode C)} (h : Deep D qs) {T : Nat} (hq : ∀ q ∈ qs, QOK qs.length T q)
    (c : Coords C) (fuel qi : Nat) (hqi : qi < qs.length) (hf : D < fuel) :
    Ens E (fun r => qs[r.1]? = some (.sink r.2)) (St.find qs c fuel qi) := by
  obtain ⟨δ, h1, h2⟩ := h
  replace hf : D < fuel + δ qi := by omega
  induction fuel generalizing qi with
  | zero => have := h1 qi; omega
  | succ k ih =>
    unfold St.find
    refine Ens.bind (Ens.getU hqi) fun q hq' => ?_
    have := hq q (mem_of_get hq')
    cases q with
    | branch l r b =>
      have hm := h2 qi l r b hq'
      simp only
      split
      · exact ih _ this.1 (by omega)
      · exact ih _ this.2 (by omega)
    | sink t => exact hq'

theorem checkQuery_ranked {E : Fault IErr → Prop} {st : St I C} {A : I × Coords C → Prop}
    (hwf : WF A st) {D : Nat} (h : Deep D st.qs) (fuel qi : Nat) (hqi : qi < st.qs.length)
    (hf : D < fuel) : Ens E (fun _ => True) (st.checkQuery fuel qi) := by
  obtain ⟨δ, h1, h2⟩ := h
  replace hf : D < fuel + δ qi := by omega
  induction fuel generalizing qi with
  | zero => have := h1 qi; omega
  | succ k ih =>
    unfold St.checkQuery
    refine Ens.bind (Ens.getU hqi) fun q hq' => ?_
    have := hwf.qs q (mem_of_get hq')
    cases q with
    | branch l r b =>
      have hm := h2 qi l r b hq'
      exact Ens.bind (ih _ this.1 (by omega)) fun _ _ => ih _ this.2 (by omega)
    | sink t => exact Ens.bind (Ens.getU this) fun _ _ => trivial

theorem debugCheck_ranked {E : Fault IErr → Prop} {st : St I C} {A : I × Coords C → Prop}
    (h : WF A st) {D : Nat} (ho : Deep D st.qs) (cfg : Cfg) (hE : cfg.debug = true → E .panic) {fuel : Nat}
    (hf : D < fuel) : Ens E (fun _ => True) (st.debugCheck cfg fuel) := by
  unfold St.debugCheck
  refine Ens.ite (fun hd => ?_) fun _ => trivial
  have hp := hE hd
  have hside : ∀ (ti : Nat) (ni : Option Nat) (dir : Dir) (_ : ∀ n, ni = some n → n < st.ns.length),
      Ens E (fun _ => True) (st.checkSide ti ni dir) := by
    intro ti ni dir hn
    unfold St.checkSide
    split
    · exact Ens.bind (Ens.getU (hn _ rfl)) fun n _ => Ens.ite (fun _ => trivial) fun _ => hp
    · exact trivial
  have h1 : ∀ ti ∈ List.range st.ns.length, Ens E (fun _ => True) (st.checkNexus ti) := by
    intro ni hni
    refine Ens.bind (Ens.getU (List.mem_range.1 hni)) fun n hn => ?_
    have hn0 := h.ns n (mem_of_get hn)
    refine Ens.bind (Ens.forM _ fun t ht => ?_) fun _ _ => Ens.forM _ fun t ht => ?_
    · exact Ens.bind (Ens.getU (upTrapezoids_ok hn0 t ht)) fun t _ =>
        Ens.ite (fun _ => trivial) fun _ => hp
    · exact Ens.bind (Ens.getU (downTrapezoids_ok hn0 t ht)) fun t _ =>
        Ens.ite (fun _ => trivial) fun _ => hp
  have h2 : ∀ ti ∈ List.range st.ts.length, Ens E (fun _ => True) (st.checkTrapezoid ti) := by
    intro ti hti
    refine Ens.bind (Ens.getU (List.mem_range.1 hti)) fun t ht => ?_
    have ht0 := h.ts t (mem_of_get ht)
    refine Ens.bind (hside _ _ _ ht0.down) fun _ _ => ?_
    refine Ens.bind (hside _ _ _ ht0.up) fun _ _ => ?_
    refine Ens.bind (Ens.getU ht0.sink) fun q hq => ?_
    cases q with
    | branch l r b => exact hp
    | sink t' => exact Ens.ite (fun _ => trivial) fun _ => hp
  exact Ens.bind (Ens.forM _ h1) fun _ _ => Ens.bind (Ens.forM _ h2) fun _ _ =>
    checkQuery_ranked h ho _ _ h.root (by omega)

end Tri
