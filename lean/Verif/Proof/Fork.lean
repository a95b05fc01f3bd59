import Verif.Proof.Ways

/-!
# Every trapezoid below a vertex has one way to be reached from above

For an arbitrary `Scalar` and for arbitrary input: a vertex lists every trapezoid below it once, those trapezoids have
the vertex as their upper end, and a vertex without segments above it is the lower end of at most one trapezoid.
-/

set_option linter.unusedSectionVars false

namespace Tri

variable {I V C : Type} {A : I × Coords C → Prop}

/-- The trapezoids that end below at vertex `i` are at most one. -/
def OneAbove (ts : List Trapezoid) (i : Nat) : Prop :=
  ∀ (k k' : Nat) (t t' : Trapezoid), ts[k]? = some t → ts[k']? = some t' → t.down = some i → t'.down = some i → k = k'

structure Fork (ns : List (Nexus I C)) (ts : List Trapezoid) : Prop where
  up : ∀ (i : Nat) (n : Nexus I C), ns[i]? = some n → ∀ k ∈ n.iterTrapezoids .desc, ∀ t, ts[k]? = some t →
    t.up = some i
  nodup : ∀ n ∈ ns, (n.iterTrapezoids .desc).Nodup
  single : ∀ (i : Nat) (n : Nexus I C), ns[i]? = some n → (n.iterTrapezoids .asc).length = 1 → OneAbove ts i

theorem Fork.init : Fork (St.init : St I C).ns (St.init : St I C).ts :=
  ⟨by simp [St.init], by simp [St.init], by simp [St.init]⟩

/-- One occurrence of `a` became `b`. -/
def Swapped (a b : Nat) (L L' : List Nat) : Prop := ∃ R, L.Perm (a :: R) ∧ L'.Perm (b :: R)

theorem Swapped.length {a b : Nat} {L L' : List Nat} (h : Swapped a b L L') : L'.length = L.length := by
  obtain ⟨R, h1, h2⟩ := h
  rw [h1.length_eq, h2.length_eq]; rfl

theorem Swapped.mem {a b : Nat} {L L' : List Nat} (h : Swapped a b L L') : a ∈ L := by
  obtain ⟨R, h1, -⟩ := h
  rw [h1.mem_iff]; simp

/-- `n'` lists the same as `n`, except that one occurrence of `a` became `b` in one direction. -/
def SwapIn (a b : Nat) (n n' : Nexus I C) : Prop :=
  (Swapped a b (n.iterTrapezoids .asc) (n'.iterTrapezoids .asc) ∧
    n'.iterTrapezoids .desc = n.iterTrapezoids .desc) ∨
  (Swapped a b (n.iterTrapezoids .desc) (n'.iterTrapezoids .desc) ∧
    n'.iterTrapezoids .asc = n.iterTrapezoids .asc)

theorem replaceTrapezoid_lists (n : Nexus I C) (a b : Nat) : IfOk (SwapIn a b n) (n.replaceTrapezoid a b) := by
  unfold Nexus.replaceTrapezoid
  split
  · rename_i h
    subst h
    exact .inl ⟨⟨_, .refl _, .refl _⟩, rfl⟩
  split
  · rename_i h
    subst h
    exact .inr ⟨⟨_, .refl _, .refl _⟩, rfl⟩
  split
  · rename_i d0 hz
    split
    · rename_i h
      subst h
      cases hd : d0.dir
      · refine .inl ⟨⟨[n.tiUpleft], ?_, ?_⟩, ?_⟩ <;>
          simp [Nexus.iterTrapezoids, Nexus.leftmost, hz, hd, List.Perm.swap]
      · refine .inr ⟨⟨[n.tiDownleft], ?_, ?_⟩, ?_⟩ <;>
          simp [Nexus.iterTrapezoids, Nexus.leftmost, hz, hd, List.Perm.swap]
    · trivial
  · rename_i d0 d1 hz
    have h3 : ∀ x y z : Nat, [x, y, z].Perm [z, x, y] := fun x y z =>
      ((List.Perm.swap z y []).cons x).trans (List.Perm.swap z x [y])
    split
    · rename_i h
      subst h
      cases hd : d0.dir
      · refine .inl ⟨⟨n.tiUpleft :: (if d1.dir = .asc then [d1.tiRight] else []), ?_, ?_⟩, ?_⟩ <;>
          simp [Nexus.iterTrapezoids, Nexus.leftmost, hz, hd, List.Perm.swap]
      · refine .inr ⟨⟨n.tiDownleft :: (if d1.dir = .desc then [d1.tiRight] else []), ?_, ?_⟩, ?_⟩ <;>
          simp [Nexus.iterTrapezoids, Nexus.leftmost, hz, hd, List.Perm.swap]
    split
    · rename_i h
      subst h
      cases hd : d1.dir
      · refine .inl ⟨⟨n.tiUpleft :: (if d0.dir = .asc then [d0.tiRight] else []), ?_, ?_⟩, ?_⟩ <;>
          cases hd0 : d0.dir <;>
          simp [Nexus.iterTrapezoids, Nexus.leftmost, hz, hd, hd0, List.Perm.swap, h3]
      · refine .inr ⟨⟨n.tiDownleft :: (if d0.dir = .desc then [d0.tiRight] else []), ?_, ?_⟩, ?_⟩ <;>
          cases hd0 : d0.dir <;>
          simp [Nexus.iterTrapezoids, Nexus.leftmost, hz, hd, hd0, List.Perm.swap, h3]
    · trivial
  · trivial

theorem replaceAt_lists (ns : List (Nexus I C)) (o : Option Nat) (a b : Nat) :
    IfOk (fun ns' : List (Nexus I C) => ∀ i n', ns'[i]? = some n' → ∃ n, ns[i]? = some n ∧
      (o ≠ some i ∧ n' = n ∨ o = some i ∧ SwapIn a b n n')) (St.replaceAt ns o a b) := by
  cases o with
  | none => exact fun i n' hn => ⟨n', hn, .inl ⟨by simp, rfl⟩⟩
  | some ni =>
    refine Ens.bind IfOk.getP fun n hn => ?_
    refine Ens.bind (replaceTrapezoid_lists n a b) fun n' hn' => ?_
    intro i m hm
    rw [List.getElem?_set] at hm
    split at hm
    · rename_i hij
      subst hij
      split at hm
      · cases hm
        exact ⟨n, hn, .inr ⟨rfl, hn'⟩⟩
      · cases hm
    · rename_i hij
      exact ⟨m, hm, .inl ⟨by simpa using hij, rfl⟩⟩

/-- `n'` lists the same as `n` and `ti` in direction `d`. -/
def AddIn (ti : Nat) (d : Dir) (n n' : Nexus I C) : Prop :=
  (n'.iterTrapezoids d).Perm (ti :: n.iterTrapezoids d) ∧
    ∀ d', d' ≠ d → n'.iterTrapezoids d' = n.iterTrapezoids d'

theorem nexusAddSegment_lists [Scalar C] (ns : List (Nexus I C)) (ss : List (Segment C)) (ni si ti : Nat)
    {s : Segment C} (hs : ss[si]? = some s) :
    IfOk (fun ns' : List (Nexus I C) => ∀ i n', ns'[i]? = some n' → ∃ n, ns[i]? = some n ∧
      (i ≠ ni ∧ n' = n ∨ i = ni ∧ AddIn ti (if ni = s.niMax then .desc else .asc) n n'))
      (Nexus.addSegment ns ss ni si ti) := by
  unfold Nexus.addSegment
  have hdir : IfOk (fun d => d = if ni = s.niMax then .desc else .asc)
      (Nexus.getSegmentDirection ss ni si) := by
    refine Ens.bind IfOk.getP fun s' hs' => ?_
    rw [hs] at hs'
    cases hs'
    refine Ens.ite (fun h => by simp [Ens, h]) fun h =>
      Ens.ite (fun _ => by simp [Ens, h]) fun _ => trivial
  refine Ens.bind hdir fun dir hd => ?_
  subst hd
  generalize (if ni = s.niMax then Dir.desc else Dir.asc) = dir
  refine Ens.bind IfOk.getP fun n hn => ?_
  have key : ∀ z : Zot Divider, AddIn ti dir n { n with dividers := z } →
      (∀ i n', (ns.set ni { n with dividers := z })[i]? = some n' → ∃ n, ns[i]? = some n ∧
      (i ≠ ni ∧ n' = n ∨ i = ni ∧ AddIn ti dir n n')) := by
    intro z hz i m hm
    rw [List.getElem?_set] at hm
    split at hm
    · rename_i hij
      subst hij
      split at hm
      · cases hm
        exact ⟨n, hn, .inr ⟨rfl, hz⟩⟩
      · cases hm
    · rename_i hij
      exact ⟨m, hm, .inl ⟨fun h => hij h.symm, rfl⟩⟩
  have h3 : ∀ x y z : Nat, [x, y, z].Perm [z, x, y] := fun x y z =>
    ((List.Perm.swap z y []).cons x).trans (List.Perm.swap z x [y])
  split
  · rename_i hz
    refine key _ ⟨?_, fun d' hd' => ?_⟩
    · cases dir <;> simp [Nexus.iterTrapezoids, Nexus.leftmost, hz, List.Perm.swap]
    · cases dir <;> cases d' <;> simp [Nexus.iterTrapezoids, Nexus.leftmost, hz] at hd' ⊢
  · rename_i d0 hz
    refine Ens.bind (IfOk.any _) fun sw _ => ?_
    refine Ens.ite (fun _ => key _ ⟨?_, fun d' hd' => ?_⟩) fun _ => key _ ⟨?_, fun d' hd' => ?_⟩
    · cases dir <;> cases h0 : d0.dir <;> simp [Nexus.iterTrapezoids, Nexus.leftmost, hz, h0, List.Perm.swap]
    · cases dir <;> cases d' <;> simp [Nexus.iterTrapezoids, Nexus.leftmost, hz] at hd' ⊢
    · cases dir <;> cases h0 : d0.dir <;> simp [Nexus.iterTrapezoids, Nexus.leftmost, hz, h0, List.Perm.swap, h3]
    · cases dir <;> cases d' <;> simp [Nexus.iterTrapezoids, Nexus.leftmost, hz] at hd' ⊢
  · trivial

theorem addVertexAt_fork {st : St I C} (hwf : WF A st) {ρ : Nat → Nat} (hr : Ranked ρ st.ns st.ts)
    (hf : Fork st.ns st.ts) (vi : I) (c : Coords C) {qp ti : Nat} :
    IfOk (fun st' => Fork st'.ns st'.ts) (st.addVertexAt vi c qp ti) := by
  unfold St.addVertexAt
  refine Ens.bind (IfOk.any _) fun qLeft _ => ?_
  refine Ens.bind (IfOk.any _) fun qs _ => ?_
  refine Ens.bind IfOk.modP fun ts hts => ?_
  obtain ⟨t0, ht0, rfl⟩ := hts
  have hti := lt_of_get ht0
  refine Ens.bind IfOk.getP fun t htt => ?_
  replace htt : t = Trapezoid.setSink st.qs.length t0 := by
    rw [List.getElem?_set_self hti] at htt
    exact (Option.some.inj htt).symm
  subst htt
  have hok := hwf.ts t0 (mem_of_get ht0)
  refine Ens.bind (replaceAt_lists _ _ _ _) fun ns hns => ?_
  simp only [Trapezoid.setSink] at hns ⊢
  have hts : ∀ j t, (((st.ts.set ti (Trapezoid.setSink st.qs.length t0)).set ti
      (.mk t0.left t0.right t0.down (some st.ns.length) st.qs.length)) ++
        [Trapezoid.mk t0.left t0.right (some st.ns.length) t0.up (st.qs.length + 1)])[j]? =
        some t →
      (j ≠ ti ∧ j ≠ st.ts.length ∧ st.ts[j]? = some t) ∨
      (j = ti ∧ t.down = t0.down ∧ t.up = some st.ns.length) ∨
      (j = st.ts.length ∧ t.down = some st.ns.length ∧ t.up = t0.up) := by
    intro j t hj
    rw [List.getElem?_append] at hj
    split at hj
    · rw [List.set_set, List.getElem?_set] at hj
      split at hj
      · rename_i hij
        subst hij
        cases hj
        exact .inr (.inl ⟨rfl, rfl, rfl⟩)
      · rename_i hij
        have := lt_of_get hj
        exact .inl ⟨fun h => hij h.symm, by omega, hj⟩
    · rename_i hge
      obtain ⟨h1, h2⟩ := List.getElem?_eq_some_iff.1 hj
      simp only [List.length_singleton, List.length_set] at h1 hge
      have : j = st.ts.length := by omega
      subst this
      simp at h2
      subst h2
      exact .inr (.inr ⟨rfl, rfl, rfl⟩)
  simp only [Trapezoid.setSink] at hts
  generalize (((st.ts.set ti (Trapezoid.mk t0.left t0.right t0.down t0.up st.qs.length)).set ti
      (.mk t0.left t0.right t0.down (some st.ns.length) st.qs.length)) ++
        [Trapezoid.mk t0.left t0.right (some st.ns.length) t0.up (st.qs.length + 1)]) = ts' at hts ⊢
  -- the lists of the vertices
  have hlist : ∀ i n', ns[i]? = some n' →
      (i < st.ns.length ∧ ∃ n, st.ns[i]? = some n ∧ (n'.iterTrapezoids .asc).length = (n.iterTrapezoids .asc).length ∧
        (t0.up ≠ some i ∧ n'.iterTrapezoids .desc = n.iterTrapezoids .desc ∨ t0.up = some i ∧
          Swapped ti st.ts.length (n.iterTrapezoids .desc) (n'.iterTrapezoids .desc))) ∨
      (i = st.ns.length ∧ n'.iterTrapezoids .desc = [ti]) := by
    intro i n' hn'
    obtain ⟨n, hn, hc⟩ := hns i n' hn'
    rw [List.getElem?_append] at hn
    split at hn
    · rename_i hi
      refine .inl ⟨hi, n, hn, ?_⟩
      rcases hc with ⟨hu, rfl⟩ | ⟨hu, hs | hs⟩
      · exact ⟨rfl, .inl ⟨hu, rfl⟩⟩
      · have := hr.above i n hn ti hs.1.mem t0 ht0 i hu
        omega
      · exact ⟨by rw [hs.2], .inr ⟨hu, hs.1⟩⟩
    · obtain ⟨h1, h2⟩ := List.getElem?_eq_some_iff.1 hn
      simp only [List.length_singleton] at h1
      have : i = st.ns.length := by omega
      subst this
      simp at h2
      subst h2
      refine .inr ⟨rfl, ?_⟩
      rcases hc with ⟨-, rfl⟩ | ⟨hu, -⟩
      · rfl
      · have := hok.up _ hu
        omega
  have hold : ∀ (i : Nat) (n : Nexus I C) (k : Nat), st.ns[i]? = some n → k ∈ n.iterTrapezoids .desc → k < st.ts.length :=
    fun i n k hn hk => (hwf.ns n (mem_of_get hn)).iter_lt hk
  refine ⟨?_, ?_, ?_⟩
  · intro i n' hn' k hk t ht
    rcases hlist i n' hn' with ⟨hi, n, hn, -, hd⟩ | ⟨rfl, hd⟩
    · -- a listed trapezoid of before
      have old : k ∈ n.iterTrapezoids .desc → (t0.up = some i → k ≠ ti) → t.up = some i := by
        intro hk hne
        have hlt := hold i n k hn hk
        rcases hts k t ht with ⟨-, -, h⟩ | ⟨rfl, -⟩ | ⟨rfl, -⟩
        · exact hf.up i n hn k hk t h
        · have hu := hf.up i n hn k hk t0 ht0
          exact absurd rfl (hne hu)
        · omega
      rcases hd with ⟨hu, hd⟩ | ⟨hu, hs⟩
      · rw [hd] at hk
        exact old hk fun h => absurd h hu
      · obtain ⟨R, h1, h2⟩ := hs
        rw [h2.mem_iff, List.mem_cons] at hk
        rcases hk with rfl | hk
        · rcases hts _ t ht with ⟨-, h, -⟩ | ⟨h, -⟩ | ⟨-, -, h⟩
          · exact absurd rfl h
          · omega
          · rw [h, hu]
        · have hnd := h1.nodup_iff.1 (hf.nodup n (mem_of_get hn))
          refine old (h1.mem_iff.2 (by simp [hk])) fun _ h => ?_
          subst h
          exact (List.nodup_cons.1 hnd).1 hk
    · rw [hd, List.mem_singleton] at hk
      subst hk
      rcases hts _ t ht with ⟨h, -⟩ | ⟨-, -, h⟩ | ⟨h, -⟩
      · exact absurd rfl h
      · exact h
      · omega
  · intro n' hn'
    obtain ⟨i, hi⟩ := List.getElem?_of_mem hn'
    rcases hlist i n' hi with ⟨-, n, hn, -, ⟨-, hd⟩ | ⟨-, R, h1, h2⟩⟩ | ⟨-, hd⟩
    · rw [hd]
      exact hf.nodup n (mem_of_get hn)
    · have hnd := h1.nodup_iff.1 (hf.nodup n (mem_of_get hn))
      rw [h2.nodup_iff, List.nodup_cons]
      refine ⟨fun h => ?_, (List.nodup_cons.1 hnd).2⟩
      have := hold i n _ hn (h1.mem_iff.2 (List.mem_cons_of_mem _ h))
      omega
    · rw [hd]
      simp
  · intro i n' hn' hlen k k' t t' ht ht' hd hd'
    rcases hlist i n' hn' with ⟨hi, n, hn, hl, -⟩ | ⟨rfl, -⟩
    · have pre : ∀ (k : Nat) (t : Trapezoid), ts'[k]? = some t → t.down = some i → ∃ t' : Trapezoid, st.ts[k]? = some t' ∧ t'.down = some i := by
        intro k t ht hd
        rcases hts k t ht with ⟨-, -, h⟩ | ⟨rfl, h, -⟩ | ⟨-, h, -⟩
        · exact ⟨t, h, hd⟩
        · exact ⟨t0, ht0, h ▸ hd⟩
        · rw [h] at hd
          cases hd
          omega
      obtain ⟨a, ha, ha'⟩ := pre k t ht hd
      obtain ⟨b, hb, hb'⟩ := pre k' t' ht' hd'
      exact hf.single i n hn (hl ▸ hlen) k k' a b ha hb ha' hb'
    · have pre : ∀ (k : Nat) (t : Trapezoid), ts'[k]? = some t → t.down = some st.ns.length → k = st.ts.length := by
        intro k t ht hd
        rcases hts k t ht with ⟨-, -, h⟩ | ⟨rfl, h, -⟩ | ⟨h, -, -⟩
        · have := (hwf.ts t (mem_of_get h)).down _ hd
          omega
        · have := hok.down _ (h ▸ hd)
          omega
        · exact h
      rw [pre k t ht hd, pre k' t' ht' hd']

variable [Scalar C] [DecidableEq I]

/-- The same in the loop that threads segment `s`. -/
structure SegFork (s : Segment C) (l : St.SegLoop I C) : Prop where
  up : ∀ (i : Nat) (n : Nexus I C), l.st.ns[i]? = some n → ∀ k ∈ n.iterTrapezoids .desc, ∀ t, l.st.ts[k]? = some t →
    t.up = some i
  nodup : ∀ n ∈ l.st.ns, (n.iterTrapezoids .desc).Nodup
  single : ∀ (i : Nat) (n : Nexus I C), l.st.ns[i]? = some n → i ≠ s.niMin → i ≠ l.ni →
    (n.iterTrapezoids .asc).length = 1 → OneAbove l.st.ts i
  here : ∀ n : Nexus I C, l.st.ns[l.ni]? = some n → l.ni ≠ s.niMin → (n.iterTrapezoids .asc).length = 1 →
    ∀ (k : Nat) (t : Trapezoid), l.st.ts[k]? = some t → t.down = some l.ni → k = l.tiUpleft ∨ k = l.tiUpright

theorem addSegmentStart_fork {st : St I C} (hwf : WF A st) {ρ : Nat → Nat} (hr : Ranked ρ st.ns st.ts)
    (hf : Fork st.ns st.ts) {niMin niMax : Nat} (hmin : niMin < st.ns.length) (hmax : niMax < st.ns.length)
    (cMin cMax : Coords C) :
    IfOk (SegFork ⟨niMin, niMax, cMin, cMax⟩) (st.addSegmentStart niMin niMax cMin cMax) := by
  unfold St.addSegmentStart
  have hss : ∀ s ∈ st.ss ++ [⟨niMin, niMax, cMin, cMax⟩], SegOK st.ns.length s := by
    refine forall_append hwf.ss ?_
    intro s hs
    rw [List.mem_singleton] at hs
    subst hs
    exact ⟨hmin, hmax⟩
  refine Ens.bind IfOk.getU fun nMax hnMax => ?_
  refine Ens.bind (downDir_ranked (fun _ => trivial) ((hwf.ns nMax (mem_of_get hnMax)).mono (Nat.le_refl _)
    (by simp)) hss ⟨hmin, hmax⟩) fun ti hit => ?_
  have hti := (hwf.ns nMax (mem_of_get hnMax)).iter_lt hit
  refine Ens.bind IfOk.getU fun t0 ht0 => ?_
  have hok := hwf.ts t0 (mem_of_get ht0)
  have hup0 := hf.up niMax nMax hnMax ti hit t0 ht0
  refine Ens.bind (IfOk.any _) fun qLeft _ => ?_
  refine Ens.bind (IfOk.any _) fun qs _ => ?_
  refine Ens.bind IfOk.modP fun ts hts => ?_
  obtain ⟨t0', ht0', rfl⟩ := hts
  rw [ht0] at ht0'
  cases ht0'
  refine Ens.bind IfOk.getP fun t' ht' => ?_
  have htt : t' = Trapezoid.setSink st.qs.length t0 := by
    rw [List.getElem?_set_self hti] at ht'
    exact (Option.some.inj ht').symm
  subst htt
  clear ht'
  refine Ens.bind (nexusAddSegment_lists _ _ _ _ _ (s := ⟨niMin, niMax, cMin, cMax⟩) (by simp)) fun ns hns => ?_
  simp only [if_true] at hns
  have hts : ∀ j t, ((st.ts.set ti (Trapezoid.setSink st.qs.length t0)).set ti
      ((Trapezoid.setSink st.qs.length t0).splitVertical st.qs.length (st.qs.length + 1)
        st.ss.length).1 ++ [((Trapezoid.setSink st.qs.length t0).splitVertical st.qs.length
          (st.qs.length + 1) st.ss.length).2])[j]? = some t →
      (j ≠ ti ∧ j ≠ st.ts.length ∧ st.ts[j]? = some t) ∨
      (j = ti ∧ t.down = t0.down ∧ t.up = t0.up) ∨
      (j = st.ts.length ∧ t.down = t0.down ∧ t.up = t0.up) := by
    intro j t hj
    rw [List.getElem?_append] at hj
    split at hj
    · rw [List.set_set, List.getElem?_set] at hj
      split at hj
      · rename_i hij
        subst hij
        cases hj
        exact .inr (.inl ⟨rfl, rfl, rfl⟩)
      · rename_i hij
        have := lt_of_get hj
        exact .inl ⟨fun h => hij h.symm, by omega, hj⟩
    · rename_i hge
      obtain ⟨h1, h2⟩ := List.getElem?_eq_some_iff.1 hj
      simp only [List.length_singleton, List.length_set] at h1 hge
      have : j = st.ts.length := by omega
      subst this
      simp at h2
      subst h2
      exact .inr (.inr ⟨rfl, rfl, rfl⟩)
  simp only [Trapezoid.splitVertical] at hts ⊢
  generalize ((st.ts.set ti (Trapezoid.setSink st.qs.length t0)).set ti
      (Trapezoid.mk (Trapezoid.setSink st.qs.length t0).left (some st.ss.length)
        (Trapezoid.setSink st.qs.length t0).down (Trapezoid.setSink st.qs.length t0).up
        st.qs.length) ++ [Trapezoid.mk (some st.ss.length)
          (Trapezoid.setSink st.qs.length t0).right (Trapezoid.setSink st.qs.length t0).down
          (Trapezoid.setSink st.qs.length t0).up (st.qs.length + 1)]) = ts' at hts ⊢
  refine Ens.bind IfOk.getU fun t2 ht2 => ?_
  have hdown2 : t2.down = t0.down := by
    rcases hts _ _ ht2 with ⟨h, -⟩ | ⟨-, h, -⟩ | ⟨-, h, -⟩
    · exact absurd rfl h
    · exact h
    · exact h
  split
  · trivial
  rename_i ni hni
  rw [hdown2] at hni
  have hlt := hr.below niMax nMax hnMax ti hit t0 ht0 ni hni
  refine Ens.bind (IfOk.any _) fun n _ => ?_
  refine Ens.bind (replaceAt_lists _ _ _ _) fun ns' hns' => ?_
  have hlist : ∀ i n', ns'[i]? = some n' → ∃ n : Nexus I C, st.ns[i]? = some n ∧
      (n'.iterTrapezoids .asc).length = (n.iterTrapezoids .asc).length ∧
      (n'.iterTrapezoids .desc = n.iterTrapezoids .desc ∨ i = niMax ∧
        (n'.iterTrapezoids .desc).Perm (st.ts.length :: n.iterTrapezoids .desc)) := by
    intro i n' hn'
    obtain ⟨n1, hn1, hc1⟩ := hns' i n' hn'
    obtain ⟨n0, hn0, hc0⟩ := hns i n1 hn1
    refine ⟨n0, hn0, ?_⟩
    rcases hc1 with ⟨-, rfl⟩ | ⟨ho, hs⟩
    · rcases hc0 with ⟨-, rfl⟩ | ⟨rfl, h1, h2⟩
      · exact ⟨rfl, .inl rfl⟩
      · exact ⟨by rw [h2 .asc (by simp)], .inr ⟨rfl, h1⟩⟩
    · have hi : i = ni := by
        split at ho
        · cases ho; rfl
        · cases ho
      subst hi
      rcases hc0 with ⟨-, rfl⟩ | ⟨rfl, h1, h2⟩
      · rcases hs with ⟨h1, h2⟩ | ⟨h1, h2⟩
        · exact ⟨h1.length, .inl h2⟩
        · have := hf.up i n1 hn0 ti h1.mem t0 ht0
          rw [hup0] at this
          cases this
          omega
      · omega
  have hold : ∀ (i : Nat) (n : Nexus I C) (k : Nat), st.ns[i]? = some n → k ∈ n.iterTrapezoids .desc →
      k < st.ts.length :=
    fun i n k hn hk => (hwf.ns n (mem_of_get hn)).iter_lt hk
  have pre : ∀ (k : Nat) (t : Trapezoid) (i : Nat), ts'[k]? = some t → t.down = some i →
      (∃ t' : Trapezoid, st.ts[k]? = some t' ∧ t'.down = some i) ∨ k = st.ts.length ∧ i = ni := by
    intro k t i ht hd
    rcases hts k t ht with ⟨-, -, h⟩ | ⟨rfl, h, -⟩ | ⟨rfl, h, -⟩
    · exact .inl ⟨t, h, hd⟩
    · exact .inl ⟨t0, ht0, h ▸ hd⟩
    · rw [h, hni] at hd
      cases hd
      exact .inr ⟨rfl, rfl⟩
  refine ⟨?_, ?_, ?_, ?_⟩
  · intro i n' hn' k hk t ht
    obtain ⟨n, hn, -, hd⟩ := hlist i n' hn'
    have old : k ∈ n.iterTrapezoids .desc → t.up = some i := by
      intro hk
      have hlt := hold i n k hn hk
      rcases hts k t ht with ⟨-, -, h⟩ | ⟨rfl, -, h⟩ | ⟨rfl, -⟩
      · exact hf.up i n hn k hk t h
      · rw [h]
        exact hf.up i n hn k hk t0 ht0
      · omega
    rcases hd with hd | ⟨rfl, hd⟩
    · exact old (hd ▸ hk)
    · rw [hd.mem_iff, List.mem_cons] at hk
      rcases hk with rfl | hk
      · rcases hts _ t ht with ⟨-, h, -⟩ | ⟨h, -⟩ | ⟨-, -, h⟩
        · exact absurd rfl h
        · omega
        · rw [h, hup0]
      · exact old hk
  · intro n' hn'
    obtain ⟨i, hi⟩ := List.getElem?_of_mem hn'
    obtain ⟨n, hn, -, hd | ⟨rfl, hd⟩⟩ := hlist i n' hi
    · rw [hd]
      exact hf.nodup n (mem_of_get hn)
    · rw [hd.nodup_iff, List.nodup_cons]
      refine ⟨fun h => ?_, hf.nodup n (mem_of_get hn)⟩
      have := hold _ n _ hn h
      omega
  · intro i n' hn' _ hne hlen k k' t t' ht ht' hd hd'
    simp only at hne
    obtain ⟨n, hn, hl, -⟩ := hlist i n' hn'
    rcases pre k t i ht hd with ⟨a, ha, ha'⟩ | ⟨-, h⟩
    · rcases pre k' t' i ht' hd' with ⟨b, hb, hb'⟩ | ⟨-, h⟩
      · exact hf.single i n hn (hl ▸ hlen) k k' a b ha hb ha' hb'
      · exact absurd h hne
    · exact absurd h hne
  · intro n' hn' _ hlen k t ht hd
    simp only at hn' hd ⊢
    obtain ⟨n, hn, hl, -⟩ := hlist ni n' hn'
    rcases pre k t ni ht hd with ⟨a, ha, ha'⟩ | ⟨h, -⟩
    · exact .inl (hf.single ni n hn (hl ▸ hlen) k ti a t0 ha ht0 ha' hni)
    · exact .inr h

theorem addSegmentStep_fork {st0 : St I C} {ρ : Nat → Nat} {s : Segment C} (hs : SegOK st0.ns.length s) {niMax : Nat}
    {l : St.SegLoop I C} (hi : SegInv A st0 s l) (h : SegRank ρ st0 niMax l) (hf : SegFork s l) (hmin : l.ni ≠ s.niMin) :
    IfOk (SegFork s) (St.addSegmentStep st0.ss.length s l) := by
  have hwf := hi.wf
  have hnl : l.st.ns.length = st0.ns.length := by
    have := congrArg List.length hi.keys
    simpa [St.keys] using this
  obtain ⟨hr, ho, hdl, hdr, hsinks, htop, hlev, hpot⟩ := h
  unfold St.addSegmentStep
  refine Ens.bind IfOk.getU fun n hn => ?_
  refine Ens.bind (downDir_ranked (fun _ => trivial) (hwf.ns n (mem_of_get hn)) hwf.ss (hnl ▸ hs)) fun ti hit => ?_
  have hti := (hwf.ns n (mem_of_get hn)).iter_lt hit
  refine Ens.bind IfOk.getU fun t ht => ?_
  split
  · trivial
  rename_i m hm
  have hlt : ρ m < ρ l.ni := hr.below l.ni n hn ti hit t ht m hm
  have hup := hf.up l.ni n hn ti hit t ht
  refine Ens.bind IfOk.getU fun tl htl => ?_
  refine Ens.bind IfOk.getU fun tr htr => ?_
  obtain ⟨hdl1, -⟩ := hdl tl htl
  obtain ⟨hdr1, -⟩ := hdr tr htr
  have hnel : ti ≠ l.tiUpleft := by
    rintro rfl
    rw [ht] at htl
    cases htl
    rw [hm] at hdl1
    cases hdl1
    omega
  have hner : ti ≠ l.tiUpright := by
    rintro rfl
    rw [ht] at htr
    cases htr
    rw [hm] at hdr1
    cases hdr1
    omega
  have fin : ∀ (ta tb : Nat) (t1 t1' : Trapezoid) (c : Option Nat) (qs' : List (QueryNode C))
      (ns' : List (Nexus I C)) (tU tR : Nat), ti ≠ ta → l.st.ts[ta]? = some t1 →
      (∀ k, k = l.tiUpleft ∨ k = l.tiUpright → k = ta ∨ k = tb) →
      t1'.down = t.down → t1'.up = t.up → (∀ i, c = some i → i = m) →
      (∀ i n', ns'[i]? = some n' → ∃ n, l.st.ns[i]? = some n ∧
        (c ≠ some i ∧ n' = n ∨ c = some i ∧ SwapIn ti ta n n')) →
      (∀ k, k = ti ∨ k = ta → k = tU ∨ k = tR) →
      SegFork s ⟨⟨ns', l.st.ss, (l.st.ts.set ti t1').set ta (t1.setDown m), qs'⟩, m, tU, tR⟩ := by
    intro ta tb t1 t1' c qs' ns' tU tR hne h1 htab e1 e2 hc hns hUR
    have hta := lt_of_get h1
    have hts : ∀ j y, ((l.st.ts.set ti t1').set ta (t1.setDown m))[j]? = some y →
        (j ≠ ti ∧ j ≠ ta ∧ l.st.ts[j]? = some y) ∨ (j = ti ∧ y = t1') ∨
          (j = ta ∧ y = t1.setDown m) := by
      intro j y hj
      rw [List.getElem?_set] at hj
      split at hj
      · rename_i hij
        subst hij
        simp only [List.length_set, hta, if_true, Option.some.injEq] at hj
        exact .inr (.inr ⟨rfl, hj.symm⟩)
      · rename_i hij
        rw [List.getElem?_set] at hj
        split at hj
        · rename_i hij'
          subst hij'
          cases hj
          exact .inr (.inl ⟨rfl, rfl⟩)
        · rename_i hij'
          exact .inl ⟨fun h => hij' h.symm, fun h => hij h.symm, hj⟩
    have hlist : ∀ (i : Nat) (n' : Nexus I C), ns'[i]? = some n' → ∃ n : Nexus I C, l.st.ns[i]? = some n ∧
        (n'.iterTrapezoids .asc).length = (n.iterTrapezoids .asc).length ∧
        n'.iterTrapezoids .desc = n.iterTrapezoids .desc := by
      intro i n' hn'
      obtain ⟨n1, hn1, hc1⟩ := hns i n' hn'
      refine ⟨n1, hn1, ?_⟩
      rcases hc1 with ⟨-, rfl⟩ | ⟨hci, hs⟩
      · exact ⟨rfl, rfl⟩
      · have := hc i hci
        subst this
        rcases hs with ⟨h1, h2⟩ | ⟨h1, h2⟩
        · exact ⟨h1.length, h2⟩
        · have := hf.up i n1 hn1 ti h1.mem t ht
          rw [hup] at this
          cases this
          omega
    have pre : ∀ (k : Nat) (y : Trapezoid) (i : Nat), i ≠ m →
        ((l.st.ts.set ti t1').set ta (t1.setDown m))[k]? = some y → y.down = some i →
        k ≠ ti ∧ k ≠ ta ∧ l.st.ts[k]? = some y := by
      intro k y i him hy hd
      rcases hts k y hy with h | ⟨-, rfl⟩ | ⟨-, rfl⟩
      · exact h
      · rw [e1, hm] at hd
        cases hd
        exact absurd rfl him
      · simp only [Trapezoid.setDown, Option.some.injEq] at hd
        exact absurd hd.symm him
    refine ⟨?_, ?_, ?_, ?_⟩
    · intro i n' hn' k hk y hy
      obtain ⟨n0, hn0, -, hd⟩ := hlist i n' hn'
      rw [hd] at hk
      rcases hts k y hy with ⟨-, -, h⟩ | ⟨rfl, rfl⟩ | ⟨rfl, rfl⟩
      · exact hf.up i n0 hn0 k hk y h
      · rw [e2]
        exact hf.up i n0 hn0 k hk t ht
      · exact hf.up i n0 hn0 k hk t1 h1
    · intro n' hn'
      obtain ⟨i, hi⟩ := List.getElem?_of_mem hn'
      obtain ⟨n0, hn0, -, hd⟩ := hlist i n' hi
      rw [hd]
      exact hf.nodup n0 (mem_of_get hn0)
    · intro i n' hn' hmi hne' hlen k k' y y' hy hy' hd hd'
      simp only at hne'
      obtain ⟨n0, hn0, hl, -⟩ := hlist i n' hn'
      obtain ⟨-, a2, a3⟩ := pre k y i hne' hy hd
      obtain ⟨-, b2, b3⟩ := pre k' y' i hne' hy' hd'
      by_cases hil : i = l.ni
      · subst hil
        have ha := htab k (hf.here n0 hn0 hmi (hl ▸ hlen) k y a3 hd)
        have hb := htab k' (hf.here n0 hn0 hmi (hl ▸ hlen) k' y' b3 hd')
        rcases ha with ha | ha
        · exact absurd ha a2
        rcases hb with hb | hb
        · exact absurd hb b2
        rw [ha, hb]
      · exact hf.single i n0 hn0 hmi hil (hl ▸ hlen) k k' y y' a3 b3 hd hd'
    · intro n' hn' hmi hlen k y hy hd
      simp only at hn' hmi hd hy ⊢
      obtain ⟨n0, hn0, hl, -⟩ := hlist m n' hn'
      rcases hts k y hy with ⟨h, -, h3⟩ | ⟨h, -⟩ | ⟨h, -⟩
      · have := hf.single m n0 hn0 hmi (by rintro rfl; omega) (hl ▸ hlen) k ti y t h3 ht hd hm
        exact absurd this h
      · exact hUR k (.inl h)
      · exact hUR k (.inr h)
  refine Ens.ite (fun _ => ?_) fun _ => Ens.ite (fun _ => ?_) fun _ => trivial
  · refine Ens.bind (IfOk.any _) fun qL _ => ?_
    refine Ens.bind (IfOk.any _) fun qs _ => ?_
    refine Ens.bind IfOk.modP fun ts1 hts1 => ?_
    obtain ⟨t1, ht1, rfl⟩ := hts1
    refine Ens.bind IfOk.modP fun ts2 hts2 => ?_
    obtain ⟨t2, ht2, rfl⟩ := hts2
    refine Ens.bind IfOk.modP fun ts3 hts3 => ?_
    obtain ⟨t3, ht3, rfl⟩ := hts3
    refine Ens.bind (IfOk.any _) fun n2 _ => ?_
    refine Ens.bind (replaceAt_lists _ _ _ _) fun ns' hns' => ?_
    rw [ht] at ht1
    cases ht1
    rw [List.getElem?_set_self hti] at ht2
    cases ht2
    rw [List.set_set, List.getElem?_set_ne hner, htr] at ht3
    cases ht3
    rw [List.set_set]
    refine fin l.tiUpright l.tiUpleft tr _ _ _ ns' _ _ hner htr (fun k hk => hk.symm) rfl rfl ?_ hns' fun k hk => hk
    intro i hi
    split at hi
    · cases hi; rfl
    · cases hi
  · refine Ens.bind (IfOk.any _) fun qL _ => ?_
    refine Ens.bind (IfOk.any _) fun qs _ => ?_
    refine Ens.bind IfOk.modP fun ts1 hts1 => ?_
    obtain ⟨t1, ht1, rfl⟩ := hts1
    refine Ens.bind IfOk.modP fun ts2 hts2 => ?_
    obtain ⟨t2, ht2, rfl⟩ := hts2
    refine Ens.bind IfOk.modP fun ts3 hts3 => ?_
    obtain ⟨t3, ht3, rfl⟩ := hts3
    refine Ens.bind (IfOk.any _) fun n2 _ => ?_
    refine Ens.bind (replaceAt_lists _ _ _ _) fun ns' hns' => ?_
    rw [ht] at ht1
    cases ht1
    rw [List.getElem?_set_self hti] at ht2
    cases ht2
    rw [List.set_set, List.getElem?_set_ne hnel, htl] at ht3
    cases ht3
    rw [List.set_set]
    refine fin l.tiUpleft l.tiUpright tl _ _ _ ns' _ _ hnel htl (fun k hk => hk) rfl rfl ?_ hns' fun k hk => hk.symm
    intro i hi
    split at hi
    · cases hi; rfl
    · cases hi

theorem addSegmentLoop_fork {st0 : St I C} {ρ : Nat → Nat} {s : Segment C} (hs : SegOK st0.ns.length s) {niMax : Nat} :
    ∀ (fuel : Nat) {l : St.SegLoop I C}, SegInv A st0 s l → SegRank ρ st0 niMax l → SegFork s l →
    IfOk (fun l' => SegFork s l' ∧ l'.ni = s.niMin ∧ SegRank ρ st0 niMax l' ∧ SegInv A st0 s l')
      (St.addSegmentLoop st0.ss.length s fuel l)
  | 0, _, _, _, _ => trivial
  | fuel + 1, l, hi, h, hf => by
    unfold St.addSegmentLoop
    refine Ens.ite (fun he => ⟨hf, he, h, hi⟩) fun he => ?_
    refine Ens.bind (((addSegmentStep_ranked (fun _ => trivial) hs hi h).with (addSegmentStep_safe hi)).with
      (addSegmentStep_fork hs hi h hf he)) ?_
    rintro l' ⟨⟨⟨h1, -⟩, h2⟩, h3⟩
    exact addSegmentLoop_fork hs fuel h2 h1 h3

theorem addSegment_fork {N : Nat} {st : St I C} (hwf : WF A st) (h : Tidy N st) (hf : Fork st.ns st.ts) (cfg : Cfg)
    (fuel : Nat) {niMin niMax : Nat} (hmin : niMin < st.ns.length) (hmax : niMax < st.ns.length)
    (cMin cMax : Coords C) :
    IfOk (fun st' => Fork st'.ns st'.ts) (st.addSegment cfg fuel niMin niMax cMin cMax) := by
  obtain ⟨⟨ρ, hρ, hr⟩, ho, hsz, hdp⟩ := h
  unfold St.addSegment
  refine Ens.bind (((addSegmentStart_ranked (fun _ => trivial) hwf hρ hr ho hmin hmax cMin cMax).with
    (addSegmentStart_safe hwf hmin hmax cMin cMax)).with (addSegmentStart_fork hwf hr hf hmin hmax cMin cMax)) ?_
  rintro l ⟨⟨h1, h2⟩, h3⟩
  refine Ens.bind (addSegmentLoop_fork ⟨hmin, hmax⟩ fuel h2 h1 h3) ?_
  rintro l ⟨hl, hni, hrk, hi⟩
  simp only at hni
  have hne : niMin ≠ niMax := by
    rintro rfl
    have := hrk.top
    rw [hni] at this
    omega
  refine Ens.bind (nexusAddSegment_lists _ _ _ _ _ (s := ⟨niMin, niMax, cMin, cMax⟩) (by rw [hi.ss]; simp)) fun ns hns => ?_
  refine Ens.bind (IfOk.any _) fun _ _ => ?_
  simp only [if_neg hne] at hns
  have hlist : ∀ i n', ns[i]? = some n' → ∃ n : Nexus I C, l.st.ns[i]? = some n ∧
      n'.iterTrapezoids .desc = n.iterTrapezoids .desc ∧
      ((n'.iterTrapezoids .asc).length = 1 → i ≠ niMin ∧ (n.iterTrapezoids .asc).length = 1) := by
    intro i n' hn'
    obtain ⟨n, hn, ⟨h, rfl⟩ | ⟨rfl, h1, h2⟩⟩ := hns i n' hn'
    · exact ⟨n', hn, rfl, fun hl => ⟨h, hl⟩⟩
    · refine ⟨n, hn, h2 .desc (by simp), fun hl => ?_⟩
      rw [h1.length_eq] at hl
      simp [Nexus.iterTrapezoids] at hl
  refine ⟨?_, ?_, ?_⟩
  · intro i n' hn' k hk t ht
    obtain ⟨n, hn, hd, -⟩ := hlist i n' hn'
    exact hl.up i n hn k (hd ▸ hk) t ht
  · intro n' hn'
    obtain ⟨i, hi⟩ := List.getElem?_of_mem hn'
    obtain ⟨n, hn, hd, -⟩ := hlist i n' hi
    rw [hd]
    exact hl.nodup n (mem_of_get hn)
  · intro i n' hn' hlen
    obtain ⟨n, hn, -, hl'⟩ := hlist i n' hn'
    obtain ⟨h1, h2⟩ := hl' hlen
    exact hl.single i n hn h1 (by rw [hni]; exact h1) h2

theorem addVertex_fork {N : Nat} {st : St I C} (hwf : WF A st) (h : Tidy N st) (hf : Fork st.ns st.ts) (cfg : Cfg)
    (fuel : Nat) (p : PolyList I V) (xy : V → Coords C) (vi : I) (qi : Nat) :
    IfOk (fun r => Fork r.1.ns r.1.ts) (st.addVertex cfg fuel p xy vi qi) := by
  obtain ⟨ρ, hρ, hr⟩ := h.rank
  unfold St.addVertex
  refine Ens.bind (IfOk.any _) fun c _ => ?_
  refine Ens.bind (IfOk.any _) fun r _ => ?_
  refine Ens.bind (addVertexAt_fork hwf hr hf vi c) fun st' hst' => ?_
  exact Ens.bind (IfOk.any _) fun _ _ => hst'

theorem addVertexVL_fork {N : Nat} {st : St I C} (hwf : WF A st) (h : Tidy N st) (hf : Fork st.ns st.ts) (cfg : Cfg)
    (fuel : Nat) (p : PolyList I V) (xy : V → Coords C) (vls : List (VLoc I C)) (i : Nat) (vi : I) (qi : Nat) :
    IfOk (fun r => Fork r.1.ns r.1.ts) (St.addVertexVL cfg fuel p xy st vls i vi qi) := by
  unfold St.addVertexVL
  refine Ens.bind (addVertex_fork hwf h hf cfg fuel p xy vi qi) fun r hr => ?_
  exact Ens.bind (IfOk.any _) fun _ _ => hr

theorem addEnds_fork {N : Nat} {st : St I C} (h : WF A st) (ht : Tidy N st) (hf : Fork st.ns st.ts) (cfg : Cfg)
    {fuel : Nat} (hfu : enough N ≤ fuel) (p : PolyList I V)
    (xy : V → Coords C) {vs : List (I × Coords C)} (hvs : ∀ v ∈ vs, Src A p xy v)
    {vls : List (VLoc I C)} (hvl : VlsOK st.keys st.qs.length vs vls)
    (hn : st.ns.length + (pend vls).length ≤ N) (hs : st.ss.length ≤ N)
    (hlen : 2 ≤ vs.length) {si : Nat} (hsi : si < vs.length) :
    IfOk (fun r => Fork r.1.ns r.1.ts) (St.addEnds cfg fuel p xy st vls si) := by
  unfold St.addEnds
  simp only
  have hsi' : si < vls.length := by rw [hvl.len]; exact hsi
  have hsj' : (si + 1) % vls.length < vls.length := Nat.mod_lt _ (by omega)
  refine Ens.bind IfOk.getP fun vl0 h0 => ?_
  refine Ens.bind IfOk.getP fun vl1 h1 => ?_
  have hne : si ≠ (si + 1) % vls.length := ne_succ_mod (by rw [hvl.len]; exact hlen) hsi'
  generalize (si + 1) % vls.length = sj at h1 hne hsj' ⊢
  have one : ∀ i c0 i0 q0, vls[i]? = some (.pending c0 i0 q0) →
      IfOk (fun r => Fork r.1.ns r.1.ts ∧ Tidy N r.1) (St.addVertexVL cfg fuel p xy st vls i i0 q0) :=
    fun i c0 i0 q0 hi => (addVertexVL_fork h ht hf cfg fuel p xy vls i i0 q0).with
      (addVertexVL_ranked (E := fun _ => True) (fun _ => trivial) h ht cfg (fun _ => trivial) hfu p xy hvs hvl hn hs hi)
  have two : ∀ i j c0 i0 q0 c1 i1 q1, i ≠ j →
      vls[i]? = some (.pending c0 i0 q0) →
      vls[j]? = some (.pending c1 i1 q1) → ∀ f : Nat → Nat → Nat × Nat × Nat,
      IfOk (fun r : St I C × List (VLoc I C) × Nat × Nat × Nat => Fork r.1.ns r.1.ts) (do
        let (st, vls, ni0) ← St.addVertexVL cfg fuel p xy st vls i i0 q0
        let (st, vls, ni1) ← St.addVertexVL cfg fuel p xy st vls j i1 q1
        .ok (st, vls, f ni0 ni1)) := by
    intro i j c0 i0 q0 c1 i1 q1 hij hi hj f
    refine Ens.bind ((one i c0 i0 q0 hi).with (addVertexVL_safe h cfg fuel p xy hvs hvl hi)) ?_
    rintro ⟨sta, vlsa, na⟩ ⟨⟨hfa, hta⟩, hga, hka, hva⟩
    simp only at hfa hta hga hka hva
    refine Ens.bind (addVertexVL_fork hga.wf hta hfa cfg fuel p xy _ _ _ _) ?_
    rintro ⟨stb, vlsb, nb⟩ htb
    exact htb
  rcases vl0 with ⟨c0, i0, q0⟩ | ⟨c0, ni0⟩ <;> rcases vl1 with ⟨c1, i1, q1⟩ | ⟨c1, ni1⟩
  · refine Ens.ite (fun _ => ?_) fun _ => ?_
    · exact two si sj c0 i0 q0 c1 i1 q1 hne h0 h1 fun a b => (a, b, 2)
    · exact two sj si c1 i1 q1 c0 i0 q0 (Ne.symm hne) h1 h0 fun a b => (b, a, 2)
  · exact Ens.bind (one _ _ _ _ h0) fun r hr => hr.1
  · exact Ens.bind (one _ _ _ _ h1) fun r hr => hr.1
  · exact hf

theorem addNthSegment_fork {N : Nat} {st : St I C} (h : WF A st) (ht : Tidy N st) (hf : Fork st.ns st.ts) (cfg : Cfg)
    {fuel : Nat} (hfu : enough N ≤ fuel) (p : PolyList I V)
    (xy : V → Coords C) {vs : List (I × Coords C)} (hvs : ∀ v ∈ vs, Src A p xy v)
    {vls : List (VLoc I C)} (hvl : VlsOK st.keys st.qs.length vs vls)
    (hn : st.ns.length + (pend vls).length ≤ N) (hs : st.ss.length < N)
    (hlen : 2 ≤ vs.length) {si : Nat} (hsi : si < vs.length) :
    IfOk (fun r => Fork r.1.ns r.1.ts) (St.addNthSegment cfg fuel p xy st vls si) := by
  unfold St.addNthSegment
  refine Ens.bind (((addEnds_ranked (E := fun _ => True) (fun _ => trivial) h ht cfg (fun _ => trivial) hfu p xy hvs
    hvl hn (by omega) hlen hsi).with (addEnds_safe h cfg fuel p xy hvs hvl hlen si)).with
    (addEnds_fork h ht hf cfg hfu p xy hvs hvl hn (by omega) hlen hsi)) ?_
  rintro ⟨st', vls', ni0, ni1, added⟩ ⟨⟨ht', hg, hk0, hk1, -, hi0, hi1, hp⟩, hk⟩
  simp only at ht' hg hk0 hk1 hi0 hi1 hp hk ⊢
  have hsj : (si + 1) % vs.length < vs.length := Nat.mod_lt _ (by omega)
  obtain ⟨v0, hv0⟩ : ∃ v, vs[si]? = some v := ⟨_, List.getElem?_eq_getElem hsi⟩
  obtain ⟨v1, hv1⟩ : ∃ v, vs[(si + 1) % vs.length]? = some v := ⟨_, List.getElem?_eq_getElem hsj⟩
  rw [hv0] at hk0
  rw [hv1] at hk1
  have hl0 := lt_of_get hk0
  have hl1 := lt_of_get hk1
  rw [keys_length] at hl0 hl1
  refine Ens.bind (IfOk.any _) fun n0 hn0 => ?_
  refine Ens.bind (IfOk.any _) fun n1 hn1 => ?_
  exact Ens.bind (Ens.ite (fun _ => addSegment_fork hg.wf ht' hk cfg fuel hl0 hl1 _ _)
    fun _ => addSegment_fork hg.wf ht' hk cfg fuel hl1 hl0 _ _) fun r hr => hr

theorem polyStep_fork {N : Nat} (cfg : Cfg) {fuel : Nat} (hfu : enough N ≤ fuel) (p : PolyList I V)
    (xy : V → Coords C) {vs : List (I × Coords C)} (hvs : ∀ v ∈ vs, Src A p xy v) (hlen : 2 ≤ vs.length) {st0 : St I C}
    {done : List Nat} {l : St.PolyLoop I C} (h : PolyInv A vs st0 done l) (ht : Tidy N l.st)
    (hf : Fork l.st.ns l.st.ts)
    (hn : st0.ns.length + vs.length ≤ N) (hs : st0.ss.length + done.length < N)
    {si : Nat} (hsi : si < vs.length) :
    IfOk (fun l' => Fork l'.st.ns l'.st.ts) (St.polyStep cfg fuel p xy l si) := by
  have hsz : l.st.ns.length + (pend l.vls).length = st0.ns.length + vs.length := by
    have := h.perm.length_eq
    simpa [List.length_append, keys_length] using this
  have hss : l.st.ss.length = st0.ss.length + done.length := by
    obtain ⟨segs, h1, h2⟩ := h.ss
    rw [h1, List.length_append, h2.length_eq]
  unfold St.polyStep
  refine Ens.bind (addNthSegment_fork h.wf ht hf cfg hfu p xy hvs h.ok (by omega) (by omega) hlen hsi) ?_
  rintro ⟨st', vls', added⟩ hk
  simp only at hk ⊢
  refine Ens.bind (IfOk.any _) fun pd _ => ?_
  refine Ens.ite (fun _ => ?_) fun _ => hk
  exact Ens.bind (IfOk.any _) fun _ _ => hk

theorem addPolygon_fork {N : Nat} {st : St I C} (h : WF A st) (ht : Tidy N st) (hf : Fork st.ns st.ts)
    (cfg : Cfg) (hcfg : cfg.Valid) {fuel : Nat} (hfu : enough N ≤ fuel) (p : PolyList I V) (xy : V → Coords C) (k : Nat)
    {vs : List (I × Coords C)} (hvs : ∀ v ∈ vs, Src A p xy v) (hlen : 2 ≤ vs.length)
    (hn : st.ns.length + vs.length ≤ N) (hs : st.ss.length + vs.length ≤ N) :
    IfOk (fun st' => Fork st'.ns st'.ts) (St.addPolygon cfg fuel p xy k st (startLocs vs)) := by
  have hol : (cfg.order k vs.length).length = vs.length := by
    rw [(hcfg k vs.length).length_eq, List.length_range]
  unfold St.addPolygon
  have hl : (startLocs vs).length = vs.length := by simp [startLocs]
  rw [hl]
  have h0 : PolyInv A vs st [] ⟨st, startLocs vs, vs.length, 0, 1, cfg.mathN vs.length 1⟩ := by
    refine ⟨h, ⟨hl, ?_⟩, List.prefix_refl _, ?_, by simp, ?_, ⟨[], by simp, .nil⟩⟩
    · intro i v vl h1 h2
      simp only [startLocs, List.getElem?_map, h1, Option.map_some, Option.some.injEq] at h2
      subst h2
      exact ⟨rfl, h.root⟩
    · show (st.keys ++ pend (startLocs vs)).Perm _
      rw [pend_startLocs]
    · show _ = (pend (startLocs vs)).length
      rw [pend_startLocs]
  refine Ens.bind (Ens.foldlM (fun rest l => (Fork l.st.ns l.st.ts ∧ Tidy N l.st) ∧
    ∃ done, cfg.order k vs.length = done ++ rest ∧ PolyInv A vs st done l) ?_ _ _ ⟨⟨hf, ht⟩, [], rfl, h0⟩) ?_
  · rintro a rest l ⟨⟨hf, ht⟩, done, hd, hi⟩
    have hmem : a ∈ cfg.order k vs.length := by rw [hd]; simp
    have ha : a < vs.length := List.mem_range.1 ((hcfg k vs.length).subset hmem)
    have hdl : done.length < vs.length := by
      rw [hd] at hol
      simp only [List.length_append, List.length_cons] at hol
      omega
    refine Ens.imp (((polyStep_fork cfg hfu p xy hvs hlen hi ht hf hn (by omega) ha).with
      (polyStep_ranked (E := fun _ => True) (fun _ => trivial) cfg (fun _ => trivial) hfu p xy hvs hlen hi ht hn
        (by omega) ha)).with (polyStep_safe cfg fuel p xy hvs hlen hi a)) ?_
    rintro l' ⟨h1, h2⟩
    exact ⟨h1, done ++ [a], by simp [hd], h2⟩
  · rintro l ⟨h, -⟩
    exact h.1

theorem buildStep_fork (cfg : Cfg) (hcfg : cfg.Valid) {fuel : Nat} (p : PolyList I V)
    (xy : V → Coords C) (hfu : enough (conts p.elems) ≤ fuel) {e : Option (Elem I)}
    {rest : List (Option (Elem I))} {l : St.BuildLoop I C} (h : BuildRank p xy (e :: rest) l)
    (hf : Fork l.st.ns l.st.ts) :
    IfOk (fun l' => Fork l'.st.ns l'.st.ts) (St.buildStep cfg fuel p xy l e) := by
  obtain ⟨⟨hwf, vs, hvs, hsrc⟩, ht, hns, hss, -⟩ := h
  have hlv : l.vLookup.length = vs.length := by rw [hvs]; simp [startLocs]
  unfold St.buildStep
  split
  · trivial
  · exact Ens.bind (IfOk.any _) fun _ _ => hf
  · have hc : conts (some .newPolygon :: rest) = conts rest := by
      simp [conts]
    rw [hc] at hns hss
    refine Ens.ite (fun _ => Ens.ite (fun _ => trivial) fun hlen => ?_) fun _ => hf
    rw [hvs]
    refine Ens.bind (Ens.mapErr (E := fun _ => True) (addPolygon_fork hwf ht hf cfg hcfg hfu p xy l.k hsrc (by omega)
      (by omega) (by omega)) (fun _ _ => trivial) (fun h => h) (fun h => h) (fun h => h)) fun st' h => h

theorem trapezoidize_fork (cfg : Cfg) (hcfg : cfg.Valid) {fuel : Nat} (p : PolyList I V)
    (xy : V → Coords C) (hfu : enough (conts p.elems) ≤ fuel) :
    IfOk (fun st => Fork st.ns st.ts) (trapezoidize cfg fuel p xy) := by
  unfold trapezoidize St.build
  refine Ens.bind (Ens.foldlM (fun rest (l : St.BuildLoop I C) => Fork l.st.ns l.st.ts ∧ BuildRank p xy rest l)
    (fun a l s h => (buildStep_fork cfg hcfg p xy hfu h.2 h.1).with (buildStep_ranked cfg hcfg p xy hfu h.2)) _ _
    (?_ : Fork (⟨St.init, [], 0⟩ : St.BuildLoop I C).st.ns (⟨St.init, [], 0⟩ : St.BuildLoop I C).st.ts ∧
      BuildRank p xy (p.elems ++ [some .newPolygon]) ⟨St.init, [], 0⟩)) fun l hl => hl.1
  refine ⟨Fork.init, ⟨WF.init, [], rfl, by simp⟩, Tidy.init _, ?_, ?_, ?_⟩
  · simp [St.init, conts]
  · simp [St.init, conts]
  · intro e he
    rcases List.mem_append.1 he with h | h
    · exact .inr h
    · exact .inl (List.mem_singleton.1 h)

end Tri
