import Verif.Proof.RunBuild

/-!
# The trapezoidation of a whole input

Every vertex is the end of two segments, so there are three kinds of vertices: both segments go down (`A`), one
comes from above and one goes down (`I`), both come from above (`V`).
-/

set_option linter.unusedSectionVars false

namespace Tri

variable {I V K : Type} [Field K] [LinearOrder K] [IsStrictOrderedRing K]

attribute [local instance] exact

/-- Vertex `n` with two segments that go down. -/
structure KA (P : Plane K) (A : Abs K) (n u dl dc dr s0 s1 : Nat) : Prop where
  ups : A.ups n = [u]
  downs : A.downs n = [dl, dc, dr]
  lL : (A.T dl).left = (A.T u).left
  l0 : (A.T dl).right = some s0
  c0 : (A.T dc).left = some s0
  c1 : (A.T dc).right = some s1
  r1 : (A.T dr).left = some s1
  rR : (A.T dr).right = (A.T u).right
  S0 : s0 < A.S
  S1 : s1 < A.S
  mx0 : A.mx s0 = n
  mx1 : A.mx s1 = n
  pL : ∀ l, (A.T u).left = some l → PassL P A n l
  pR : ∀ r, (A.T u).right = some r → PassR P A n r

/-- Vertex `n` with a segment from above and one that goes down. -/
structure KI (P : Plane K) (A : Abs K) (n ul ur dl dr s0 s1 : Nat) : Prop where
  ups : A.ups n = [ul, ur]
  downs : A.downs n = [dl, dr]
  lL : (A.T dl).left = (A.T ul).left
  ul0 : (A.T ul).right = some s0
  ur0 : (A.T ur).left = some s0
  dl1 : (A.T dl).right = some s1
  dr1 : (A.T dr).left = some s1
  rR : (A.T dr).right = (A.T ur).right
  S0 : s0 < A.S
  S1 : s1 < A.S
  mn0 : A.mn s0 = n
  mx1 : A.mx s1 = n
  pL : ∀ l, (A.T ul).left = some l → PassL P A n l
  pR : ∀ r, (A.T ur).right = some r → PassR P A n r

/-- Vertex `n` with two segments from above. -/
structure KV (P : Plane K) (A : Abs K) (n ul uc ur d s0 s1 : Nat) : Prop where
  ups : A.ups n = [ul, uc, ur]
  downs : A.downs n = [d]
  lL : (A.T d).left = (A.T ul).left
  l0 : (A.T ul).right = some s0
  c0 : (A.T uc).left = some s0
  c1 : (A.T uc).right = some s1
  r1 : (A.T ur).left = some s1
  rR : (A.T d).right = (A.T ur).right
  S0 : s0 < A.S
  S1 : s1 < A.S
  mn0 : A.mn s0 = n
  mn1 : A.mn s1 = n
  pL : ∀ l, (A.T ul).left = some l → PassL P A n l
  pR : ∀ r, (A.T ur).right = some r → PassR P A n r

/-- What is known of the abstract state of a whole input. -/
structure Whole (P : Plane K) (A : Abs K) : Prop where
  inv : Inv P A
  mnC : ∀ i < A.S, A.c (A.mn i) = (A.sg i).1
  kind : ∀ n < A.N, (∃ u dl dc dr s0 s1, KA P A n u dl dc dr s0 s1) ∨ (∃ ul ur dl dr s0 s1, KI P A n ul ur dl dr s0 s1) ∨
    ∃ ul uc ur d s0 s1, KV P A n ul uc ur d s0 s1
  sepU : ∀ i < A.S, ∃ a ∈ (A.ups (A.mn i)).tail, (A.T a).left = some i
  sepD : ∀ i < A.S, ∃ a ∈ (A.downs (A.mx i)).tail, (A.T a).left = some i
  top : ∃ i < A.M, (A.T i).up = none

/-- The type of a nexus. -/
theorem finalType_A {nx : Nexus I K} {d0 d1 : Divider} (h : nx.dividers = .two d0 d1) {u a b c : Nat}
    (hu : nx.iterTrapezoids .asc = [u]) (hd : nx.iterTrapezoids .desc = [a, b, c]) :
    nx.finalType = .ok (.A u a b c) := by
  unfold Nexus.iterTrapezoids at hu hd
  unfold Nexus.finalType
  simp only [h] at hu hd ⊢
  rcases hd0 : d0.dir <;> rcases hd1 : d1.dir <;> simp [hd0, hd1, Nexus.leftmost] at hu hd ⊢
  simp [hu, hd]

theorem finalType_I {nx : Nexus I K} {d0 d1 : Divider} (h : nx.dividers = .two d0 d1)
    (ho : ¬ (d0.dir = .desc ∧ d1.dir = .asc)) {u v a b : Nat}
    (hu : nx.iterTrapezoids .asc = [u, v]) (hd : nx.iterTrapezoids .desc = [a, b]) :
    nx.finalType = .ok (.I u v a b) := by
  unfold Nexus.iterTrapezoids at hu hd
  unfold Nexus.finalType
  simp only [h] at hu hd ⊢
  rcases hd0 : d0.dir <;> rcases hd1 : d1.dir <;> simp [hd0, hd1, Nexus.leftmost] at ho hu hd ⊢
  simp [hu, hd]

theorem finalType_V {nx : Nexus I K} {d0 d1 : Divider} (h : nx.dividers = .two d0 d1) {a b c d : Nat}
    (hu : nx.iterTrapezoids .asc = [a, b, c]) (hd : nx.iterTrapezoids .desc = [d]) :
    nx.finalType = .ok (.V a b c d) := by
  unfold Nexus.iterTrapezoids at hu hd
  unfold Nexus.finalType
  simp only [h] at hu hd ⊢
  rcases hd0 : d0.dir <;> rcases hd1 : d1.dir <;> simp [hd0, hd1, Nexus.leftmost] at hu hd ⊢
  simp [hu, hd]

variable [DecidableEq I] {P : Plane K} {p : PolyList I V} {xy : V → Coords K} {gs : List (List (I × Coords K))} {A : Abs K} {st : St I K}

/-- The vertex before position `k` of a cycle. -/
theorem exists_prev {m k : Nat} (hk : k < m) : ∃ j < m, (j + 1) % m = k := by
  rcases Nat.eq_zero_or_pos k with rfl | h
  · exact ⟨m - 1, by omega, by rw [Nat.sub_add_cancel (by omega), Nat.mod_self]⟩
  · exact ⟨k - 1, by omega, by rw [Nat.sub_add_cancel h, Nat.mod_eq_of_lt hk]⟩

theorem AllIn.mnC (h : AllIn P p xy gs A st) : ∀ i < A.S, A.c (A.mn i) = (A.sg i).1 :=
  fun i hi => h.glob.link.real i hi (fun h => h)

/-- An end of a segment at the vertex `n`. -/
theorem AllIn.end_at (h : AllIn P p xy gs A st) {i n : Nat} (hi : i < A.S) (hn : n < A.N)
    (he : A.c n = (A.sg i).1 ∨ A.c n = (A.sg i).2) : A.mn i = n ∨ A.mx i = n := by
  have hI := h.glob.inv
  rcases he with he | he
  · exact .inl (hI.cinj _ (hI.mnN i hi).1 _ hn (by rw [h.mnC i hi, he]))
  · exact .inr (hI.cinj _ (hI.mxN i hi).1 _ hn (by rw [(hI.mxN i hi).2, he]))

/-- Two segments end at every vertex. -/
theorem AllIn.two_segs (h : AllIn P p xy gs A st) (hctx : ∀ g ∈ gs, PolyCtx P p xy g) {n : Nat} (hn : n < A.N) :
    ∃ i < A.S, ∃ j < A.S, i ≠ j ∧ (A.mn i = n ∨ A.mx i = n) ∧ (A.mn j = n ∨ A.mx j = n) := by
  obtain ⟨g, hg, v, hv, hc⟩ := h.cs n hn
  obtain ⟨k, hk⟩ := List.mem_iff_getElem?.1 hv
  have hkl := lt_of_get hk
  have hP := hctx g hg
  obtain ⟨b, hb⟩ : ∃ b, g[(k + 1) % g.length]? = some b := ⟨_, List.getElem?_eq_getElem (hP.lt k)⟩
  obtain ⟨j, hj, hjk⟩ := exists_prev hkl
  obtain ⟨a, ha⟩ : ∃ a, g[j]? = some a := ⟨_, List.getElem?_eq_getElem hj⟩
  have hk' : g[(j + 1) % g.length]? = some v := by rw [hjk]; exact hk
  obtain ⟨i1, hi1, e1⟩ := h.has g hg k _ ⟨v, b, hk, hb, rfl⟩
  obtain ⟨i2, hi2, e2⟩ := h.has g hg j _ ⟨a, v, ha, hk', rfl⟩
  refine ⟨i1, hi1, i2, hi2, ?_, ?_, ?_⟩
  · rintro rfl
    have := hP.edge_inj hk hb ha hk' (e1.symm.trans e2)
    subst this
    have hl := hP.len
    by_cases h' : k + 1 = g.length
    · rw [h', Nat.mod_self] at hjk; omega
    · rw [Nat.mod_eq_of_lt (by omega)] at hjk; omega
  · refine h.end_at hi1 hn ?_
    rw [e1, hc]; unfold edgeC; split <;> simp
  · refine h.end_at hi2 hn ?_
    rw [e2, hc]; unfold edgeC; split <;> simp

/-- Every nexus has two dividers. -/
theorem AllIn.two_divs (h : AllIn P p xy gs A st) (hctx : ∀ g ∈ gs, PolyCtx P p xy g) {n : Nat} {nx : Nexus I K}
    (hx : st.ns[n]? = some nx) : ∃ d0 d1, nx.dividers = .two d0 d1 := by
  have hL := h.glob.link
  have hn := hL.lt_N hx
  have hN := hL.nex n nx hx
  obtain ⟨i, hi, j, hj, hne, h1, h2⟩ := h.two_segs hctx hn
  have key : ∀ i < A.S, (A.mn i = n ∨ A.mx i = n) → ∃ d ∈ nx.dividers.toList, d.si = i := by
    rintro i hi (h | h)
    · obtain ⟨d, hd, e, -⟩ := hN.hasA i hi h (fun h => h); exact ⟨d, hd, e⟩
    · obtain ⟨d, hd, e, -⟩ := hN.hasD i hi h; exact ⟨d, hd, e⟩
  obtain ⟨d, hd, rfl⟩ := key i hi h1
  obtain ⟨d', hd', rfl⟩ := key j hj h2
  rcases hz : nx.dividers with _ | a | ⟨a, b⟩
  · rw [hz] at hd; simp [Zot.toList] at hd
  · rw [hz] at hd hd'; simp [Zot.toList] at hd hd'; subst hd hd'; exact absurd rfl hne
  · exact ⟨a, b, rfl⟩

theorem AllIn.whole (h : AllIn P p xy gs A st) (hctx : ∀ g ∈ gs, PolyCtx P p xy g) : Whole P A where
  inv := h.glob.inv
  mnC := h.mnC
  kind n hn := by
    have hL := h.glob.link
    obtain ⟨nx, hx⟩ := hL.ns_get hn
    have hN := hL.nex n nx hx
    obtain ⟨d0, d1, hz⟩ := h.two_divs hctx hx
    obtain ⟨L, R, hX⟩ := h.glob.inv.nex n hn
    have hu := hN.up
    have hd := hN.down
    have ho := hN.ord d0 d1 hz
    have hpU := hX.pathU
    have hpD := hX.pathD
    have hsU := hX.sepU
    have hsD := hX.sepD
    unfold Nexus.iterTrapezoids at hu hd
    simp only [hz] at hu hd
    rcases hd0 : d0.dir <;> rcases hd1 : d1.dir <;> simp [hd0, hd1, Nexus.leftmost] at ho hu hd
    · rw [← hu] at hpU hsU
      rw [← hd] at hpD hsD
      simp only [Path] at hpU hpD
      obtain ⟨s0, S0, e0, m0⟩ := hsU d0.tiRight (by simp)
      obtain ⟨s1, S1, e1, m1⟩ := hsU d1.tiRight (by simp)
      refine .inr (.inr ⟨_, _, _, _, s0, s1, hu.symm, hd.symm, ?_, ?_, e0, ?_, e1, ?_, S0, S1, m0, m1, fun l hl => hX.passL l ?_, fun r hr => hX.passR r ?_⟩)
      · rw [hpD.1, hpU.1]
      · rw [← hpU.2.1, e0]
      · rw [← hpU.2.2.1, e1]
      · rw [hpD.2, hpU.2.2.2]
      · rw [← hpU.1, hl]
      · rw [← hpU.2.2.2, hr]
    · rw [← hu] at hpU hsU
      rw [← hd] at hpD hsD
      simp only [Path] at hpU hpD
      obtain ⟨s0, S0, e0, m0⟩ := hsU d0.tiRight (by simp)
      obtain ⟨s1, S1, e1, m1⟩ := hsD d1.tiRight (by simp)
      refine .inr (.inl ⟨_, _, _, _, s0, s1, hu.symm, hd.symm, ?_, ?_, e0, ?_, e1, ?_, S0, S1, m0, m1, fun l hl => hX.passL l ?_, fun r hr => hX.passR r ?_⟩)
      · rw [hpD.1, hpU.1]
      · rw [← hpU.2.1, e0]
      · rw [← hpD.2.1, e1]
      · rw [hpD.2.2, hpU.2.2]
      · rw [← hpU.1, hl]
      · rw [← hpU.2.2, hr]
    · rw [← hu] at hpU hsU
      rw [← hd] at hpD hsD
      simp only [Path] at hpU hpD
      obtain ⟨s0, S0, e0, m0⟩ := hsD d0.tiRight (by simp)
      obtain ⟨s1, S1, e1, m1⟩ := hsD d1.tiRight (by simp)
      refine .inl ⟨_, _, _, _, s0, s1, hu.symm, hd.symm, ?_, ?_, e0, ?_, e1, ?_, S0, S1, m0, m1, fun l hl => hX.passL l ?_, fun r hr => hX.passR r ?_⟩
      · rw [hpD.1, hpU.1]
      · rw [← hpD.2.1, e0]
      · rw [← hpD.2.2.1, e1]
      · rw [hpD.2.2.2, hpU.2]
      · rw [← hpU.1, hl]
      · rw [← hpU.2, hr]
  sepU i hi := by
    have hL := h.glob.link
    have hn := (h.glob.inv.mnN i hi).1
    obtain ⟨nx, hx⟩ := hL.ns_get hn
    have hN := hL.nex _ nx hx
    obtain ⟨d0, d1, hz⟩ := h.two_divs hctx hx
    obtain ⟨d, hd, rfl, hdir⟩ := hN.hasA i hi rfl (fun h => h)
    refine ⟨d.tiRight, ?_, (hN.divs d hd).2⟩
    rw [← hN.up]
    unfold Nexus.iterTrapezoids
    simp only [hz, Zot.toList, List.mem_cons, List.not_mem_nil, or_false] at hd
    rcases hd with rfl | rfl <;> simp [hz, hdir]
  sepD i hi := by
    have hL := h.glob.link
    have hn := (h.glob.inv.mxN i hi).1
    obtain ⟨nx, hx⟩ := hL.ns_get hn
    have hN := hL.nex _ nx hx
    obtain ⟨d0, d1, hz⟩ := h.two_divs hctx hx
    obtain ⟨d, hd, rfl, hdir⟩ := hN.hasD i hi rfl
    refine ⟨d.tiRight, ?_, (hN.divs d hd).2⟩
    rw [← hN.down]
    unfold Nexus.iterTrapezoids
    simp only [hz, Zot.toList, List.mem_cons, List.not_mem_nil, or_false] at hd
    rcases hd with rfl | rfl <;> simp [hz, hdir]
  top := by
    obtain ⟨t, ht, hu⟩ := h.glob.qry.top
    refine ⟨t, ?_, hu⟩
    have : ∀ {q t}, Top st.qs q t → t < A.M := by
      intro q t ht
      induction ht with
      | @sink q t h' =>
        obtain ⟨t', h1, -⟩ := h.glob.qry.snk' q t h'
        exact h.glob.link.lt_M h1
      | branch _ _ ih => exact ih
    exact this ht

/-- The code computes the kind of a vertex. -/
theorem AllIn.type_A (h : AllIn P p xy gs A st) (hctx : ∀ g ∈ gs, PolyCtx P p xy g) {n : Nat} {nx : Nexus I K}
    (hx : st.ns[n]? = some nx) {u dl dc dr s0 s1 : Nat} (hk : KA P A n u dl dc dr s0 s1) :
    nx.finalType = .ok (.A u dl dc dr) := by
  obtain ⟨d0, d1, hz⟩ := h.two_divs hctx hx
  have hN := h.glob.link.nex n nx hx
  exact finalType_A hz (by rw [hN.up, hk.ups]) (by rw [hN.down, hk.downs])

theorem AllIn.type_I (h : AllIn P p xy gs A st) (hctx : ∀ g ∈ gs, PolyCtx P p xy g) {n : Nat} {nx : Nexus I K}
    (hx : st.ns[n]? = some nx) {ul ur dl dr s0 s1 : Nat} (hk : KI P A n ul ur dl dr s0 s1) :
    nx.finalType = .ok (.I ul ur dl dr) := by
  obtain ⟨d0, d1, hz⟩ := h.two_divs hctx hx
  have hN := h.glob.link.nex n nx hx
  exact finalType_I hz (hN.ord d0 d1 hz) (by rw [hN.up, hk.ups]) (by rw [hN.down, hk.downs])

theorem AllIn.type_V (h : AllIn P p xy gs A st) (hctx : ∀ g ∈ gs, PolyCtx P p xy g) {n : Nat} {nx : Nexus I K}
    (hx : st.ns[n]? = some nx) {ul uc ur d s0 s1 : Nat} (hk : KV P A n ul uc ur d s0 s1) :
    nx.finalType = .ok (.V ul uc ur d) := by
  obtain ⟨d0, d1, hz⟩ := h.two_divs hctx hx
  have hN := h.glob.link.nex n nx hx
  exact finalType_V hz (by rw [hN.up, hk.ups]) (by rw [hN.down, hk.downs])

end Tri
