import Verif.Proof.Ranked

/-!
# Insertions keep the ranking
-/

set_option linter.unusedSectionVars false

namespace Tri

variable {I V C : Type} {A : I × Coords C → Prop}

/-- The position of a nexus inserted below `u` (on top if there is none) in a ranking of `N`. -/
def rankAt (ρ : Nat → Nat) (N : Nat) : Option Nat → Nat
  | some u => ρ u
  | none => N

/-- The ranking with a new nexus `N` at position `r`. -/
def insertRank (ρ : Nat → Nat) (N r x : Nat) : Nat :=
  if x = N then r else if ρ x < r then ρ x else ρ x + 1

theorem insertRank_lt {ρ : Nat → Nat} {N r x y : Nat} (hx : x ≠ N) (hy : y ≠ N) (h : ρ x < ρ y) :
    insertRank ρ N r x < insertRank ρ N r y := by
  unfold insertRank
  simp only [if_neg hx, if_neg hy]
  split <;> split <;> omega

theorem insertRank_below {ρ : Nat → Nat} {N r x : Nat} (hx : x ≠ N) (h : ρ x < r) :
    insertRank ρ N r x < insertRank ρ N r N := by
  unfold insertRank
  simp only [if_neg hx, if_true, h]

theorem insertRank_above {ρ : Nat → Nat} {N r x : Nat} (hx : x ≠ N) (h : r ≤ ρ x) :
    insertRank ρ N r N < insertRank ρ N r x := by
  unfold insertRank
  simp only [if_neg hx, if_true]
  split <;> omega

theorem addVertexAt_ranked {E : Fault IErr → Prop} (hE : ∀ e, E (.err e)) {N : Nat} {st : St I C}
    (hwf : WF A st) (h : Tidy N st) (vi : I) (c : Coords C) {qp ti : Nat}
    (hqp : st.qs[qp]? = some (.sink ti)) :
    Ens E (Tidy N) (st.addVertexAt vi c qp ti) := by
  obtain ⟨⟨ρ, hρ, hr⟩, ho, hsz, hdp⟩ := h
  have hti : ti < st.ts.length := hwf.qs _ (mem_of_get hqp)
  have hqlt := lt_of_get hqp
  unfold St.addVertexAt
  refine Ens.bind (Ens.getP_lt hqlt) fun qLeft hqL => ?_
  rw [hqp] at hqL
  cases hqL
  refine Ens.bind (Ens.modP_lt hqlt) fun qs hqs => ?_
  refine Ens.bind (Ens.modP_lt hti) fun ts hts => ?_
  obtain ⟨q0, hq0, rfl⟩ := hqs
  obtain ⟨t0, ht0, rfl⟩ := hts
  refine Ens.bind (Ens.getP_lt (by simpa using hti)) fun t ht => ?_
  have htt : t = Trapezoid.setSink st.qs.length t0 := by
    rw [List.getElem?_set_self hti] at ht
    exact (Option.some.inj ht).symm
  subst htt
  have hok := hwf.ts t0 (mem_of_get ht0)
  have hlast : ∀ i n, (st.ns ++ [Nexus.new vi c st.ts.length ti])[i]? = some n →
      st.ns[i]? = some n ∧ i < st.ns.length ∨
      i = st.ns.length ∧ n = Nexus.new vi c st.ts.length ti := by
    intro i n hi
    rw [List.getElem?_append] at hi
    split at hi
    · exact .inl ⟨hi, by assumption⟩
    · obtain ⟨h1, h2⟩ := List.getElem?_eq_some_iff.1 hi
      simp only [List.length_singleton] at h1
      have : i = st.ns.length := by omega
      subst this
      simp at h2
      exact .inr ⟨rfl, h2.symm⟩
  refine Ens.bind (replaceAt_ranked hE _ _ _ _ ?_) fun ns hns => ?_
  · intro i hi
    have := hok.up i hi
    simp; omega
  obtain ⟨hlen, hns⟩ := hns
  simp only [List.length_append, List.length_singleton] at hlen
  simp only [Trapezoid.setSink] at hns ⊢
  -- the trapezoids
  have hts : ∀ j t, (((st.ts.set ti (Trapezoid.setSink st.qs.length t0)).set ti
      (.mk t0.left t0.right t0.down (some st.ns.length) st.qs.length)) ++
        [Trapezoid.mk t0.left t0.right (some st.ns.length) t0.up (st.qs.length + 1)])[j]? =
        some t →
      (j ≠ ti ∧ st.ts[j]? = some t) ∨
      (j = ti ∧ t = ⟨t0.left, t0.right, t0.down, some st.ns.length, st.qs.length⟩) ∨
      (j = st.ts.length ∧ t = ⟨t0.left, t0.right, some st.ns.length, t0.up, st.qs.length + 1⟩) := by
    intro j t hj
    rw [List.getElem?_append] at hj
    split at hj
    · rw [List.set_set, List.getElem?_set] at hj
      split at hj
      · rename_i hij
        subst hij
        cases hj
        exact .inr (.inl ⟨rfl, rfl⟩)
      · rename_i hij
        exact .inl ⟨fun h => hij h.symm, hj⟩
    · rename_i hge
      obtain ⟨h1, h2⟩ := List.getElem?_eq_some_iff.1 hj
      simp only [List.length_singleton, List.length_set] at h1 hge
      have : j = st.ts.length := by omega
      subst this
      simp at h2
      exact .inr (.inr ⟨rfl, h2.symm⟩)
  generalize hts' : (((st.ts.set ti (Trapezoid.setSink st.qs.length t0)).set ti
      (.mk t0.left t0.right t0.down (some st.ns.length) st.qs.length)) ++
        [Trapezoid.mk t0.left t0.right (some st.ns.length) t0.up (st.qs.length + 1)]) = ts'
    at hts
  have goalEq : ∀ ts'', ts'' = ts' → Tidy N (⟨ns, st.ss, ts'',
      st.qs.set qp (.branch st.qs.length (st.qs.length + 1) (.Y c)) ++
        [.sink ti, .sink st.ts.length]⟩ : St I C) := by
    rintro _ rfl
    have hold : ∀ x, x < st.ns.length → x ≠ st.ns.length := fun x hx => by omega
    have hup0 : ∀ u, t0.up = some u → u < st.ns.length := hok.up
    have hdn0 : ∀ u, t0.down = some u → u < st.ns.length := hok.down
    -- rank of the new nexus
    have hr0 : ∀ u, t0.up = some u → rankAt ρ st.ns.length t0.up = ρ u := by
      intro u hu; rw [hu]; rfl
    have hrd : ∀ d, t0.down = some d → ρ d < rankAt ρ st.ns.length t0.up := by
      intro d hd
      cases hu : t0.up with
      | none => exact hρ d (hdn0 d hd)
      | some u => exact hr.trap t0 (mem_of_get ht0) d u hd hu
    have hrle : rankAt ρ st.ns.length t0.up ≤ st.ns.length := by
      cases hu : t0.up with
      | none => exact Nat.le_refl _
      | some u => exact Nat.le_of_lt (hρ u (hup0 u hu))
    -- old nexuses that list `ti`
    have hab : ∀ i n, st.ns[i]? = some n → ti ∈ n.iterTrapezoids .asc →
        ρ i < rankAt ρ st.ns.length t0.up := by
      intro i n hn hm
      cases hu : t0.up with
      | none => exact hρ i (lt_of_get hn)
      | some u => exact hr.above i n hn ti hm t0 ht0 u hu
    generalize rankAt ρ st.ns.length t0.up = r at hr0 hrd hrle hab
    refine ⟨⟨insertRank ρ st.ns.length r, ?_, ?_, ?_, ?_, ?_⟩, ⟨?_, ?_⟩, ?_, ?_⟩
    · intro i hi
      simp only [hlen] at hi ⊢
      unfold insertRank
      split
      · omega
      · have := hρ i (by omega)
        split <;> omega
    · intro t ht d u hd hu
      obtain ⟨j, hj⟩ := List.getElem?_of_mem ht
      rcases hts j t hj with ⟨-, h1⟩ | ⟨-, rfl⟩ | ⟨-, rfl⟩
      · have hk := hwf.ts t (mem_of_get h1)
        exact insertRank_lt (hold _ (hk.down d hd)) (hold _ (hk.up u hu))
          (hr.trap t (mem_of_get h1) d u hd hu)
      · simp only [Option.some.injEq] at hd hu
        subst hu
        exact insertRank_below (hold _ (hdn0 d hd)) (hrd d hd)
      · simp only [Option.some.injEq] at hd hu
        subst hd
        exact insertRank_above (hold _ (hup0 u hu)) (Nat.le_of_eq (hr0 u hu))
    · intro i n' hn' k hk t ht u hu
      obtain ⟨n, hn0, -, hit⟩ := hns i n' hn'
      rcases hlast i n hn0 with ⟨hn, hi⟩ | ⟨rfl, rfl⟩
      · rcases hit .asc k hk with hk | ⟨hni, rfl, hk'⟩
        · rcases hts k t ht with ⟨-, h1⟩ | ⟨rfl, rfl⟩ | ⟨rfl, rfl⟩
          · have hkk := hwf.ts t (mem_of_get h1)
            exact insertRank_lt (hold _ hi) (hold _ (hkk.up u hu)) (hr.above i n hn k hk t h1 u hu)
          · simp only [Option.some.injEq] at hu
            subst hu
            exact insertRank_below (hold _ hi) (hab i n hn hk)
          · exact absurd ((hwf.ns n (mem_of_get hn)).iter_lt hk) (Nat.lt_irrefl _)
        · have := hr.above i n hn ti hk' t0 ht0 i hni
          omega
      · rcases hit .asc k hk with hk | ⟨hni, rfl, hk'⟩
        · simp only [Nexus.iterTrapezoids, Nexus.new, Nexus.leftmost, List.mem_singleton] at hk
          subst hk
          rcases hts _ t ht with ⟨-, h1⟩ | ⟨h1, -⟩ | ⟨-, rfl⟩
          · have := lt_of_get h1; omega
          · omega
          · simp only at hu
            exact insertRank_above (hold _ (hup0 u hu)) (Nat.le_of_eq (hr0 u hu))
        · have := hup0 _ hni; omega
    · intro i n' hn' k hk t ht d hd
      obtain ⟨n, hn0, -, hit⟩ := hns i n' hn'
      rcases hlast i n hn0 with ⟨hn, hi⟩ | ⟨rfl, rfl⟩
      · rcases hit .desc k hk with hk | ⟨hni, rfl, hk⟩
        · rcases hts k t ht with ⟨-, h1⟩ | ⟨rfl, rfl⟩ | ⟨rfl, rfl⟩
          · have hkk := hwf.ts t (mem_of_get h1)
            exact insertRank_lt (hold _ (hkk.down d hd)) (hold _ hi) (hr.below i n hn k hk t h1 d hd)
          · exact insertRank_lt (hold _ (hdn0 d hd)) (hold _ hi) (hr.below i n hn k hk t0 ht0 d hd)
          · exact absurd ((hwf.ns n (mem_of_get hn)).iter_lt hk) (Nat.lt_irrefl _)
        · rcases hts _ t ht with ⟨-, h1⟩ | ⟨h1, -⟩ | ⟨-, rfl⟩
          · have := lt_of_get h1; omega
          · omega
          · simp only [Option.some.injEq] at hd
            subst hd
            exact insertRank_above (hold _ hi) (Nat.le_of_eq (hr0 i hni))
      · rcases hit .desc k hk with hk | ⟨hni, rfl, hk⟩
        · simp only [Nexus.iterTrapezoids, Nexus.new, Nexus.leftmost, List.mem_singleton] at hk
          subst hk
          rcases hts _ t ht with ⟨h1, -⟩ | ⟨-, rfl⟩ | ⟨h1, -⟩
          · exact absurd rfl h1
          · exact insertRank_below (hold _ (hdn0 d hd)) (hrd d hd)
          · omega
        · have := hup0 _ hni; omega
    · intro n' hn'
      obtain ⟨i, hi⟩ := List.getElem?_of_mem hn'
      obtain ⟨n, hn, hd, -⟩ := hns i n' hi
      refine hd ?_
      rcases hlast i n hn with ⟨hn, -⟩ | ⟨-, rfl⟩
      · exact hr.dord n (mem_of_get hn)
      · intro d0 d1 h; simp [Nexus.new] at h
    · intro i l r b hi
      rw [List.getElem?_append] at hi
      split at hi
      · rw [List.getElem?_set] at hi
        split at hi
        · rename_i hij
          subst hij
          simp only [Option.some.injEq, QueryNode.branch.injEq] at hi
          omega
        · exact ho.mono i l r b hi
      · have := mem_of_get hi
        simp at this
    · intro i t hi
      rcases hts i t hi with ⟨hne, h1⟩ | ⟨rfl, rfl⟩ | ⟨rfl, rfl⟩
      · have h2 := ho.own i t h1
        have hlt := lt_of_get h2
        rw [List.getElem?_append_left (by simpa using hlt), List.getElem?_set]
        split
        · rename_i hij
          rw [← hij, hqp] at h2
          simp only [Option.some.injEq, QueryNode.sink.injEq] at h2
          exact absurd h2.symm hne
        · exact h2
      · rw [List.getElem?_append_right (by simp)]
        simp
      · rw [List.getElem?_append_right (by simp)]
        simp
    · simp only [List.length_append, List.length_set, List.length_cons, List.length_nil, hlen]
      omega
    · have := hdp.step hwf.qs ((QLev.refl st.qs).set (b := .Y c) (new := [.sink ti, .sink st.ts.length]) (lt_of_get hqp)
        (Nat.le_refl _) (Nat.le_succ _) (by simp))
      simp only [hlen]
      rwa [Nat.add_right_comm]
  exact goalEq _ hts'

end Tri
