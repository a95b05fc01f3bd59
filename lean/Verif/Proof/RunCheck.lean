import Verif.Proof.Link

/-!
# The debug checks succeed on states described by the invariant
-/

set_option linter.unusedSectionVars false

namespace Tri

variable {I V K : Type} [Field K] [LinearOrder K] [IsStrictOrderedRing K]

attribute [local instance] exact

theorem forM_ok {α ε : Type} {f : α → Res ε Unit} {l : List α} (h : ∀ a ∈ l, f a = .ok ()) : l.forM f = .ok () := by
  induction l with
  | nil => rfl
  | cons a l ih =>
    have := ih fun b hb => h b (by simp [hb])
    simp only [List.forM, h a (by simp), bind, Except.bind]
    exact this

theorem Nexus.up_mem {n : Nexus I K} {t : Nat} (h : t ∈ n.upTrapezoids.toList) : t ∈ n.iterTrapezoids .asc := by
  rw [Nexus.iter_eq]
  simp only [Nexus.upTrapezoids, Nexus.filterTrapezoids, zot_map_last, Nexus.filterDividers_last] at h
  rcases hd : (n.divs .asc).getLast? with _ | d
  · rw [hd] at h
    simp [Ot.toList] at h
    simp [Nexus.leftmost, h]
  · rw [hd] at h
    simp [Ot.toList] at h
    rcases h with rfl | rfl
    · simp [Nexus.leftmost]
    · exact List.mem_cons_of_mem _ (List.mem_map_of_mem (List.mem_of_getLast? hd))

theorem Nexus.down_mem {n : Nexus I K} {t : Nat} (h : t ∈ n.downTrapezoids.toList) : t ∈ n.iterTrapezoids .desc := by
  rw [Nexus.iter_eq]
  simp only [Nexus.downTrapezoids, Nexus.filterTrapezoids, zot_map_last, Nexus.filterDividers_last] at h
  rcases hd : (n.divs .desc).getLast? with _ | d
  · rw [hd] at h
    simp [Ot.toList] at h
    simp [Nexus.leftmost, h]
  · rw [hd] at h
    simp [Ot.toList] at h
    rcases h with rfl | rfl
    · simp [Nexus.leftmost]
    · exact List.mem_cons_of_mem _ (List.mem_map_of_mem (List.mem_of_getLast? hd))

theorem Tame.check {st : St I K} {q : Nat} (h : Tame st.qs q)
    (hs : ∀ q i : Nat, st.qs[q]? = some (QueryNode.sink i) → ∃ t, st.ts[i]? = some t) :
    ∃ N, ∀ fuel ≥ N, st.checkQuery fuel q = .ok () := by
  induction h with
  | @sink q t h =>
    refine ⟨1, fun fuel hf => ?_⟩
    obtain ⟨k, rfl⟩ : ∃ k, fuel = k + 1 := ⟨fuel - 1, by omega⟩
    obtain ⟨x, hx⟩ := hs q t h
    simp [St.checkQuery, getU, h, hx, bind, Except.bind]
  | @branch q l r b h _ _ ih1 ih2 =>
    obtain ⟨N1, ih1⟩ := ih1
    obtain ⟨N2, ih2⟩ := ih2
    refine ⟨max N1 N2 + 1, fun fuel hf => ?_⟩
    obtain ⟨k, rfl⟩ : ∃ k, fuel = k + 1 := ⟨fuel - 1, by omega⟩
    have h1 := ih1 k (by omega)
    have h2 := ih2 k (by omega)
    simp [St.checkQuery, getU, h, h1, h2, bind, Except.bind]

theorem checkConsistency_run {P : Plane K} {A : Abs K} {st : St I K} {op ex : Nat → Prop} (hI : Inv P A)
    (hL : Link st A A.ups op ex) (hQ : Qry st.qs st.ts A) : ∃ N, ∀ fuel ≥ N, st.checkConsistency fuel = .ok () := by
  obtain ⟨N, hN⟩ := hQ.tame.check (st := st) fun q i h => by
    obtain ⟨t, ht, -⟩ := hQ.snk' q i h; exact ⟨t, ht⟩
  refine ⟨N, fun fuel hf => ?_⟩
  have h1 : (List.range st.ns.length).forM st.checkNexus = .ok () := by
    refine forM_ok fun n hn => ?_
    have hnN : n < A.N := by rw [← hL.nsL]; simpa using hn
    obtain ⟨nx, hnx⟩ := hL.ns_get hnN
    have hNL := hL.nex n nx hnx
    simp only [St.checkNexus, getU, hnx, bind, Except.bind]
    rw [forM_ok (l := nx.upTrapezoids.toList)]
    · simp only
      refine forM_ok fun ti hti => ?_
      have := hI.rowD n hnN ti (by rw [← hNL.down]; exact Nexus.down_mem hti)
      obtain ⟨t, ht⟩ := hL.ts_get this.1
      have he := hL.tr ti t ht
      rw [he] at this
      simp only [ht]
      rw [if_pos this.2]
    · intro ti hti
      have := hI.rowU n hnN ti (by rw [← hNL.up]; exact Nexus.up_mem hti)
      obtain ⟨t, ht⟩ := hL.ts_get this.1
      have he := hL.tr ti t ht
      rw [he] at this
      simp only [ht]
      rw [if_pos this.2]
  have h2 : (List.range st.ts.length).forM st.checkTrapezoid = .ok () := by
    refine forM_ok fun i hi => ?_
    have hiM : i < A.M := by rw [← hL.tsL]; simpa using hi
    obtain ⟨t, ht⟩ := hL.ts_get hiM
    have he := hL.tr i t ht
    have hd : st.checkSide i t.down .asc = .ok () := by
      rcases hdn : t.down with _ | d
      · rfl
      · obtain ⟨h1, h2⟩ := hI.downM i hiM d (by rw [he]; exact hdn)
        obtain ⟨nx, hnx⟩ := hL.ns_get h1
        simp only [St.checkSide, getU, hnx, bind, Except.bind]
        rw [(hL.nex d nx hnx).up, if_pos h2]
    have hu : st.checkSide i t.up .desc = .ok () := by
      rcases hdn : t.up with _ | d
      · rfl
      · obtain ⟨h1, h2⟩ := hI.upM i hiM d (by rw [he]; exact hdn)
        obtain ⟨nx, hnx⟩ := hL.ns_get h1
        simp only [St.checkSide, getU, hnx, bind, Except.bind]
        rw [(hL.nex d nx hnx).down, if_pos h2]
    simp only [St.checkTrapezoid, getU, ht, hd, hu, hQ.snk i t ht, bind, Except.bind, if_true]
  simp only [St.checkConsistency, h1, h2, hN fuel hf, bind, Except.bind]

theorem debugCheck_run {P : Plane K} {A : Abs K} {st : St I K} {op ex : Nat → Prop} (hI : Inv P A)
    (hL : Link st A A.ups op ex) (hQ : Qry st.qs st.ts A) (cfg : Cfg) :
    ∃ N, ∀ fuel ≥ N, st.debugCheck cfg fuel = .ok () := by
  obtain ⟨N, hN⟩ := checkConsistency_run hI hL hQ
  refine ⟨N, fun fuel hf => ?_⟩
  unfold St.debugCheck
  split
  · exact hN fuel hf
  · rfl

end Tri
