import Verif.Proof.Track

/-!
# `add_vertex` on a state described by the invariant
-/

set_option linter.unusedSectionVars false

namespace Tri

variable {I V K : Type} [Field K] [LinearOrder K] [IsStrictOrderedRing K]

attribute [local instance] exact

open Abs

theorem addV_region {P : Plane K} {A : Abs K} {v : Coords K} {t : Nat} (hI : Inv P A) (hv : P.U v)
    (ht : t < A.M) {w : Coords K} (hw : P.U w) (hvw : w ≠ v) :
    (Region P A t w → if P.h w < P.h v then Region P (A.addV v t) t w else Region P (A.addV v t) A.M w) ∧
    (∀ i < A.M, i ≠ t → Region P A i w → Region P (A.addV v t) i w) := by
  refine ⟨fun hr => ?_, fun i hi hit hr => ?_⟩
  · split
    · rename_i h
      refine ⟨fun d hd => ?_, fun u hu => ?_, fun l hl => ?_, fun r hr' => ?_⟩
      · rw [addV_T_t ht] at hd
        have hd' : (A.T t).down = some d := hd
        rw [addV_c_old (hI.downM t ht d hd').1]
        exact hr.down d hd'
      · rw [addV_T_t ht] at hu
        cases hu
        rw [addV_c_new]; exact h
      · rw [addV_T_t ht] at hl; exact hr.left l hl
      · rw [addV_T_t ht] at hr'; exact hr.right r hr'
    · rename_i h
      have h' : P.h v < P.h w := lt_of_le_of_ne (not_lt.1 h) fun e => hvw (P.h_inj hw hv e.symm)
      refine ⟨fun d hd => ?_, fun u hu => ?_, fun l hl => ?_, fun r hr' => ?_⟩
      · rw [addV_T_new] at hd
        cases hd
        rw [addV_c_new]; exact h'
      · rw [addV_T_new] at hu
        have hd' : (A.T t).up = some u := hu
        rw [addV_c_old (hI.upM t ht u hd').1]
        exact hr.up u hd'
      · rw [addV_T_new] at hl; exact hr.left l hl
      · rw [addV_T_new] at hr'; exact hr.right r hr'
  · refine ⟨fun d hd => ?_, fun u hu => ?_, fun l hl => ?_, fun r hr' => ?_⟩
    · rw [addV_T_old hi hit] at hd
      rw [addV_c_old (hI.downM i hi d hd).1]; exact hr.down d hd
    · rw [addV_T_old hi hit] at hu
      rw [addV_c_old (hI.upM i hi u hu).1]; exact hr.up u hu
    · rw [addV_T_old hi hit] at hl; exact hr.left l hl
    · rw [addV_T_old hi hit] at hr'; exact hr.right r hr'

/-- The state after `add_vertex`. -/
def St.afterV (st : St I K) (vi : I) (c : Coords K) (qp ti : Nat) (tt : Trapezoid) (ns : List (Nexus I K)) : St I K :=
  ⟨ns, st.ss, st.ts.set ti { tt with up := some st.ns.length, sink := st.qs.length } ++
      [{ tt with down := some st.ns.length, sink := st.qs.length + 1 }],
    st.qs.set qp (.branch st.qs.length (st.qs.length + 1) (.Y c)) ++ [.sink ti, .sink st.ts.length]⟩

theorem addVertexAt_eq {st : St I K} {vi : I} {c : Coords K} {qp ti : Nat} {tt : Trapezoid}
    {ns : List (Nexus I K)} (hq : st.qs[qp]? = some (.sink ti)) (ht : st.ts[ti]? = some tt)
    (hns : St.replaceAt (st.ns ++ [Nexus.new vi c st.ts.length ti]) tt.up ti st.ts.length = .ok ns) :
    st.addVertexAt vi c qp ti = .ok (st.afterV vi c qp ti tt ns) := by
  have hlt := lt_of_get ht
  simp only [St.addVertexAt, getP, modP, hq, ht, bind, Except.bind, Trapezoid.setSink,
    Trapezoid.splitHorizontal, St.afterV]
  rw [List.getElem?_set_self hlt]
  simp only [hns, List.set_set]

theorem qs_set_same {qs : List (QueryNode K)} {q0 : Nat} {x : QueryNode K} {ys : List (QueryNode K)} (p : Nat)
    (n : QueryNode K) (hp : p ≠ q0) (h : qs[p]? = some n) : (qs.set q0 x ++ ys)[p]? = some n := by
  have hlt := lt_of_get h
  rw [List.getElem?_append_left (by simpa using hlt), List.getElem?_set_ne (Ne.symm hp), h]

theorem getElem?_set_append {α : Type} {l : List α} {i j : Nat} {x y z : α}
    (h : (l.set i x ++ [y])[j]? = some z) (hi : i < l.length) :
    (j = l.length ∧ z = y) ∨ (j = i ∧ z = x) ∨ (j ≠ i ∧ j < l.length ∧ l[j]? = some z) := by
  by_cases hj : j < l.length
  · rw [List.getElem?_append_left (by simpa using hj)] at h
    by_cases hji : j = i
    · subst hji
      rw [List.getElem?_set_self hj] at h
      exact .inr (.inl ⟨rfl, (Option.some.inj h).symm⟩)
    · rw [List.getElem?_set_ne (Ne.symm hji)] at h
      exact .inr (.inr ⟨hji, hj, h⟩)
  · have hlt := lt_of_get h
    simp at hlt
    have : j = l.length := by omega
    subst this
    rw [List.getElem?_append_right (by simp)] at h
    simp at h
    exact .inl ⟨rfl, h.symm⟩

theorem getElem?_set_append2 {α : Type} {l : List α} {i j : Nat} {x y y' z : α}
    (h : (l.set i x ++ [y, y'])[j]? = some z) (hi : i < l.length) :
    (j = l.length + 1 ∧ z = y') ∨ (j = l.length ∧ z = y) ∨ (j = i ∧ z = x) ∨
      (j ≠ i ∧ j < l.length ∧ l[j]? = some z) := by
  have e : l.set i x ++ [y, y'] = (l.set i x ++ [y]) ++ [y'] := by simp
  by_cases hj : j < l.length + 1
  · rw [e, List.getElem?_append_left (by simpa using hj)] at h
    exact .inr (getElem?_set_append h hi)
  · have hlt := lt_of_get h
    simp at hlt
    have : j = l.length + 1 := by omega
    subst this
    rw [e, List.getElem?_append_right (by simp)] at h
    simp at h
    exact .inl ⟨rfl, h.symm⟩

theorem addVertexAt_run {P : Plane K} {A : Abs K} {st : St I K} {op ex : Nat → Prop} (hI : Inv P A)
    (hL : Link st A A.ups op ex) (hQ : Qry st.qs st.ts A) {vi : I} {v : Coords K} {qp t : Nat} (hv : P.U v)
    (hnew : ∀ n < A.N, A.c n ≠ v)
    (hvi : ∀ (n : Nat) (nx : Nexus I K), st.ns[n]? = some nx → nx.vi ≠ vi)
    (hq : st.qs[qp]? = some (.sink t)) (hr : Region P A t v) :
    ∃ st', st.addVertexAt vi v qp t = .ok st' ∧ Inv P (A.addV v t) ∧
      Link st' (A.addV v t) (A.addV v t).ups op (fun n => ex n ∨ n = A.N) ∧
      Qry st'.qs st'.ts (A.addV v t) ∧
      (∀ w q, P.U w → w ≠ v → Trk P A st.qs (A.addV v t) st'.qs w q 1
        fun z => z.up = some A.N ∨ z.down = some A.N) ∧
      st'.keys = st.keys ++ [(vi, v)] ∧ st'.ss = st.ss := by
  obtain ⟨tt, htt, hts⟩ := hQ.snk' qp t hq
  have ht : t < A.M := hL.lt_M htt
  have htT := hL.tr t tt htt
  have hMN : st.ts.length = A.M := hL.tsL
  have hNN : st.ns.length = A.N := hL.nsL
  have hI' := addV_inv hI hv hnew ht hr
  have hupT : (A.T t).up = tt.up := by rw [htT]
  have hdownT : (A.T t).down = tt.down := by rw [htT]
  -- the new list of nexuses
  have hns : ∃ ns, St.replaceAt (st.ns ++ [Nexus.new vi v st.ts.length t]) tt.up t st.ts.length = .ok ns ∧
      ns.length = A.N + 1 ∧
      (∀ (n : Nat) (nx : Nexus I K), ns[n]? = some nx → (n = A.N ∧ nx = Nexus.new vi v A.M t) ∨
        (n < A.N ∧ tt.up = some n ∧ ∃ nx0, st.ns[n]? = some nx0 ∧ nx = nx0.ren t A.M) ∨
        (n < A.N ∧ tt.up ≠ some n ∧ st.ns[n]? = some nx)) ∧
      ns.map Nexus.key = st.keys ++ [(vi, v)] := by
    rcases hu : tt.up with _ | u
    · refine ⟨_, rfl, by simp [hNN], ?_, by simp [St.keys, Nexus.key, Nexus.new]⟩
      intro n nx hn
      by_cases hlt : n < st.ns.length
      · rw [List.getElem?_append_left hlt] at hn
        exact .inr (.inr ⟨by omega, by simp, hn⟩)
      · have h2 := lt_of_get hn
        simp at h2
        have : n = st.ns.length := by omega
        subst this
        simp at hn
        exact .inl ⟨hNN, by rw [← hn, hMN]⟩
    · have huN := hI.upM t ht u (by rw [hupT, hu])
      obtain ⟨nu, hnu⟩ := hL.ns_get huN.1
      have hNL := hL.nex u nu hnu
      have hlt : u < st.ns.length := by rw [hNN]; exact huN.1
      have hrun : nu.replaceTrapezoid t st.ts.length = .ok (nu.ren t st.ts.length) := by
        refine Nexus.replace_run ?_ ?_
        · rw [hNL.up, hNL.down]; exact hI.rows_nodup huN.1
        · rw [hNL.up, hNL.down]; simp [huN.2]
      refine ⟨(st.ns ++ [Nexus.new vi v st.ts.length t]).set u (nu.ren t st.ts.length), ?_, by simp [hNN], ?_, ?_⟩
      · simp only [St.replaceAt, getP, bind, Except.bind]
        rw [List.getElem?_append_left hlt, hnu]
        simp only [hrun]
      · intro n nx hn
        by_cases hnu' : n = u
        · subst hnu'
          rw [List.getElem?_set_self (by simp; omega)] at hn
          exact .inr (.inl ⟨huN.1, rfl, nu, hnu, by rw [← Option.some.inj hn, hMN]⟩)
        · rw [List.getElem?_set_ne (Ne.symm hnu')] at hn
          by_cases hlt : n < st.ns.length
          · rw [List.getElem?_append_left hlt] at hn
            exact .inr (.inr ⟨by omega, by simp; exact fun h => hnu' h.symm, hn⟩)
          · have h2 := lt_of_get hn
            simp at h2
            have : n = st.ns.length := by omega
            subst this
            simp at hn
            exact .inl ⟨hNN, by rw [← hn, hMN]⟩
      · rw [map_set_same (a := nu) (b := nu.ren t st.ts.length) (by rw [List.getElem?_append_left hlt, hnu]) rfl]
        simp [St.keys, Nexus.key, Nexus.new]
  obtain ⟨ns, hrep, hnsL, hnsG, hkeys⟩ := hns
  have hS : (A.addV v t).S = A.S := rfl
  have hsg : (A.addV v t).sg = A.sg := rfl
  have hmx : (A.addV v t).mx = A.mx := rfl
  have hmn : (A.addV v t).mn = A.mn := rfl
  have hleft : ∀ i < A.M, ((A.addV v t).T i).left = (A.T i).left := by
    intro i hi
    by_cases h : i = t
    · subst h; rw [addV_T_t ht]
    · rw [addV_T_old hi h]
  have hups : ∀ n < A.N, (A.addV v t).ups n = A.ups n := fun n hn => Function.update_of_ne (Nat.ne_of_lt hn) _ _
  have hdowns : ∀ n < A.N, (A.addV v t).downs n = (A.downs n).map (Nexus.rn t A.M) := by
    intro n hn
    simp only [Abs.addV]
    rw [Function.update_of_ne (Nat.ne_of_lt hn)]
    rfl
  have hlow : ∀ n < A.N, ∀ nx : Nexus I K, st.ns[n]? = some nx → ∀ d ∈ nx.dividers.toList, d.tiRight < A.M := by
    intro n hn nx hnx d hd
    have hNL := hL.nex n nx hnx
    rcases hdir : d.dir with _ | _
    · refine (hI.rowU n hn d.tiRight ?_).1
      rw [← hNL.up, Nexus.iter_eq]
      exact List.mem_cons_of_mem _ (List.mem_map_of_mem (Nexus.mem_divs.2 ⟨hd, hdir⟩))
    · refine (hI.rowD n hn d.tiRight ?_).1
      rw [← hNL.down, Nexus.iter_eq]
      exact List.mem_cons_of_mem _ (List.mem_map_of_mem (Nexus.mem_divs.2 ⟨hd, hdir⟩))
  refine ⟨st.afterV vi v qp t tt ns, addVertexAt_eq hq htt hrep, hI', ?_, ?_, ?_, hkeys, rfl⟩
  · -- the link
    refine ⟨hnsL, hL.ssL, ?_, ?_, ?_, ?_, ?_, ?_, ?_⟩
    · show (st.ts.set t _ ++ [_]).length = A.M + 1
      simp [hMN]
    · intro n nx hn
      rcases hnsG n nx hn with ⟨rfl, rfl⟩ | ⟨hlt, hup, nx0, hnx0, rfl⟩ | ⟨hlt, hup, hnx0⟩
      · refine ⟨addV_c_new.symm, ?_, ?_, ?_, ?_, ?_, ?_, ?_, ?_, ?_⟩
        · show [A.M] = Function.update A.ups A.N [A.M] A.N
          rw [Function.update_self]
        · simp only [Abs.addV]
          rw [Function.update_self]; rfl
        · intro d hd; cases hd
        · intro d hd; cases hd
        · intro d hd; cases hd
        · exact List.nodup_nil
        · intro d0 d1 h; cases h
        · intro i hi h
          exact absurd (h ▸ (hI.mxN i hi).1) (Nat.lt_irrefl _)
        · intro i hi h
          exact absurd (h ▸ (hI.mnN i hi).1) (Nat.lt_irrefl _)
      · have hNL := hL.nex n nx0 hnx0
        have hdl : (nx0.ren t A.M).dividers.toList =
            nx0.dividers.toList.map fun d => { d with tiRight := Nexus.rn t A.M d.tiRight } :=
          Nexus.zot_map_toList _ _
        refine ⟨?_, ?_, ?_, ?_, ?_, ?_, ?_, ?_, ?_, ?_⟩
        · rw [addV_c_old hlt]; exact hNL.c
        · rw [Nexus.ren_iter, hNL.up, hups n hlt]
          refine map_rn_of_not_mem fun hm => ?_
          have h1 := (hI.rowU n hlt t hm).2
          exact lt_irrefl _ (hI.ht t ht n n (by rw [hupT, hup]) h1)
        · rw [Nexus.ren_iter, hNL.down, hdowns n hlt]
        · intro d hd
          rw [hdl] at hd
          obtain ⟨d', hd', rfl⟩ := List.mem_map.1 hd
          refine ⟨(hNL.divs d' hd').1, ?_⟩
          have h1 := (hNL.divs d' hd').2
          simp only [Nexus.rn]
          split
          · rename_i h
            rw [addV_T_new]
            rw [h] at h1; exact h1
          · rw [hleft _ (hlow n hlt nx0 hnx0 d' hd')]; exact h1
        · intro d hd
          rw [hdl] at hd
          obtain ⟨d', hd', rfl⟩ := List.mem_map.1 hd
          exact hNL.asc d' hd'
        · intro d hd
          rw [hdl] at hd
          obtain ⟨d', hd', rfl⟩ := List.mem_map.1 hd
          exact hNL.desc d' hd'
        · rw [hdl, List.map_map]; exact hNL.dn
        · intro d0 d1 h
          have hz : (nx0.dividers.map fun d : Divider => { d with tiRight := Nexus.rn t A.M d.tiRight }) = .two d0 d1 := h
          rcases hz0 : nx0.dividers with _ | x | ⟨x, y⟩
          · rw [hz0] at hz; cases hz
          · rw [hz0] at hz; cases hz
          · rw [hz0] at hz; cases hz
            exact hNL.ord x y hz0
        · intro i hi h
          obtain ⟨d, hd, h1, h2⟩ := hNL.hasD i hi h
          exact ⟨{ d with tiRight := Nexus.rn t A.M d.tiRight },
            by rw [hdl]; exact List.mem_map.2 ⟨d, hd, rfl⟩, h1, h2⟩
        · intro i hi h ho
          obtain ⟨d, hd, h1, h2⟩ := hNL.hasA i hi h ho
          exact ⟨{ d with tiRight := Nexus.rn t A.M d.tiRight },
            by rw [hdl]; exact List.mem_map.2 ⟨d, hd, rfl⟩, h1, h2⟩
      · have hNL := hL.nex n nx hnx0
        refine ⟨?_, ?_, ?_, ?_, hNL.asc, hNL.desc, hNL.dn, hNL.ord, hNL.hasD, hNL.hasA⟩
        · rw [addV_c_old hlt]; exact hNL.c
        · rw [hNL.up, hups n hlt]
        · rw [hNL.down, hdowns n hlt]
          refine (map_rn_of_not_mem fun hm => ?_).symm
          exact hup (by rw [← hupT]; exact (hI.rowD n hlt t hm).2)
        · intro d hd
          refine ⟨(hNL.divs d hd).1, ?_⟩
          rw [hleft _ (hlow n hlt nx hnx0 d hd)]; exact (hNL.divs d hd).2
    · intro n nx hn hz
      rcases hnsG n nx hn with ⟨rfl, rfl⟩ | ⟨hlt, hup, nx0, hnx0, rfl⟩ | ⟨hlt, hup, hnx0⟩
      · exact .inr rfl
      · refine .inl (hL.bare n nx0 hnx0 ?_)
        have hz : (nx0.dividers.map fun d : Divider => { d with tiRight := Nexus.rn t A.M d.tiRight }) = .zero := hz
        rcases hz0 : nx0.dividers with _ | x | ⟨x, y⟩
        · rfl
        · rw [hz0] at hz; cases hz
        · rw [hz0] at hz; cases hz
      · exact .inl (hL.bare n nx hnx0 hz)
    · intro i s hs
      obtain ⟨h1, h2, h3, h4⟩ := hL.seg i s hs
      exact ⟨h1, h2, Nat.lt_succ_of_lt h3, by rw [addV_c_old h3]; exact h4⟩
    · intro i x hx
      rcases getElem?_set_append hx (lt_of_get htt) with ⟨rfl, rfl⟩ | ⟨rfl, rfl⟩ | ⟨h1, h2, h3⟩
      · rw [hMN, addV_T_new, htT, hNN]
      · rw [addV_T_t ht, htT, hNN]
      · rw [addV_T_old (by omega) h1]; exact hL.tr i x h3
    · have hold : ∀ (n : Nat) (nx : Nexus I K), ns[n]? = some nx → n = A.N ∧ nx.vi = vi ∨
          ∃ nx0, st.ns[n]? = some nx0 ∧ nx.vi = nx0.vi := by
        intro n nx hn
        rcases hnsG n nx hn with ⟨rfl, rfl⟩ | ⟨hlt, hup, nx0, hnx0, rfl⟩ | ⟨hlt, hup, hnx0⟩
        · exact .inl ⟨rfl, rfl⟩
        · exact .inr ⟨nx0, hnx0, rfl⟩
        · exact .inr ⟨nx, hnx0, rfl⟩
      intro n m nx my hn hm hvv
      rcases hold n nx hn with ⟨rfl, e1⟩ | ⟨nx0, e1, e2⟩ <;> rcases hold m my hm with ⟨rfl, f1⟩ | ⟨my0, f1, f2⟩
      · rfl
      · exact absurd (by rw [← f2, ← hvv, e1]) (hvi m my0 f1)
      · exact absurd (by rw [← e2, hvv, f1]) (hvi n nx0 e1)
      · exact hL.vi n m nx0 my0 e1 f1 (by rw [← e2, ← f2, hvv])
    · intro i hi ho
      have := hL.real i hi ho
      show (A.addV v t).c (A.mn i) = _
      rw [addV_c_old (hI.mnN i hi).1]; exact this
  · -- the query structure
    have hlq := lt_of_get hq
    have hqs1 : (st.afterV vi v qp t tt ns).qs[qp]? =
        some (.branch st.qs.length (st.qs.length + 1) (.Y v)) := by
      show (st.qs.set qp _ ++ _)[qp]? = _
      rw [List.getElem?_append_left (by simpa using hlq), List.getElem?_set_self hlq]
    have hqs2 : (st.afterV vi v qp t tt ns).qs[st.qs.length]? = some (.sink t) := by
      show (st.qs.set qp _ ++ _)[st.qs.length]? = _
      rw [List.getElem?_append_right (by simp)]; simp
    have hqs3 : (st.afterV vi v qp t tt ns).qs[st.qs.length + 1]? = some (.sink st.ts.length) := by
      show (st.qs.set qp _ ++ _)[st.qs.length + 1]? = _
      rw [List.getElem?_append_right (by simp)]; simp
    refine ⟨?_, ?_, ?_, ?_⟩
    · intro i x hx
      rcases getElem?_set_append hx (lt_of_get htt) with ⟨rfl, rfl⟩ | ⟨rfl, rfl⟩ | ⟨h1, h2, h3⟩
      · exact hqs3
      · exact hqs2
      · have := hQ.snk i x h3
        refine qs_set_same _ _ ?_ this
        rintro rfl
        rw [hq] at this; cases this; exact h1 rfl
    · intro q i hqi
      have hl1 : t < st.ts.length := lt_of_get htt
      rcases getElem?_set_append2 hqi hlq with ⟨rfl, e⟩ | ⟨rfl, e⟩ | ⟨rfl, e⟩ | ⟨h1, h2, h3⟩
      · cases e
        refine ⟨{ tt with down := some st.ns.length, sink := st.qs.length + 1 }, ?_, rfl⟩
        show (st.ts.set t _ ++ [_])[st.ts.length]? = _
        rw [List.getElem?_append_right (by simp)]; simp
      · cases e
        refine ⟨{ tt with up := some st.ns.length, sink := st.qs.length }, ?_, rfl⟩
        show (st.ts.set t _ ++ [_])[t]? = _
        rw [List.getElem?_append_left (by simpa using hl1), List.getElem?_set_self hl1]
      · cases e
      · obtain ⟨x, hx, e⟩ := hQ.snk' q i h3
        refine ⟨x, ?_, e⟩
        show (st.ts.set t _ ++ [_])[i]? = _
        rw [List.getElem?_append_left (by simpa using lt_of_get hx), List.getElem?_set_ne, hx]
        rintro rfl
        rw [htt] at hx; cases hx
        exact h1 (by rw [← e, hts])
    · exact hQ.tame.replace (q0 := qp) (fun p n => qs_set_same p n)
        (.branch hqs1 (.sink hqs2) (.sink hqs3))
    · obtain ⟨t0, ht0, hup0⟩ := hQ.top
      by_cases h0 : t0 = t
      · subst h0
        refine ⟨A.M, ht0.replace (q0 := qp) (fun p n => qs_set_same p n) hq
          (fun _ => .branch hqs1 (.sink (by rw [hqs3, hMN]))) (fun h => absurd rfl h)
          (fun h q hq' => hQ.uniq hq' h), ?_⟩
        rw [addV_T_new]; exact hup0
      · refine ⟨t0, ht0.replace (q0 := qp) (fun p n => qs_set_same p n) hq
          (fun h => absurd h h0) (fun _ => rfl) (fun h q hq' => hQ.uniq hq' h), ?_⟩
        have : t0 < A.M := by
          have : ∀ q, Top st.qs q t0 → t0 < A.M := by
            intro q h
            induction h with
            | sink h => obtain ⟨x, hx, -⟩ := hQ.snk' _ _ h; exact hL.lt_M hx
            | branch _ _ ih => exact ih ‹_› ‹_› ‹_›
          exact this 0 ht0
        rw [addV_T_old this h0]; exact hup0
  · -- searches
    intro w q hw hwv
    have hlq := lt_of_get hq
    obtain ⟨r1, r2⟩ := addV_region hI hv ht hw hwv
    refine Trk.split hQ hq (fun p n => qs_set_same p n) (l := st.qs.length) (r := st.qs.length + 1) (br := .Y v)
      (xl := t) (xr := A.M) ?_ ?_ ?_ ?_ (fun _ => rfl) ?_ ?_ ?_
    · show (st.qs.set qp _ ++ _)[qp]? = _
      rw [List.getElem?_append_left (by simpa using hlq), List.getElem?_set_self hlq]
    · show (st.qs.set qp _ ++ _)[st.qs.length]? = _
      rw [List.getElem?_append_right (by simp)]; simp
    · show (st.qs.set qp _ ++ _)[st.qs.length + 1]? = _
      rw [List.getElem?_append_right (by simp)]; simp [hMN]
    · intro hreg
      have hr1 := r1 hreg
      by_cases hh : P.h w < P.h v
      · rw [if_pos hh] at hr1
        have : (Branch.Y v).useLeft w = true := leB_exact.2 (.inr ((P.h_lt hw hv).2 hh))
        rw [if_pos this]; exact hr1
      · rw [if_neg hh] at hr1
        have : ¬ (Branch.Y v).useLeft w = true := by
          intro h
          rcases leB_exact.1 h with h | h
          · exact hwv h
          · exact hh ((P.h_lt hw hv).1 h)
        rw [if_neg this]; exact hr1
    · exact .inl (by rw [addV_T_t ht])
    · exact .inr (by rw [addV_T_new])
    · intro i hi hit hreg
      have hi' : i < A.M := by omega
      exact ⟨r2 i hi' hit hreg, .inl (addV_T_old hi' hit)⟩

end Tri
