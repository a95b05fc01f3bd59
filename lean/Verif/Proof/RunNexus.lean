import Verif.Proof.RunQuery
import Verif.Proof.SegGeom

/-!
# Changes of a nexus
-/

set_option linter.unusedSectionVars false

namespace Tri

variable {I V K : Type} [Field K] [LinearOrder K] [IsStrictOrderedRing K]

attribute [local instance] exact

variable {P : Plane K} {A A' : Abs K} {u u' d d' : List Nat} {op op' ex : Nat → Prop} {n : Nat} {nx : Nexus I K}

theorem NexLink.asc_mem (h : NexLink A u d op n nx) {x : Divider} (hx : x ∈ nx.dividers.toList)
    (hd : x.dir = .asc) : x.tiRight ∈ u := by
  rw [← h.up, Nexus.iter_eq]
  exact List.mem_cons_of_mem _ (List.mem_map.2 ⟨x, Nexus.mem_divs.2 ⟨hx, hd⟩, rfl⟩)

theorem NexLink.desc_mem (h : NexLink A u d op n nx) {x : Divider} (hx : x ∈ nx.dividers.toList)
    (hd : x.dir = .desc) : x.tiRight ∈ d := by
  rw [← h.down, Nexus.iter_eq]
  exact List.mem_cons_of_mem _ (List.mem_map.2 ⟨x, Nexus.mem_divs.2 ⟨hx, hd⟩, rfl⟩)

/-- A head of a row is not at the right of a divider. -/
theorem NexLink.head_up (h : NexLink A u d op n nx) {t : Nat} {post : List Nat} (hu : u = t :: post)
    (hnd : (u ++ d).Nodup) {x : Divider} (hx : x ∈ nx.dividers.toList) : x.tiRight ≠ t := by
  rintro rfl
  rw [hu, List.cons_append, List.nodup_cons] at hnd
  rcases hd : x.dir with _ | _
  · have := h.up
    rw [hu, Nexus.iter_eq] at this
    injection this with h1 h2
    refine hnd.1 (List.mem_append_left _ ?_)
    rw [← h2]
    exact List.mem_map.2 ⟨x, Nexus.mem_divs.2 ⟨hx, hd⟩, rfl⟩
  · exact hnd.1 (List.mem_append_right _ (h.desc_mem hx hd))

theorem NexLink.head_down (h : NexLink A u d op n nx) {t : Nat} {post : List Nat} (hu : d = t :: post)
    (hnd : (u ++ d).Nodup) {x : Divider} (hx : x ∈ nx.dividers.toList) : x.tiRight ≠ t := by
  rintro rfl
  have hnd' : (d ++ u).Nodup := List.nodup_append_comm.1 hnd
  rw [hu, List.cons_append, List.nodup_cons] at hnd'
  rcases hd : x.dir with _ | _
  · exact hnd'.1 (List.mem_append_right _ (h.asc_mem hx hd))
  · have := h.down
    rw [hu, Nexus.iter_eq] at this
    injection this with h1 h2
    refine hnd'.1 (List.mem_append_left _ ?_)
    rw [← h2]
    exact List.mem_map.2 ⟨x, Nexus.mem_divs.2 ⟨hx, hd⟩, rfl⟩

/-- The same nexus in another abstract state. -/
theorem NexLink.transfer (h : NexLink A u d op n nx) (hc : A'.c n = A.c n) (hS : A.S ≤ A'.S)
    (hmx : ∀ i < A.S, A'.mx i = A.mx i) (hmn : ∀ i < A.S, ¬ op i → A'.mn i = A.mn i)
    (hop : ∀ i < A.S, (op' i ↔ op i)) (hnew : ∀ i < A'.S, A.S ≤ i → op' i ∧ A'.mx i ≠ n)
    (hleft : ∀ x ∈ nx.dividers.toList, (A'.T x.tiRight).left = (A.T x.tiRight).left) :
    NexLink A' u d op' n nx := by
  refine ⟨h.c.trans hc.symm, h.up, h.down, ?_, ?_, ?_, h.dn, h.ord, ?_, ?_⟩
  · intro x hx
    exact ⟨lt_of_lt_of_le (h.divs x hx).1 hS, by rw [hleft x hx]; exact (h.divs x hx).2⟩
  · intro x hx hd
    have h1 := (h.divs x hx).1
    obtain ⟨h2, h3⟩ := h.asc x hx hd
    exact ⟨by rw [hmn _ h1 h3]; exact h2, fun h' => h3 ((hop _ h1).1 h')⟩
  · intro x hx hd
    rw [hmx _ (h.divs x hx).1]; exact h.desc x hx hd
  · intro i hi hm
    by_cases hS' : i < A.S
    · rw [hmx i hS'] at hm; exact h.hasD i hS' hm
    · exact absurd hm (hnew i hi (not_lt.1 hS')).2
  · intro i hi hm ho
    by_cases hS' : i < A.S
    · have ho' : ¬ op i := fun h' => ho ((hop i hS').2 h')
      rw [hmn i hS' ho'] at hm; exact h.hasA i hS' hm ho'
    · exact absurd (hnew i hi (not_lt.1 hS')).1 ho

/-- The nexus after `replace_trapezoid`. -/
theorem NexLink.ren (h : NexLink A u d op n nx) (x y : Nat)
    (hleft : ∀ z ∈ nx.dividers.toList, z.tiRight = x → (A.T y).left = some z.si) :
    NexLink A (u.map (Nexus.rn x y)) (d.map (Nexus.rn x y)) op n (nx.ren x y) := by
  have hdl : (nx.ren x y).dividers.toList =
      nx.dividers.toList.map fun d => { d with tiRight := Nexus.rn x y d.tiRight } :=
    Nexus.zot_map_toList _ _
  refine ⟨h.c, ?_, ?_, ?_, ?_, ?_, ?_, ?_, ?_, ?_⟩
  · rw [Nexus.ren_iter, h.up]
  · rw [Nexus.ren_iter, h.down]
  · intro z hz
    rw [hdl] at hz
    obtain ⟨z', hz', rfl⟩ := List.mem_map.1 hz
    refine ⟨(h.divs z' hz').1, ?_⟩
    simp only [Nexus.rn]
    split
    · rename_i h'; exact hleft z' hz' h'
    · exact (h.divs z' hz').2
  · intro z hz
    rw [hdl] at hz
    obtain ⟨z', hz', rfl⟩ := List.mem_map.1 hz
    exact h.asc z' hz'
  · intro z hz
    rw [hdl] at hz
    obtain ⟨z', hz', rfl⟩ := List.mem_map.1 hz
    exact h.desc z' hz'
  · rw [hdl, List.map_map]; exact h.dn
  · intro d0 d1 h'
    have hz : (nx.dividers.map fun d : Divider => { d with tiRight := Nexus.rn x y d.tiRight }) = .two d0 d1 := h'
    rcases hz0 : nx.dividers with _ | p | ⟨p, q⟩
    · rw [hz0] at hz; cases hz
    · rw [hz0] at hz; cases hz
    · rw [hz0] at hz; cases hz
      exact h.ord p q hz0
  · intro i hi h'
    obtain ⟨z, hz, h1, h2⟩ := h.hasD i hi h'
    exact ⟨{ z with tiRight := Nexus.rn x y z.tiRight }, by rw [hdl]; exact List.mem_map.2 ⟨z, hz, rfl⟩, h1, h2⟩
  · intro i hi h' ho
    obtain ⟨z, hz, h1, h2⟩ := h.hasA i hi h' ho
    exact ⟨{ z with tiRight := Nexus.rn x y z.tiRight }, by rw [hdl]; exact List.mem_map.2 ⟨z, hz, rfl⟩, h1, h2⟩

theorem ren_zero {x y : Nat} (h : (nx.ren x y).dividers = .zero) : nx.dividers = .zero := by
  have hz : (nx.dividers.map fun d : Divider => { d with tiRight := Nexus.rn x y d.tiRight }) = .zero := h
  rcases hz0 : nx.dividers with _ | p | ⟨p, q⟩
  · rfl
  · rw [hz0] at hz; cases hz
  · rw [hz0] at hz; cases hz

theorem map_rn_split {x y : Nat} {a b : List Nat} (ha : x ∉ a) (hb : x ∉ b) :
    (a ++ x :: b).map (Nexus.rn x y) = a ++ y :: b := by
  rw [List.map_append, List.map_cons, map_rn_of_not_mem ha, map_rn_of_not_mem hb, Nexus.rn, if_pos rfl]

theorem not_mem_split {x : Nat} {a b : List Nat} (h : (a ++ x :: b).Nodup) : x ∉ a ∧ x ∉ b := by
  simp only [List.nodup_append, List.nodup_cons, List.mem_cons] at h
  exact ⟨fun hx => h.2.2 x hx x (.inl rfl) rfl, h.2.1.1⟩

/-- `get_down_trapezoid_in_direction` at a vertex that the segment passes. -/
theorem getDown_pass [DecidableEq I] {st : St I K} {iu : Nat → List Nat} (hL : Link st A iu op ex)
    (hn : st.ns[n]? = some nx) {s : Segment K} (h1 : s.niMin < A.N) (h2 : s.niMax < A.N) (h3 : s.niMin ≠ n)
    (h4 : s.niMax ≠ n) : ∃ t, nx.getDownTrapezoidInDirection st.ns st.ss s = .ok t ∧
      (if isLeftOfLine s.cMin s.cMax (A.c n) = true then (A.downs n).getLast? = some t
        else (A.downs n).head? = some t) := by
  have hNL := hL.nex n nx hn
  rw [← hNL.down, Nexus.iter_eq, ← hNL.c]
  obtain ⟨m1, hm1⟩ := hL.ns_get h1
  obtain ⟨m2, hm2⟩ := hL.ns_get h2
  have v1 : m1.vi ≠ nx.vi := fun e => h3 (hL.vi _ _ _ _ hm1 hn e)
  have v2 : m2.vi ≠ nx.vi := fun e => h4 (hL.vi _ _ _ _ hm2 hn e)
  unfold Nexus.getDownTrapezoidInDirection
  rw [Nexus.filterDividers_last]
  rcases List.eq_nil_or_concat' (nx.divs .desc) with hd | ⟨ds, x, hd⟩
  · rw [hd]
    refine ⟨nx.tiDownleft, rfl, ?_⟩
    simp [Nexus.leftmost]
  · rw [hd]
    simp only [List.getLast?_append, List.getLast?_singleton, Option.some_or, Nexus.downTestCoords, getP, hm1, hm2, bind, Except.bind,
      if_neg v1, if_neg v2]
    by_cases hl : isLeftOfLine s.cMin s.cMax nx.c = true
    · refine ⟨x.tiRight, if_pos hl, ?_⟩
      rw [if_pos hl]
      simp [List.getLast?_cons]
    · refine ⟨nx.tiDownleft, if_neg hl, ?_⟩
      rw [if_neg hl]
      simp [Nexus.leftmost]

/-- A segment incident to a vertex. -/
def Inc (A : Abs K) (n i : Nat) : Prop := i < A.S ∧ (A.c n = (A.sg i).1 ∨ A.c n = (A.sg i).2)

theorem NexLink.inc (h : NexLink A u d op n nx) (hI : Inv P A) (hR : Real A op) {x : Divider}
    (hx : x ∈ nx.dividers.toList) : Inc A n x.si := by
  have hS := (h.divs x hx).1
  refine ⟨hS, ?_⟩
  rcases hd : x.dir with _ | _
  · obtain ⟨h1, h2⟩ := h.asc x hx hd
    have := hR _ hS h2
    rw [h1] at this; exact .inl this
  · have := (hI.mxN _ hS).2
    rw [h.desc x hx hd] at this; exact .inr this

/-- A vertex with an edge that is not a divider has at most one divider. -/
theorem NexLink.not_two (h : NexLink A u d op n nx) (hI : Inv P A) (hR : Real A op) {e : Coords K × Coords K}
    (he : P.E e) (hn : A.c n = e.1 ∨ A.c n = e.2) (hne : ∀ x ∈ nx.dividers.toList, A.sg x.si ≠ e) {d0 d1 : Divider} :
    nx.dividers ≠ .two d0 d1 := by
  intro hz
  have m0 : d0 ∈ nx.dividers.toList := by rw [hz]; simp [Zot.toList]
  have m1 : d1 ∈ nx.dividers.toList := by rw [hz]; simp [Zot.toList]
  have i0 := h.inc hI hR m0
  have i1 := h.inc hI hR m1
  have hd := h.dn
  rw [hz] at hd
  simp [Zot.toList] at hd
  rcases P.deg (hI.sE _ i0.1) (hI.sE _ i1.1) he i0.2 i1.2 hn with h' | h' | h'
  · exact hd (hI.sinj _ i0.1 _ i1.1 h')
  · exact hne d1 m1 h'
  · exact hne d0 m0 h'

end Tri
