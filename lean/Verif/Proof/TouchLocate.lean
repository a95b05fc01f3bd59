import Verif.Proof.TouchRun

/-!
# Regions of the invariant and trapezoids of the specification, with bent edges
-/

set_option linter.unusedSectionVars false

namespace Tri

variable {I V K : Type} [Field K] [LinearOrder K] [IsStrictOrderedRing K] [DecidableEq I]

attribute [local instance] exact

/-- Next to an edge the plane places a point that is not on it as the coordinates do. -/
theorem bent_side {P : Plane K} {ε : K} (hh : P.h = ht ε) {e : Coords K × Coords K} (hE : P.E e) {q : Coords K} (hq : P.U q)
    (hoff : ¬ OnSeg e q) (k1 : P.h e.1 < P.h q) (k2 : P.h q < P.h e.2) :
    (orient e.1 e.2 q < 0 ↔ P.X e q < q.x) ∧ (0 < orient e.1 e.2 q ↔ q.x < P.X e q) := by
  have hlt := P.E_lt hE
  have hb : below e.1 e.2 := (P.h_lt (P.lo_U hE) (P.hi_U hE)).2 hlt
  have hlt' := hlt
  rw [hh] at hlt'
  have h0 : orient e.1 e.2 q ≠ 0 := by
    intro h0
    rw [hh] at k1 k2
    refine hoff (onSeg_Xh k1 k2 (le_antisymm (not_lt.1 fun k => ?_) (not_lt.1 fun k => ?_)))
    · exact ((orient_Xh hlt' q).2 k).ne' h0
    · exact ((orient_Xh_neg hlt' q).2 k).ne h0
  have hfl : ¬ (e.1.y = e.2.y ∧ q.y = e.2.y) := by
    rintro ⟨e1, e2⟩
    apply h0
    unfold orient; rw [e1, e2]; ring
  have hiff := P.left_iff hE hq k1 k2
  rw [isLeft_orient hb hfl] at hiff
  have hX := P.X_ne hE hq k1 k2
  refine ⟨⟨fun k => ?_, fun k => ?_⟩, hiff⟩
  · exact lt_of_le_of_ne (not_lt.1 fun h => lt_asymm k (hiff.2 h)) hX
  · exact lt_of_le_of_ne (not_lt.1 fun h => lt_asymm k (hiff.1 h)) h0

/-- A region is what the trapezoid contains. -/
theorem region_iff_bent {P : Plane K} {A : Abs K} {st : St I K} {iu : Nat → List Nat} {op ex : Nat → Prop} (hI : Inv P A)
    (hL : Link st A iu op ex) {ε : K} (hh : P.h = ht ε) (hmn : ∀ i < A.S, A.c (A.mn i) = (A.sg i).1) {i : Nat} {t : Trapezoid}
    (ht' : st.ts[i]? = some t) {q : Coords K} (hq : P.U q) (hoff : ∀ s < A.S, ¬ OnSeg (A.sg s) q) :
    Region P A i q ↔ Contains st t q := by
  have hi := hL.lt_M ht'
  have hT := hL.tr i t ht'
  have e1 : (A.T i).down = t.down := by rw [hT]
  have e2 : (A.T i).up = t.up := by rw [hT]
  have e3 : (A.T i).left = t.left := by rw [hT]
  have e4 : (A.T i).right = t.right := by rw [hT]
  have hseg : ∀ (s : Nat), s < A.S → ∃ sg, st.ss[s]? = some sg ∧ sg.cMin = (A.sg s).1 ∧ sg.cMax = (A.sg s).2 := by
    intro s hs
    obtain ⟨sg, h⟩ := hL.ss_get hs
    have := (hL.seg s sg h).1
    exact ⟨sg, h, by rw [← this], by rw [← this]⟩
  have hnx : ∀ (n : Nat), n < A.N → ∃ nx, st.ns[n]? = some nx ∧ nx.c = A.c n := by
    intro n hn
    obtain ⟨nx, h⟩ := hL.ns_get hn
    exact ⟨nx, h, (hL.nex n nx h).c⟩
  -- a point between the two levels is beside both sides
  have hside : (∀ d, (A.T i).down = some d → P.h (A.c d) < P.h q) → (∀ u, (A.T i).up = some u → P.h q < P.h (A.c u)) →
      ∀ s, (A.T i).left = some s ∨ (A.T i).right = some s →
        (orient (A.sg s).1 (A.sg s).2 q < 0 ↔ P.X (A.sg s) q < q.x) ∧ (0 < orient (A.sg s).1 (A.sg s).2 q ↔ q.x < P.X (A.sg s) q) := by
    intro hdn hup s hs
    obtain ⟨b1, b2⟩ := hI.bnd i hi (hs.imp (fun h => by rw [h]; simp) (fun h => by rw [h]; simp))
    obtain ⟨u, hu⟩ := Option.ne_none_iff_exists'.1 b1
    obtain ⟨d, hd⟩ := Option.ne_none_iff_exists'.1 b2
    have hS : s < A.S := hs.elim (fun h => hI.leftS i hi s h) (fun h => hI.rightS i hi s h)
    obtain ⟨s1, s2⟩ := hs.elim (fun h => hI.left_span hi h hu hd) (fun h => hI.right_span hi h hu hd)
    rw [hmn s hS] at s1
    exact bent_side hh (hI.sE s hS) hq (hoff s hS) (lt_of_le_of_lt s1 (hdn d hd)) (lt_of_lt_of_le (hup u hu) s2)
  constructor
  · intro h
    have hsd := hside h.down h.up
    refine ⟨fun d hd => ?_, fun u hu => ?_, fun l hl => ?_, fun r hr => ?_⟩
    · rw [← e1] at hd
      obtain ⟨hN, -⟩ := hI.downM i hi d hd
      obtain ⟨nx, h1, h2⟩ := hnx d hN
      refine ⟨nx, h1, ?_⟩
      rw [h2, P.h_lt (hI.cU d hN) hq]; exact h.down d hd
    · rw [← e2] at hu
      obtain ⟨hN, -⟩ := hI.upM i hi u hu
      obtain ⟨nx, h1, h2⟩ := hnx u hN
      refine ⟨nx, h1, ?_⟩
      rw [h2, P.h_lt hq (hI.cU u hN)]; exact h.up u hu
    · rw [← e3] at hl
      obtain ⟨sg, h1, h2, h3⟩ := hseg l (hI.leftS i hi l hl)
      refine ⟨sg, h1, ?_⟩
      rw [h2, h3, (hsd l (.inl hl)).1]
      exact h.left l hl
    · rw [← e4] at hr
      obtain ⟨sg, h1, h2, h3⟩ := hseg r (hI.rightS i hi r hr)
      refine ⟨sg, h1, ?_⟩
      rw [h2, h3, (hsd r (.inr hr)).2]
      exact h.right r hr
  · intro h
    have hdn : ∀ d, (A.T i).down = some d → P.h (A.c d) < P.h q := by
      intro d hd
      obtain ⟨hN, -⟩ := hI.downM i hi d hd
      obtain ⟨nx, h1, h2⟩ := hnx d hN
      rw [e1] at hd
      obtain ⟨nx', h3, h4⟩ := h.above d hd
      rw [h1] at h3; cases h3
      rw [← P.h_lt (hI.cU d hN) hq, ← h2]; exact h4
    have hup : ∀ u, (A.T i).up = some u → P.h q < P.h (A.c u) := by
      intro u hu
      obtain ⟨hN, -⟩ := hI.upM i hi u hu
      obtain ⟨nx, h1, h2⟩ := hnx u hN
      rw [e2] at hu
      obtain ⟨nx', h3, h4⟩ := h.beneath u hu
      rw [h1] at h3; cases h3
      rw [← P.h_lt hq (hI.cU u hN), ← h2]; exact h4
    have hsd := hside hdn hup
    refine ⟨hdn, hup, fun l hl => ?_, fun r hr => ?_⟩
    · obtain ⟨sg, h1, h2, h3⟩ := hseg l (hI.leftS i hi l hl)
      obtain ⟨sg', h4, h5⟩ := h.right_of l (e3 ▸ hl)
      rw [h1] at h4; cases h4
      rw [h2, h3, (hsd l (.inl hl)).1] at h5
      exact h5
    · obtain ⟨sg, h1, h2, h3⟩ := hseg r (hI.rightS i hi r hr)
      obtain ⟨sg', h4, h5⟩ := h.left_of r (e4 ▸ hr)
      rw [h1] at h4; cases h4
      rw [h2, h3, (hsd r (.inr hr)).2] at h5
      exact h5

end Tri
