import Verif.Proof.Ways
import Verif.Proof.RunPoly

/-!
# Points far to the right

A point to the right of all edges lies in a trapezoid without right side.  A segment that passes between such points
and everything inserted before merges their trapezoids into one, and with them the paths that lead there.
-/

set_option linter.unusedSectionVars false

namespace Tri

variable {I V K : Type} [Field K] [LinearOrder K] [IsStrictOrderedRing K] [DecidableEq I]

attribute [local instance] exact

variable {P : Plane K} {A A' : Abs K} {qs qs' : List (QueryNode K)}

theorem FindsN.ways {v : Coords K} {q q' t k : Nat} (h : FindsN qs v q q' t k) : 1 ≤ Tri.ways qs q' k q := by
  induction h with
  | sink h => rw [Tri.ways, h]; simp
  | @branch q l r q' t k b h _ ih =>
    rw [Tri.ways, h]
    simp only
    split at ih <;> omega

/-- The trapezoid that contains `g` can be reached from the root in at least `m` ways. -/
def Has (P : Plane K) (A : Abs K) (qs : List (QueryNode K)) (g : Coords K) (m : Nat) : Prop :=
  ∃ t q f, t < A.M ∧ Region P A t g ∧ qs[q]? = some (.sink t) ∧ m ≤ ways qs q f 0

/-- Searches for `g` go on to be right. -/
def Moves (P : Plane K) (A : Abs K) (qs : List (QueryNode K)) (A' : Abs K) (qs' : List (QueryNode K)) (g : Coords K) :
    Prop := ∀ q k, Locs P A qs g q k → ∃ k', Locs P A' qs' g q k'

theorem Has.next {st' : St I K} (hq : Qry st'.qs st'.ts A') (hL : st'.ts.length = A'.M) {g : Coords K}
    (hm : Moves P A qs A' st'.qs g) {t q : Nat} (hr : Region P A t g) (hs : qs[q]? = some (.sink t)) :
    ∃ t' q' f', t' < A'.M ∧ Region P A' t' g ∧ st'.qs[q']? = some (.sink t') ∧ 1 ≤ ways st'.qs q' f' q := by
  obtain ⟨k', q', t', h1, h2⟩ := hm q 1 ⟨q, t, .sink hs, hr⟩
  obtain ⟨x, hx, -⟩ := hq.snk' q' t' h1.finds.end_sink
  exact ⟨t', q', k', by rw [← hL]; exact lt_of_get hx, h2, h1.finds.end_sink, h1.ways⟩

/-- The ways to a point do not get fewer. -/
theorem Has.grow {st' : St I K} (hq : Qry st'.qs st'.ts A') (hL : st'.ts.length = A'.M) (hk : Keeps qs st'.qs)
    {g : Coords K} {m : Nat} (h : Has P A qs g m) (hm : Moves P A qs A' st'.qs g) : Has P A' st'.qs g m := by
  obtain ⟨t, q, f, -, h2, h3, h4⟩ := h
  obtain ⟨t', q', f', h5, h6, h7, h8⟩ := Has.next hq hL hm h2 h3
  refine ⟨t', q', f + f', h5, h6, h7, ?_⟩
  have := hk.ways (S := [q]) (by simp) (s' := q') (f' := f') (by simpa using h8) f 0
  simp only [List.map_cons, List.map_nil, List.sum_cons, List.sum_nil, Nat.add_zero] at this
  omega

/-- If three points were in different trapezoids and are in the same one now, their ways add up. -/
theorem Has.merge {st' : St I K} (hq : Qry st'.qs st'.ts A') (hL : st'.ts.length = A'.M) (hk : Keeps qs st'.qs)
    {a b c : Coords K} {m : Nat} (ha : Has P A qs a m) (hb : Has P A qs b m) (hc : Has P A qs c m)
    (hma : Moves P A qs A' st'.qs a) (hmb : Moves P A qs A' st'.qs b) (hmc : Moves P A qs A' st'.qs c)
    (hab : ∀ t < A.M, Region P A t a → ¬ Region P A t b) (hac : ∀ t < A.M, Region P A t a → ¬ Region P A t c)
    (hbc : ∀ t < A.M, Region P A t b → ¬ Region P A t c)
    (hsb : ∀ t < A'.M, ∀ t' < A'.M, Region P A' t a → Region P A' t' b → t = t')
    (hsc : ∀ t < A'.M, ∀ t' < A'.M, Region P A' t a → Region P A' t' c → t = t') :
    Has P A' st'.qs a (3 * m) ∧ Has P A' st'.qs b (3 * m) ∧ Has P A' st'.qs c (3 * m) := by
  obtain ⟨ta, qa, fa, la, ra, sa, wa⟩ := ha
  obtain ⟨tb, qb, fb, lb, rb, sb, wb⟩ := hb
  obtain ⟨tc, qc, fc, lc, rc, sc, wc⟩ := hc
  obtain ⟨t', q', f1, h1, h2, h3, h4⟩ := Has.next hq hL hma ra sa
  obtain ⟨t2, q2, f2, j1, j2, j3, j4⟩ := Has.next hq hL hmb rb sb
  obtain ⟨t3, q3, f3, k1, k2, k3, k4⟩ := Has.next hq hL hmc rc sc
  obtain rfl := hsb t' h1 t2 j1 h2 j2
  obtain rfl := hsc t' h1 t3 k1 h2 k2
  obtain ⟨x, hx, rfl⟩ := hq.snk' q' t' h3
  obtain ⟨y, hy, rfl⟩ := hq.snk' q2 t' j3
  obtain ⟨z, hz, rfl⟩ := hq.snk' q3 t' k3
  rw [hx] at hy hz
  cases hy; cases hz
  have nab : qa ≠ qb := by rintro rfl; rw [sa] at sb; cases sb; exact hab _ la ra rb
  have nac : qa ≠ qc := by rintro rfl; rw [sa] at sc; cases sc; exact hac _ la ra rc
  have nbc : qb ≠ qc := by rintro rfl; rw [sb] at sc; cases sc; exact hbc _ lb rb rc
  suffices 3 * m ≤ ways st'.qs x.sink (fa + fb + fc + (f1 + f2 + f3)) 0 from
    ⟨⟨_, _, _, h1, h2, h3, this⟩, ⟨_, _, _, h1, j2, h3, this⟩, ⟨_, _, _, h1, k2, h3, this⟩⟩
  have := hk.ways (S := [qa, qb, qc]) (by simp [nab, nac, nbc]) (s' := x.sink) (f' := f1 + f2 + f3) (by
    simp only [List.mem_cons, List.not_mem_nil, or_false, forall_eq_or_imp, forall_eq]
    refine ⟨?_, ?_, ?_⟩
    · exact le_trans h4 (ways_mono _ _ (by omega) _)
    · exact le_trans j4 (ways_mono _ _ (by omega) _)
    · exact le_trans k4 (ways_mono _ _ (by omega) _)) (fa + fb + fc) 0
  simp only [List.map_cons, List.map_nil, List.sum_cons, List.sum_nil, Nat.add_zero] at this
  have e1 := ways_mono qs qa (show fa ≤ fa + fb + fc by omega) 0
  have e2 := ways_mono qs qb (show fb ≤ fa + fb + fc by omega) 0
  have e3 := ways_mono qs qc (show fc ≤ fa + fb + fc by omega) 0
  omega

/-- `g` is not left of any edge. -/
def Far (P : Plane K) (A : Abs K) (g : Coords K) : Prop :=
  ∀ i < A.S, P.h (A.sg i).1 < P.h g → P.h g < P.h (A.sg i).2 → P.X (A.sg i) g < g.x

theorem Far.right {g : Coords K} (hd : Done P A) (hg : Far P A g) {t : Nat} (ht : t < A.M) (hr : Region P A t g) :
    (A.T t).right = none := by
  rcases h : (A.T t).right with _ | r
  · rfl
  · obtain ⟨h1, h2, h3⟩ := hd.right_spans ht hr h
    exact absurd (hr.right r h) (hg r h1 h2 h3).le.not_gt

/-- A vertex between two points separates them if it is to the right of all edges that pass it and both points. -/
theorem Far.apart {g g' v : Coords K} (hd : Done P A) (hg : Far P A g) (hv : Verts A v) (h1 : P.h g' < P.h v)
    (h2 : P.h v < P.h g)
    (hl : ∀ i < A.S, P.h (A.sg i).1 < P.h g' → P.h g < P.h (A.sg i).2 → P.X (A.sg i) v < v.x) :
    ∀ t < A.M, Region P A t g → ¬ Region P A t g' := by
  intro t ht hr hr'
  obtain ⟨n, hn, rfl⟩ := hv
  refine hd.inv.empty n hn t ht ⟨fun d hd => lt_trans (hr'.down d hd) h1, fun u hu => lt_trans h2 (hr.up u hu),
    fun l hl' => ?_, fun r h => ?_⟩
  · obtain ⟨e1, e2, e3⟩ := hd.left_spans ht hr hl'
    obtain ⟨-, e4, -⟩ := hd.left_spans ht hr' hl'
    exact hl l e1 e4 e3
  · rw [hg.right hd ht hr] at h; cases h

/-- If all vertices between two points are left of a segment that passes both, the points are in the same trapezoid. -/
theorem Far.same {g g' : Coords K} (hd : Done P A) (hU : P.U g) (hU' : P.U g') (hf : ¬ Verts A g) (hf' : ¬ Verts A g')
    (hg : Far P A g) (hg' : Far P A g') {j : Nat} (hj : j < A.S)
    (l1 : P.h (A.sg j).1 < P.h g) (l2 : P.h g < P.h (A.sg j).2)
    (l3 : P.h (A.sg j).1 < P.h g') (l4 : P.h g' < P.h (A.sg j).2)
    (hv : ∀ v, Verts A v → (P.h g < P.h v ∧ P.h v < P.h g') ∨ (P.h g' < P.h v ∧ P.h v < P.h g) →
      v.x < P.X (A.sg j) v) :
    ∀ t < A.M, ∀ t' < A.M, Region P A t g → Region P A t' g' → t = t' := by
  intro t ht t' ht' hr hr'
  refine hd.inv.disj g' hU' t ht t' ht' ?_ hr'
  have hfn : ∀ n < A.N, A.c n ≠ g := fun n hn e => hf ⟨n, hn, e⟩
  obtain ⟨l, hl, hle⟩ := hd.inv.cell_left hd.sepD hU hfn ht hr (hd.spans.2 ⟨hj, l1, l2⟩) (hg j hj l1 l2)
  obtain ⟨hlS, s1, s2⟩ := hd.left_spans ht hr hl
  -- the left side is not left of the segment at any vertex
  have key : ∀ n < A.N, P.h (A.sg l).1 ≤ P.h (A.c n) → P.h (A.c n) ≤ P.h (A.sg l).2 →
      P.h (A.sg j).1 < P.h (A.c n) → P.h (A.c n) < P.h (A.sg j).2 → (A.c n).x < P.X (A.sg j) (A.c n) →
      ¬ P.X (A.sg l) (A.c n) ≤ (A.c n).x := by
    intro n hn a1 a2 a3 a4 a5 a6
    by_cases hlj : A.sg l = A.sg j
    · rw [hlj] at a6; exact absurd a5 a6.not_gt
    · have hEl := hd.inv.sE l hlS
      have hEj := hd.inv.sE j hj
      have := P.nc hEl hEj hlj (hd.inv.cU n hn) hU a1 a2 a3.le a4.le s1.le s2.le l1.le l2.le (lt_of_le_of_lt a6 a5)
      have he := P.nc_eq hEl hEj hlj hU s1.le s2.le l1.le l2.le (le_antisymm this hle)
      rcases he.1 with e | e
      · rw [← e] at s1; exact absurd s1 (lt_irrefl _)
      · rw [← e] at s2; exact absurd s2 (lt_irrefl _)
  obtain ⟨b1, b2⟩ := hd.inv.bnd t ht (.inl (by rw [hl]; simp))
  obtain ⟨u, hu⟩ := Option.ne_none_iff_exists'.1 b1
  obtain ⟨d, hdn⟩ := Option.ne_none_iff_exists'.1 b2
  have sp := hd.inv.left_span ht hl hu hdn
  rw [hd.real l hlS] at sp
  have hud := hd.inv.ht t ht u d hu hdn
  have huN := (hd.inv.upM t ht u hu).1
  have hdN := (hd.inv.downM t ht d hdn).1
  have hne : ∀ n < A.N, P.h (A.c n) ≠ P.h g' := fun n hn e => hf' ⟨n, hn, P.h_inj (hd.inv.cU n hn) hU' e⟩
  have hdown : P.h (A.c d) < P.h g' := by
    by_contra hc
    have h1 : P.h g' < P.h (A.c d) := lt_of_le_of_ne (not_lt.1 hc) (fun e => hne d hdN e.symm)
    have h2 := hr.down d hdn
    refine key d hdN sp.1 (le_trans hud.le sp.2) (lt_trans l3 h1) (lt_trans h2 l2) (hv _ ⟨d, hdN, rfl⟩ (.inr ⟨h1, h2⟩)) ?_
    rcases hd.inv.left_down ht hl hdn with h | h
    · have e := hd.real l hlS
      rw [h] at e
      rw [e, P.X_lo (hd.inv.sE l hlS)]
    · exact h.2.2.le
  have hup : P.h g' < P.h (A.c u) := by
    by_contra hc
    have h1 : P.h (A.c u) < P.h g' := lt_of_le_of_ne (not_lt.1 hc) (hne u huN)
    have h2 := hr.up u hu
    refine key u huN (le_trans sp.1 hud.le) sp.2 (lt_trans l1 h2) (lt_trans h1 l4) (hv _ ⟨u, huN, rfl⟩ (.inl ⟨h2, h1⟩)) ?_
    rcases hd.inv.left_up ht hl hu with h | h
    · have e := (hd.inv.mxN l hlS).2
      rw [h] at e
      rw [e, P.X_hi (hd.inv.sE l hlS)]
    · exact h.2.2.le
  refine ⟨fun d' h => ?_, fun u' h => ?_, fun l' h => ?_, fun r h => ?_⟩
  · rw [hdn] at h; cases h; exact hdown
  · rw [hu] at h; cases h; exact hup
  · rw [hl] at h; cases h
    exact hg' l hlS (lt_of_le_of_lt sp.1 hdown) (lt_of_lt_of_le hup sp.2)
  · rw [hg.right hd ht hr] at h; cases h

end Tri
