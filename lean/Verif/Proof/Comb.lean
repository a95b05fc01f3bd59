import Verif.Proof.Zigzag
import Verif.Spec.Comb
import Mathlib.Data.Finset.Card
import Mathlib.Data.Finset.Image
import Mathlib.Data.Fintype.Basic

/-!
# A segment that cuts many trapezoids

Each trapezoid that a new segment cuts turns its sink into a branch.  The strokes of a comb polygon cut one trapezoid for each
step of the stairs.
-/

set_option linter.unusedSectionVars false

namespace Tri

section
variable {I V K : Type} [Field K] [LinearOrder K] [IsStrictOrderedRing K] [DecidableEq I]

attribute [local instance] exact

variable {P : Plane K} {A A' : Abs K} {p : PolyList I V} {xy : V → Coords K} {vs : List (I × Coords K)}

/-- Node `q` is a branch. -/
def IsBranch (qs : List (QueryNode K)) (q : Nat) : Prop := ∃ l r b, qs[q]? = some (.branch l r b)

theorem IsBranch.keep {qs qs' : List (QueryNode K)} {q : Nat} (h : IsBranch qs q) (hk : Keeps qs qs') : IsBranch qs' q := by
  obtain ⟨l, r, b, h⟩ := h
  exact ⟨l, r, b, hk _ _ _ _ h⟩

/-- Two points with no vertex and no edge between them are in the same trapezoid. -/
theorem Region.slide {a b : Coords K} (hd : Done P A) (hv : ∀ v, Verts A v → (P.h v < P.h a ↔ P.h v < P.h b) ∧ (P.h a < P.h v ↔ P.h b < P.h v))
    (hl : ∀ i < A.S, P.h (A.sg i).1 < P.h a → P.h a < P.h (A.sg i).2 → P.X (A.sg i) a < a.x → P.X (A.sg i) b < b.x)
    (hr : ∀ i < A.S, P.h (A.sg i).1 < P.h a → P.h a < P.h (A.sg i).2 → a.x < P.X (A.sg i) a → b.x < P.X (A.sg i) b)
    {t : Nat} (ht : t < A.M) (h : Region P A t a) : Region P A t b := by
  refine ⟨fun d e => ?_, fun u e => ?_, fun l e => ?_, fun r e => ?_⟩
  · exact (hv _ ⟨d, (hd.inv.downM t ht d e).1, rfl⟩).1.1 (h.down d e)
  · exact (hv _ ⟨u, (hd.inv.upM t ht u e).1, rfl⟩).2.1 (h.up u e)
  · obtain ⟨h1, h2, h3⟩ := hd.left_spans ht h e
    exact hl l h1 h2 h3 (h.left l e)
  · obtain ⟨h1, h2, h3⟩ := hd.right_spans ht h e
    exact hr r h1 h2 h3 (h.right r e)

/-- A vertex between two points separates them if it is on the same side as the points of all edges that pass. -/
theorem Region.apart {a b v : Coords K} (hd : Done P A) (hv : Verts A v) (h1 : P.h b < P.h v) (h2 : P.h v < P.h a)
    (hl : ∀ i < A.S, P.h (A.sg i).1 < P.h b → P.h a < P.h (A.sg i).2 → P.X (A.sg i) a < a.x → P.X (A.sg i) v < v.x)
    (hr : ∀ i < A.S, P.h (A.sg i).1 < P.h b → P.h a < P.h (A.sg i).2 → a.x < P.X (A.sg i) a → v.x < P.X (A.sg i) v) :
    ∀ t < A.M, Region P A t a → ¬ Region P A t b := by
  intro t ht ha hb
  obtain ⟨n, hn, rfl⟩ := hv
  refine hd.inv.empty n hn t ht ⟨fun d hd => lt_trans (hb.down d hd) h1, fun u hu => lt_trans h2 (ha.up u hu), fun l e => ?_, fun r e => ?_⟩
  · obtain ⟨e1, -, e3⟩ := hd.left_spans ht ha e
    obtain ⟨-, e4, -⟩ := hd.left_spans ht hb e
    exact hl l e1 e4 e3 (ha.left l e)
  · obtain ⟨e1, -, e3⟩ := hd.right_spans ht ha e
    obtain ⟨-, e4, -⟩ := hd.right_spans ht hb e
    exact hr r e1 e4 e3 (ha.right r e)

/-- An edge between two points separates them. -/
theorem Region.cut {a b : Coords K} (hd : Done P A) (hU : P.U a) (hU' : P.U b) (hf : ¬ Verts A b) {j : Nat} (hj : j < A.S)
    (l1 : P.h (A.sg j).1 < P.h a) (l2 : P.h a < P.h (A.sg j).2) (l3 : P.h (A.sg j).1 < P.h b) (l4 : P.h b < P.h (A.sg j).2)
    (ha : a.x < P.X (A.sg j) a) (hb : P.X (A.sg j) b < b.x) : ∀ t < A.M, Region P A t a → ¬ Region P A t b := by
  intro t ht hr hr'
  obtain ⟨l, hl, hle⟩ := hd.inv.cell_left hd.sepD hU' (fun n hn e => hf ⟨n, hn, e⟩) ht hr' (hd.spans.2 ⟨hj, l3, l4⟩) hb
  obtain ⟨hlS, s1, s2⟩ := hd.left_spans ht hr hl
  obtain ⟨-, s3, s4⟩ := hd.left_spans ht hr' hl
  have hla := hr.left l hl
  by_cases hlj : A.sg l = A.sg j
  · rw [hlj] at hla; exact absurd ha hla.not_gt
  · have hEl := hd.inv.sE l hlS
    have hEj := hd.inv.sE j hj
    have := P.nc hEl hEj hlj hU hU' s1.le s2.le l1.le l2.le s3.le s4.le l3.le l4.le (hla.trans ha)
    rcases (P.nc_eq hEl hEj hlj hU' s3.le s4.le l3.le l4.le (le_antisymm this hle)).1 with e | e
    · rw [← e] at s3; exact absurd s3 (lt_irrefl _)
    · rw [← e] at s4; exact absurd s4 (lt_irrefl _)

/-- If `m` pairs of points are in `m` trapezoids before a side and each pair is separated afterwards, `m` sinks are branches now. -/
theorem Stage.cut {done done' : List Nat} {l l' : St.PolyLoop I K} (h : Stage P p xy vs done A l) (h' : Stage P p xy vs done' A' l')
    (hm : ∀ w, P.U w → A'.Fresh w → Moves P A l.st.qs A' l'.st.qs w) (m : Nat) (a b : Nat → Coords K)
    (ha : ∀ i < m, P.U (a i) ∧ ∀ v ∈ vs, v.2 ≠ a i) (hb : ∀ i < m, P.U (b i) ∧ ∀ v ∈ vs, v.2 ≠ b i)
    (hs : ∀ i < m, ∀ t < A.M, Region P A t (a i) → Region P A t (b i))
    (hd : ∀ i < m, ∀ j < m, i < j → ∀ t < A.M, Region P A t (a j) → ¬ Region P A t (a i))
    (hc : ∀ i < m, ∀ t < A'.M, Region P A' t (a i) → ¬ Region P A' t (b i)) :
    ∃ D : Finset Nat, D.card = m ∧ ∀ q ∈ D, ¬ IsBranch l.st.qs q ∧ IsBranch l'.st.qs q := by
  have key : ∀ i : Fin m, ∃ q t, t < A.M ∧ l.st.qs[q]? = some (.sink t) ∧ Region P A t (a i) ∧ IsBranch l'.st.qs q := by
    intro i
    obtain ⟨q, t, h1, h2⟩ := h.run.glob.root _ (ha i i.2).1 (h.fresh (ha i i.2).2)
    have hq := h1.end_sink
    obtain ⟨x, hx, -⟩ := h.run.glob.qry.snk' q t hq
    have ht : t < A.M := by rw [← h.run.glob.link.tsL]; exact lt_of_get hx
    refine ⟨q, t, ht, hq, h2, ?_⟩
    obtain ⟨k1, q1, t1, f1, r1⟩ := hm _ (ha i i.2).1 (h'.fresh (ha i i.2).2) q 1 ⟨q, t, .sink hq, h2⟩
    obtain ⟨k2, q2, t2, f2, r2⟩ := hm _ (hb i i.2).1 (h'.fresh (hb i i.2).2) q 1 ⟨q, t, .sink hq, hs i i.2 t ht h2⟩
    cases f1 with
    | branch e _ => exact ⟨_, _, _, e⟩
    | sink e =>
      cases f2 with
      | branch e' _ => exact ⟨_, _, _, e'⟩
      | sink e' =>
        rw [e] at e'; cases e'
        obtain ⟨y, hy, -⟩ := h'.run.glob.qry.snk' q t1 e
        exact absurd r2 (hc i i.2 t1 (by rw [← h'.run.glob.link.tsL]; exact lt_of_get hy) r1)
  choose f t h1 h2 h3 h4 using key
  have hinj : Function.Injective f := by
    intro i j e
    have ht : t i = t j := by
      have a1 := h2 i; have a2 := h2 j
      rw [e, a2] at a1; exact (QueryNode.sink.inj (Option.some.inj a1)).symm
    rcases lt_trichotomy i j with hlt | rfl | hlt
    · exact absurd (ht ▸ h3 i) (hd i i.2 j j.2 hlt _ (h1 j) (h3 j))
    · rfl
    · exact absurd (ht ▸ h3 j) (hd j j.2 i i.2 hlt _ (h1 i) (h3 i))
  refine ⟨Finset.univ.image f, by rw [Finset.card_image_of_injective _ hinj, Finset.card_univ, Fintype.card_fin], ?_⟩
  intro q hq
  obtain ⟨i, -, rfl⟩ := Finset.mem_image.1 hq
  refine ⟨?_, h4 i⟩
  rintro ⟨_, _, _, e⟩
  rw [h2 i] at e; cases e

/-- Branches and sinks are different nodes. -/
theorem Stage.count {done : List Nat} {l : St.PolyLoop I K} (h : Stage P p xy vs done A l) {B : Finset Nat}
    (hB : ∀ q ∈ B, IsBranch l.st.qs q) : B.card + l.st.ts.length ≤ l.st.qs.length := by
  let g : Fin l.st.ts.length → Nat := fun i => (l.st.ts[i]).sink
  have hg : ∀ i, l.st.qs[g i]? = some (.sink i.1) := fun i => h.run.glob.qry.snk i _ (List.getElem?_eq_getElem i.2)
  have hinj : Function.Injective g := by
    intro i j e
    have h1 := hg i
    rw [e, hg j] at h1
    exact Fin.ext (QueryNode.sink.inj (Option.some.inj h1)).symm
  have hdis : Disjoint B (Finset.univ.image g) := by
    rw [Finset.disjoint_left]
    intro q hq hc
    obtain ⟨i, -, rfl⟩ := Finset.mem_image.1 hc
    obtain ⟨_, _, _, e⟩ := hB _ hq
    rw [hg i] at e; cases e
  have hsub : B ∪ Finset.univ.image g ⊆ Finset.range l.st.qs.length := by
    intro q hq
    rw [Finset.mem_range]
    rcases Finset.mem_union.1 hq with hq | hq
    · obtain ⟨_, _, _, e⟩ := hB _ hq
      exact lt_of_get e
    · obtain ⟨i, -, rfl⟩ := Finset.mem_image.1 hq
      exact lt_of_get (hg i)
  have := Finset.card_le_card hsub
  rwa [Finset.card_union_of_disjoint hdis, Finset.card_image_of_injective _ hinj, Finset.card_univ, Fintype.card_fin,
    Finset.card_range] at this

/-- The whole trapezoidation of one polygon, from the loop over its sides. -/
theorem trapezoidize_one {g : List (Coords K)} (h3 : 3 ≤ g.length) (cfg : Cfg) (fuel : Nat) {l : St.PolyLoop Nat K}
    (h : (cfg.order 0 g.length).foldlM (St.polyStep cfg fuel (PolyList.single g) id) (St.PolyLoop.start cfg.mathN (indexed g)) = .ok l) :
    trapezoidize cfg fuel (PolyList.single g) id = .ok l.st := by
  have hd := describes_single g (id : Coords K → Coords K) (by rintro rfl; simp at h3)
  rw [List.map_id] at hd
  obtain ⟨es, hes, hpoly⟩ := hd.elems
  have h1 := runElems_polygons cfg fuel (PolyList.single g) id es [] St.init 0
  rw [← polygonsOf.eq_1, hpoly] at h1
  have hl : (startLocs (indexed g)).length = g.length := by simp [startLocs, indexed]
  have hadd : St.addPolygon cfg fuel (PolyList.single g) id 0 St.init (startLocs (indexed g)) = .ok l.st := by
    unfold St.addPolygon
    rw [hl]
    rw [St.PolyLoop.start, show (indexed g).length = g.length by simp [indexed]] at h
    simp only [bind, Except.bind, h]
  have hmap : (elemsOf ([indexed g].map (List.map Prod.fst))).map some =
      ((indexed g).map Prod.fst).map (fun i => some (.cont i)) ++ [some .newPolygon] := by
    simp [elemsOf, Function.comp_def]
  have hsrc : ∀ v ∈ indexed g, (PolyList.single g).coords (ε := TrapErr) id v.1 = .ok v.2 :=
    fun v hv => coords_of_get (hd.coords _ (by simp) v hv)
  have hstep : St.buildStep cfg fuel (PolyList.single g) id ⟨St.init, [] ++ startLocs (indexed g), 0⟩
      (some .newPolygon) = .ok ⟨l.st, [], 1⟩ := by
    simp only [St.buildStep, List.nil_append, hl, show g.length > 0 by omega, if_true,
      show ¬ g.length < 3 by omega, if_false, hadd, Res.mapErr, bind, Except.bind]
  rw [trapezoidize_eq, hes]
  simp only [List.map_nil, List.nil_append] at h1
  rw [h1, hmap, runElems_append, runElems_read cfg fuel hsrc]
  simp only [Except.bind, runElems_cons, hstep]
  rfl

end

/-! ### The comb polygons -/

theorem comb_length (k m : Nat) : (combPoly k m).length = 2 * k + m + 2 := by simp [combPoly]

theorem combP_x (k m j : Nat) : (combP k m j).x = j := rfl

theorem combP_int (k m j : Nat) : ∃ z : ℤ, (combP k m j).y = z := by
  simp only [combP]
  split
  · exact ⟨-2, by norm_num⟩
  · split
    · exact ⟨((j - 2 * k : Nat) : ℤ), by push_cast; rfl⟩
    · split
      · exact ⟨(m : ℤ) + 1, by push_cast; rfl⟩
      · exact ⟨-1, by norm_num⟩

theorem combP_first (k m : Nat) : (combP k m 0).y = -2 := by simp [combP]

theorem combP_last (k m : Nat) : (combP k m (2 * k + m + 1)).y = -2 := by simp [combP]

theorem combP_stair {k m i : Nat} (hk : 1 ≤ k) (hi : i ≤ m) : (combP k m (2 * k + i)).y = i := by
  have h1 : ¬ (2 * k + i = 0 ∨ 2 * k + i = 2 * k + m + 1) := by omega
  simp only [combP, if_neg h1, if_pos (show 2 * k ≤ 2 * k + i by omega), show 2 * k + i - 2 * k = i by omega]

theorem combP_top {k m j : Nat} (hj : j < 2 * k) (h : j % 2 = 1) : (combP k m j).y = m + 1 := by
  have h1 : ¬ (j = 0 ∨ j = 2 * k + m + 1) := by omega
  simp only [combP, if_neg h1, if_neg (show ¬ 2 * k ≤ j by omega), if_pos h]

theorem combP_bottom {k m j : Nat} (hj : j ≤ 2 * k) (h : j % 2 = 0) : (combP k m j).y ≤ 0 := by
  simp only [combP]
  split
  · norm_num
  · split
    · next h2 => rw [show j - 2 * k = 0 by omega]; norm_num
    · rw [if_neg (by omega)]; norm_num

theorem combP_above {k m j : Nat} (h0 : 0 < j) (hj : j < 2 * k + m + 1) : (-2 : ℚ) < (combP k m j).y := by
  have h1 : ¬ (j = 0 ∨ j = 2 * k + m + 1) := by omega
  simp only [combP, if_neg h1]
  split
  · have : (0 : ℚ) ≤ ((j - 2 * k : Nat) : ℚ) := Nat.cast_nonneg _
    linarith
  · split
    · have : (0 : ℚ) ≤ (m : ℚ) := Nat.cast_nonneg _
      linarith
    · norm_num

theorem comb_split (k m : Nat) : (combPoly k m).map quarterTurn =
    quarterTurn (combP k m 0) :: ((List.range (2 * k + m)).map fun j => quarterTurn (combP k m (j + 1))) ++
      [quarterTurn (combP k m (2 * k + m + 1))] := by
  simp only [combPoly, List.map_map, List.range_succ (n := 2 * k + m + 1), List.range_succ_eq_map (n := 2 * k + m), List.map_append, List.map_cons,
    List.map_nil, Function.comp_def]

theorem comb_valid {k m : Nat} (hk : 1 ≤ k) : ValidPolys [combPoly k m] := by
  refine ValidPolys.of_turn ?_
  have hd : ((combPoly k m).map quarterTurn).Pairwise fun a b => b.y < a.y := by
    rw [combPoly, List.map_map]
    refine List.pairwise_map.2 (List.pairwise_lt_range.imp fun {i j} h => ?_)
    simpa [quarterTurn, combP_x] using h
  rw [comb_split] at hd ⊢
  refine descending_valid (fun h => ?_) hd fun v hv => ?_
  · have := congrArg List.length h
    simp at this
    omega
  · obtain ⟨j, hj, rfl⟩ := List.mem_map.1 hv
    have h1 := combP_above (k := k) (m := m) (j := j + 1) (by omega) (by have := List.mem_range.1 hj; omega)
    have h2 := combP_first k m
    have h3 := combP_last k m
    simp only [orient, quarterTurn, combP_x, h2, h3]
    have : (0 : ℚ) ≤ k := Nat.cast_nonneg k
    have : (0 : ℚ) ≤ m := Nat.cast_nonneg m
    push_cast
    nlinarith

theorem Xh_lt_of_le {ε H B : ℚ} {e : Coords ℚ × Coords ℚ} (h1 : ht ε e.1 < H) (h2 : H < ht ε e.2) (b1 : e.1.x ≤ B)
    (b2 : e.2.x ≤ B) (hne : e.1.x ≠ e.2.x) : Xh ε e H < B := by
  have h3 : 0 < ht ε e.2 - ht ε e.1 := sub_pos.2 (h1.trans h2)
  have e1 : Xh ε e H = (1 - (H - ht ε e.1) / (ht ε e.2 - ht ε e.1)) * e.1.x + (H - ht ε e.1) / (ht ε e.2 - ht ε e.1) * e.2.x := by rw [Xh]; ring
  have t0 : 0 < (H - ht ε e.1) / (ht ε e.2 - ht ε e.1) := div_pos (sub_pos.2 h1) h3
  have t1 : (H - ht ε e.1) / (ht ε e.2 - ht ε e.1) < 1 := (div_lt_one h3).2 (sub_lt_sub_right h2 _)
  generalize (H - ht ε e.1) / (ht ε e.2 - ht ε e.1) = t at e1 t0 t1
  rw [e1]
  rcases lt_or_gt_of_ne hne with h | h
  · nlinarith [mul_lt_mul_of_pos_left (lt_of_lt_of_le h b2) (sub_pos.2 t1), mul_le_mul_of_nonneg_left b2 t0.le]
  · nlinarith [mul_lt_mul_of_pos_left (lt_of_lt_of_le h b1) t0, mul_le_mul_of_nonneg_left b1 (sub_pos.2 t1).le]

theorem lt_Xh_of_le {ε H B : ℚ} {e : Coords ℚ × Coords ℚ} (h1 : ht ε e.1 < H) (h2 : H < ht ε e.2) (b1 : B ≤ e.1.x)
    (b2 : B ≤ e.2.x) (hne : e.1.x ≠ e.2.x) : B < Xh ε e H := by
  have h3 : 0 < ht ε e.2 - ht ε e.1 := sub_pos.2 (h1.trans h2)
  have e1 : Xh ε e H = (1 - (H - ht ε e.1) / (ht ε e.2 - ht ε e.1)) * e.1.x + (H - ht ε e.1) / (ht ε e.2 - ht ε e.1) * e.2.x := by rw [Xh]; ring
  have t0 : 0 < (H - ht ε e.1) / (ht ε e.2 - ht ε e.1) := div_pos (sub_pos.2 h1) h3
  have t1 : (H - ht ε e.1) / (ht ε e.2 - ht ε e.1) < 1 := (div_lt_one h3).2 (sub_lt_sub_right h2 _)
  generalize (H - ht ε e.1) / (ht ε e.2 - ht ε e.1) = t at e1 t0 t1
  rw [e1]
  rcases lt_or_gt_of_ne hne with h | h
  · nlinarith [mul_lt_mul_of_pos_left (lt_of_le_of_lt b1 h) t0, mul_le_mul_of_nonneg_left b1 (sub_pos.2 t1).le]
  · nlinarith [mul_lt_mul_of_pos_left (lt_of_le_of_lt b2 h) (sub_pos.2 t1), mul_le_mul_of_nonneg_left b2 t0.le]

/-- The point left of stroke `s` at the height of step `i`. -/
def combG (s i : Nat) : Coords ℚ := ⟨s, i + 1 / 2⟩

theorem int_ne_half (z : ℤ) (i : Nat) : (z : ℚ) ≠ i + 1 / 2 := by
  intro h
  have h2 : ((2 * z : ℤ) : ℚ) = ((2 * i + 1 : ℤ) : ℚ) := by push_cast; linarith
  have h3 : (2 * z : ℤ) = 2 * i + 1 := by exact_mod_cast h2
  omega

section
attribute [local instance] exact

/-- The plane of a comb polygon. -/
structure CombCtx (k m : Nat) (P : Plane ℚ) (p : PolyList Nat (Coords ℚ)) (xy : Coords ℚ → Coords ℚ) : Prop where
  ctx : PolyCtx P p xy (indexed (combPoly k m))
  lt : ∀ {e : Coords ℚ × Coords ℚ} {v : Coords ℚ} {B : ℚ}, P.h e.1 < P.h v → P.h v < P.h e.2 → e.1.x ≤ B → e.2.x ≤ B → e.1.x ≠ e.2.x → P.X e v < B
  gt : ∀ {e : Coords ℚ × Coords ℚ} {v : Coords ℚ} {B : ℚ}, P.h e.1 < P.h v → P.h v < P.h e.2 → B ≤ e.1.x → B ≤ e.2.x → e.1.x ≠ e.2.x → B < P.X e v
  U : ∀ s ≤ 2 * k, ∀ i < m, P.U (combG s i)

theorem comb_get {k m j : Nat} {v : Nat × Coords ℚ} (h : (indexed (combPoly k m))[j]? = some v) : v.2 = combP k m j ∧ j < 2 * k + m + 2 := by
  have h1 : ((indexed (combPoly k m)).map Prod.snd)[j]? = some v.2 := by rw [List.getElem?_map, h]; rfl
  rw [indexed_snd, combPoly, List.getElem?_map, Option.map_eq_some_iff] at h1
  obtain ⟨i, hi, h2⟩ := h1
  obtain ⟨hl, rfl⟩ := List.getElem?_eq_some_iff.1 hi
  rw [List.getElem_range] at h2
  exact ⟨h2.symm, by simpa using hl⟩

theorem combG_ne {k m s i : Nat} : ∀ v ∈ indexed (combPoly k m), v.2 ≠ combG s i := by
  intro v hv he
  obtain ⟨j, hj⟩ := List.mem_iff_getElem?.1 hv
  obtain ⟨z, hz⟩ := combP_int k m j
  rw [(comb_get hj).1] at he
  rw [he] at hz
  exact int_ne_half z i hz.symm

/-- A side that is not the last one. -/
theorem comb_side {k m j : Nat} {e : Coords ℚ × Coords ℚ} (hj : j < 2 * k + m + 1) (h : SideIs (indexed (combPoly k m)) j e) :
    e = edgeC (combP k m j) (combP k m (j + 1)) := by
  obtain ⟨a, b, h1, h2, rfl⟩ := h
  rw [indexed_length, comb_length, Nat.mod_eq_of_lt (by omega)] at h2
  rw [(comb_get h1).1, (comb_get h2).1]

theorem comb_closing {k m : Nat} {e : Coords ℚ × Coords ℚ} (h : SideIs (indexed (combPoly k m)) (2 * k + m + 1) e) :
    e.1.y = -2 ∧ e.2.y = -2 := by
  obtain ⟨a, b, h1, h2, rfl⟩ := h
  rw [indexed_length, comb_length, Nat.mod_self] at h2
  rw [(comb_get h1).1, (comb_get h2).1]
  rcases edgeC_cases (combP k m (2 * k + m + 1)) (combP k m 0) with h | h <;> rw [h]
  · exact ⟨combP_last k m, combP_first k m⟩
  · exact ⟨combP_first k m, combP_last k m⟩

theorem comb_hasSide {k m j : Nat} (hj : j < 2 * k + m + 1) : SideIs (indexed (combPoly k m)) j (edgeC (combP k m j) (combP k m (j + 1))) := by
  have hl : (indexed (combPoly k m)).length = 2 * k + m + 2 := by rw [indexed_length, comb_length]
  have l1 : j < (indexed (combPoly k m)).length := by omega
  have l2 : (j + 1) % (indexed (combPoly k m)).length < (indexed (combPoly k m)).length := Nat.mod_lt _ (by omega)
  have e : SideIs (indexed (combPoly k m)) j _ := ⟨_, _, List.getElem?_eq_getElem l1, List.getElem?_eq_getElem l2, rfl⟩
  rwa [comb_side hj e] at e

variable {k m : Nat} {P : Plane ℚ} {p : PolyList Nat (Coords ℚ)} {xy : Coords ℚ → Coords ℚ} {A : Abs ℚ} {l : St.PolyLoop Nat ℚ}

theorem CombCtx.PU (hz : CombCtx k m P p xy) {j : Nat} (hj : j < 2 * k + m + 2) : P.U (combP k m j) := by
  have hl : j < (indexed (combPoly k m)).length := by rw [indexed_length, comb_length]; exact hj
  have := hz.ctx.U _ (List.getElem_mem hl)
  rwa [(comb_get (List.getElem?_eq_getElem hl)).1] at this

/-- Vertices and points have different heights. -/
theorem CombCtx.below (hz : CombCtx k m P p xy) {j s i : Nat} (hj : j < 2 * k + m + 2) (hs : s ≤ 2 * k) (hi : i < m) :
    (P.h (combP k m j) < P.h (combG s i) ↔ (combP k m j).y < i + 1 / 2) ∧
      (P.h (combG s i) < P.h (combP k m j) ↔ i + 1 / 2 < (combP k m j).y) := by
  obtain ⟨z, e⟩ := combP_int k m j
  have hne : (combP k m j).y ≠ i + 1 / 2 := by rw [e]; exact int_ne_half z i
  rw [← P.h_lt (hz.PU hj) (hz.U s hs i hi), ← P.h_lt (hz.U s hs i hi) (hz.PU hj)]
  exact ⟨⟨fun h => h.elim id fun h => absurd h.1 hne, .inl⟩, ⟨fun h => h.elim id fun h => absurd h.1.symm hne, .inl⟩⟩

theorem edgeC_x {j : Nat} {e : Coords ℚ × Coords ℚ} (h : e = edgeC (combP k m j) (combP k m (j + 1))) :
    (e.1.x = j ∧ e.2.x = j + 1) ∨ (e.1.x = j + 1 ∧ e.2.x = j) := by
  rcases edgeC_cases (combP k m j) (combP k m (j + 1)) with h' | h' <;> rw [h, h']
  · exact .inl ⟨rfl, by simp [combP_x]⟩
  · exact .inr ⟨by simp [combP_x], rfl⟩

theorem CombCtx.left (hz : CombCtx k m P p xy) {j : Nat} {e : Coords ℚ × Coords ℚ} (h : e = edgeC (combP k m j) (combP k m (j + 1)))
    {v : Coords ℚ} (h1 : P.h e.1 < P.h v) (h2 : P.h v < P.h e.2) {B : Nat} (hB : j + 1 ≤ B) : P.X e v < B := by
  have hB' : (j : ℚ) + 1 ≤ B := by exact_mod_cast hB
  rcases edgeC_x h with ⟨a, b⟩ | ⟨a, b⟩
  · exact hz.lt h1 h2 (by rw [a]; linarith) (by rw [b]; linarith) (by rw [a, b]; simp)
  · exact hz.lt h1 h2 (by rw [a]; linarith) (by rw [b]; linarith) (by rw [a, b]; simp)

theorem CombCtx.right (hz : CombCtx k m P p xy) {j : Nat} {e : Coords ℚ × Coords ℚ} (h : e = edgeC (combP k m j) (combP k m (j + 1)))
    {v : Coords ℚ} (h1 : P.h e.1 < P.h v) (h2 : P.h v < P.h e.2) {B : Nat} (hB : B ≤ j) : (B : ℚ) < P.X e v := by
  have hB' : (B : ℚ) ≤ j := by exact_mod_cast hB
  rcases edgeC_x h with ⟨a, b⟩ | ⟨a, b⟩
  · exact hz.gt h1 h2 (by rw [a]; linarith) (by rw [b]; linarith) (by rw [a, b]; simp)
  · exact hz.gt h1 h2 (by rw [a]; linarith) (by rw [b]; linarith) (by rw [a, b]; simp)

/-- The stairs, and the first `s` strokes. -/
def combDone (k m s : Nat) : List Nat := (List.range (m + 2)).map (2 * k + ·) ++ List.range s

theorem mem_combDone {s j : Nat} : j ∈ combDone k m s ↔ (2 * k ≤ j ∧ j < 2 * k + m + 2) ∨ j < s := by
  simp only [combDone, List.mem_append, List.mem_map, List.mem_range]
  refine or_congr ⟨?_, fun h => ⟨j - 2 * k, by omega, by omega⟩⟩ Iff.rfl
  rintro ⟨a, h, rfl⟩
  omega

/-- The edges that are there and pass a point. -/
theorem Stage.comb_edge {s : Nat} (hz : CombCtx k m P p xy) (h : Stage P p xy (indexed (combPoly k m)) (combDone k m s) A l) (hs : s ≤ 2 * k)
    {n : Nat} (hn : n < A.S) {v : Coords ℚ} (hU : P.U v) (hy : -2 < v.y) (h2 : P.h v < P.h (A.sg n).2) :
    ∃ j, j < 2 * k + m + 1 ∧ A.sg n = edgeC (combP k m j) (combP k m (j + 1)) ∧ (j < s ∨ 2 * k ≤ j) := by
  obtain ⟨j, hj, hsd⟩ := h.edge hn
  rw [mem_combDone] at hj
  by_cases hjl : j = 2 * k + m + 1
  · subst hjl
    have hc := comb_closing hsd
    have hE := P.hi_U (h.done.inv.sE n hn)
    rcases (P.h_lt hU hE).2 h2 with h3 | h3
    · rw [hc.2] at h3; exact absurd hy h3.not_gt
    · rw [hc.2] at h3; exact absurd hy h3.1.le.not_gt
  · exact ⟨j, by omega, comb_side (by omega) hsd, by omega⟩

theorem combG_y (s i : Nat) : -2 < (combG s i).y := by
  have : (0 : ℚ) ≤ i := Nat.cast_nonneg i
  simp only [combG]; linarith

theorem Stage.comb_vert {done : List Nat} (h : Stage P p xy (indexed (combPoly k m)) done A l) {v : Coords ℚ}
    (hv : Verts A v) : ∃ j, j < 2 * k + m + 2 ∧ v = combP k m j := by
  obtain ⟨i, -, e, ⟨a, b, h1, h2, rfl⟩, hve⟩ := h.vert.1 hv
  have a1 := comb_get h1
  have a2 := comb_get h2
  rcases edgeC_cases a.2 b.2 with h' | h' <;> rw [h'] at hve <;> rcases hve with rfl | rfl
  · exact ⟨_, a1.2, a1.1⟩
  · exact ⟨_, a2.2, a2.1⟩
  · exact ⟨_, a2.2, a2.1⟩
  · exact ⟨_, a1.2, a1.1⟩

/-- Before stroke `s` the points on both sides of it are in the same trapezoid. -/
theorem comb_same {s i : Nat} (hz : CombCtx k m P p xy) (h : Stage P p xy (indexed (combPoly k m)) (combDone k m s) A l) (hs : s < 2 * k)
    (hi : i < m) : ∀ t < A.M, Region P A t (combG s i) → Region P A t (combG (s + 1) i) := by
  intro t ht hr
  have hside : ∀ n < A.S, P.h (A.sg n).1 < P.h (combG s i) → P.h (combG s i) < P.h (A.sg n).2 →
      (P.h (A.sg n).1 < P.h (combG (s + 1) i) ∧ P.h (combG (s + 1) i) < P.h (A.sg n).2) ∧
      ∃ j, A.sg n = edgeC (combP k m j) (combP k m (j + 1)) ∧ (j < s ∨ 2 * k ≤ j) := by
    intro n hn h1 h2
    obtain ⟨j, hj, e, hc⟩ := h.comb_edge hz hs.le hn (hz.U s hs.le i hi) (combG_y s i) h2
    refine ⟨?_, j, e, hc⟩
    rcases edgeC_cases (combP k m j) (combP k m (j + 1)) with h' | h' <;> rw [e, h'] at h1 h2 ⊢
    · exact ⟨(hz.below (by omega) (by omega) hi).1.2 ((hz.below (by omega) (by omega) hi).1.1 h1),
        (hz.below (by omega) (by omega) hi).2.2 ((hz.below (by omega) (by omega) hi).2.1 h2)⟩
    · exact ⟨(hz.below (by omega) (by omega) hi).1.2 ((hz.below (by omega) (by omega) hi).1.1 h1),
        (hz.below (by omega) (by omega) hi).2.2 ((hz.below (by omega) (by omega) hi).2.1 h2)⟩
  refine Region.slide h.done ?_ ?_ ?_ ht hr
  · intro v hv
    obtain ⟨j, hj, rfl⟩ := h.comb_vert hv
    rw [(hz.below hj hs.le hi).1, (hz.below hj (s := s + 1) (by omega) hi).1, (hz.below hj hs.le hi).2,
      (hz.below hj (s := s + 1) (by omega) hi).2]
    exact ⟨Iff.rfl, Iff.rfl⟩
  · intro n hn h1 h2 hx
    obtain ⟨⟨h3, h4⟩, j, e, hc⟩ := hside n hn h1 h2
    rcases hc with hc | hc
    · exact hz.left e h3 h4 (B := s + 1) (by omega)
    · exact absurd (hz.right e h1 h2 (B := s) (by omega)) (show P.X (A.sg n) (combG s i) < (s : ℚ) from hx).not_gt
  · intro n hn h1 h2 hx
    obtain ⟨⟨h3, h4⟩, j, e, hc⟩ := hside n hn h1 h2
    rcases hc with hc | hc
    · exact absurd (hz.left e h1 h2 (B := s) (by omega)) (show (s : ℚ) < P.X (A.sg n) (combG s i) from hx).not_gt
    · exact hz.right e h3 h4 (B := s + 1) (by omega)

/-- Points at different steps are in different trapezoids. -/
theorem comb_apart {s i i' : Nat} (hz : CombCtx k m P p xy) (h : Stage P p xy (indexed (combPoly k m)) (combDone k m s) A l) (hs : s ≤ 2 * k)
    (hk : 1 ≤ k) (hi' : i' < m) (hlt : i < i') : ∀ t < A.M, Region P A t (combG s i') → ¬ Region P A t (combG s i) := by
  have hy : (combP k m (2 * k + i')).y = i' := combP_stair hk hi'.le
  have hii : (i : ℚ) + 1 ≤ i' := by exact_mod_cast hlt
  have hv : Verts A (combP k m (2 * k + i')) := by
    refine h.vert.2 ⟨2 * k + i', mem_combDone.2 (.inl ⟨by omega, by omega⟩), _, comb_hasSide (by omega), ?_⟩
    rcases edgeC_cases (combP k m (2 * k + i')) (combP k m (2 * k + i' + 1)) with h' | h' <;> rw [h']
    · exact .inl rfl
    · exact .inr rfl
  have hb1 : P.h (combG s i) < P.h (combP k m (2 * k + i')) := (hz.below (by omega) hs (by omega)).2.2 (by rw [hy]; linarith)
  have hb2 : P.h (combP k m (2 * k + i')) < P.h (combG s i') := (hz.below (by omega) hs hi').1.2 (by rw [hy]; linarith)
  have hcase : ∀ n < A.S, P.h (A.sg n).1 < P.h (combG s i) → P.h (combG s i') < P.h (A.sg n).2 →
      ∃ j, A.sg n = edgeC (combP k m j) (combP k m (j + 1)) ∧ (j < s ∨ j = 2 * k + m) := by
    intro n hn h1 h2
    obtain ⟨j, hj, e, hc⟩ := h.comb_edge hz hs hn (hz.U s hs i' hi') (combG_y s i') h2
    refine ⟨j, e, hc.imp id fun hc => ?_⟩
    by_contra hne
    obtain ⟨q, rfl⟩ : ∃ q, j = 2 * k + q := ⟨j - 2 * k, by omega⟩
    have y1 : (combP k m (2 * k + q)).y = q := combP_stair hk (by omega)
    have y2 : (combP k m (2 * k + q + 1)).y = q + 1 := by
      rw [show 2 * k + q + 1 = 2 * k + (q + 1) by ring, combP_stair hk (by omega)]; push_cast; rfl
    rw [edgeC_up (by rw [y1, y2]; linarith)] at e
    rw [e] at h1 h2
    have c1 := (hz.below (by omega) hs (by omega)).1.1 h1
    have c2 := (hz.below (by omega) hs hi').2.1 h2
    rw [y1] at c1
    rw [y2] at c2
    linarith
  refine Region.apart h.done hv hb1 hb2 ?_ ?_
  · intro n hn h1 h2 hx
    obtain ⟨j, e, hc⟩ := hcase n hn h1 h2
    rcases hc with hc | hc
    · exact hz.left e (h1.trans hb1) (hb2.trans h2) (B := 2 * k + i') (by omega)
    · exact absurd (hz.right e (h1.trans (hb1.trans hb2)) h2 (B := s) (by omega))
        (show P.X (A.sg n) (combG s i') < (s : ℚ) from hx).not_gt
  · intro n hn h1 h2 hx
    obtain ⟨j, e, hc⟩ := hcase n hn h1 h2
    rcases hc with hc | hc
    · exact absurd (hz.left e (h1.trans (hb1.trans hb2)) h2 (B := s) (by omega))
        (show (s : ℚ) < P.X (A.sg n) (combG s i') from hx).not_gt
    · exact hz.right e (h1.trans hb1) (hb2.trans h2) (B := 2 * k + i') (by omega)

/-- After stroke `s` the points on both sides of it are separated. -/
theorem comb_cut {s i : Nat} (hz : CombCtx k m P p xy) (h : Stage P p xy (indexed (combPoly k m)) (combDone k m (s + 1)) A l) (hs : s < 2 * k)
    (hi : i < m) : ∀ t < A.M, Region P A t (combG s i) → ¬ Region P A t (combG (s + 1) i) := by
  obtain ⟨j, hj, hsg⟩ := h.run.has s (mem_combDone.2 (.inr (by omega))) _ (comb_hasSide (by omega))
  have hi0 : (0 : ℚ) ≤ i := Nat.cast_nonneg i
  have him : (i : ℚ) + 1 ≤ m := by exact_mod_cast hi
  have key : ∀ s', s' ≤ 2 * k → P.h (A.sg j).1 < P.h (combG s' i) ∧ P.h (combG s' i) < P.h (A.sg j).2 := by
    intro s' hs'
    rw [hsg]
    rcases Nat.mod_two_eq_zero_or_one s with hp | hp
    · have y1 := combP_bottom (k := k) (m := m) (j := s) (by omega) hp
      have y2 := combP_top (k := k) (m := m) (j := s + 1) (by omega) (by omega)
      rw [edgeC_up (by rw [y2]; linarith)]
      exact ⟨(hz.below (by omega) hs' hi).1.2 (by linarith), (hz.below (by omega) hs' hi).2.2 (by rw [y2]; linarith)⟩
    · have y1 := combP_top (k := k) (m := m) (j := s) (by omega) hp
      have y2 := combP_bottom (k := k) (m := m) (j := s + 1) (by omega) (by omega)
      rw [edgeC_down (by rw [y1]; linarith)]
      exact ⟨(hz.below (by omega) hs' hi).1.2 (by linarith), (hz.below (by omega) hs' hi).2.2 (by rw [y1]; linarith)⟩
  obtain ⟨l1, l2⟩ := key s hs.le
  obtain ⟨l3, l4⟩ := key (s + 1) hs
  refine Region.cut h.done (hz.U s hs.le i hi) (hz.U (s + 1) hs i hi) ?_ hj l1 l2 l3 l4 ?_ ?_
  · rintro ⟨n, hn, e⟩
    exact h.fresh combG_ne n hn e
  · exact hz.right hsg l1 l2 (B := s) (le_refl _)
  · exact hz.left hsg l3 l4 (B := s + 1) (le_refl _)

/-! ### All sides -/

/-- The sides `done` can be inserted, and then there are `c` branches. -/
def CombReach (k m : Nat) (P : Plane ℚ) (p : PolyList Nat (Coords ℚ)) (xy : Coords ℚ → Coords ℚ) (mathN : Nat → Nat → Nat) (c : Nat)
    (done : List Nat) (A : Abs ℚ) (l : St.PolyLoop Nat ℚ) : Prop :=
  Stage P p xy (indexed (combPoly k m)) done A l ∧
  (∃ N, ∀ cfg : Cfg, cfg.mathN = mathN → ∀ fuel ≥ N,
    done.foldlM (St.polyStep cfg fuel p xy) (St.PolyLoop.start mathN (indexed (combPoly k m))) = .ok l) ∧
  ∃ B : Finset Nat, B.card = c ∧ ∀ q ∈ B, IsBranch l.st.qs q

theorem CombReach.step (hz : CombCtx k m P p xy) {mathN : Nat → Nat → Nat} {c : Nat} {done : List Nat} (h : CombReach k m P p xy mathN c done A l)
    {si : Nat} (hsi : si < 2 * k + m + 2) (hnd : si ∉ done) (hlen : done.length < 2 * k + m + 2) :
    ∃ A' l', CombReach k m P p xy mathN c (done ++ [si]) A' l' ∧ Keeps l.st.qs l'.st.qs ∧
      ∀ w, P.U w → A'.Fresh w → Moves P A l.st.qs A' l'.st.qs w := by
  obtain ⟨hs, ⟨N, hN⟩, B, hB, hb⟩ := h
  have hl : (indexed (combPoly k m)).length = 2 * k + m + 2 := by rw [indexed_length, comb_length]
  obtain ⟨N', A', l', hr, hs', hk, hm⟩ := hs.step hz.ctx (by omega) hnd (by omega) mathN
  refine ⟨A', l', ⟨hs', ⟨max N N', fun cfg hc fuel hf => ?_⟩, B, hB, fun q hq => (hb q hq).keep hk⟩, hk, hm⟩
  rw [foldlM_concat, hN cfg hc fuel (le_trans (le_max_left _ _) hf)]
  exact hr cfg hc fuel (le_trans (le_max_right _ _) hf)

theorem CombReach.stairs (hz : CombCtx k m P p xy) (mathN : Nat → Nat → Nat) :
    ∀ i ≤ m + 2, ∃ A l, CombReach k m P p xy mathN 0 ((List.range i).map (2 * k + ·)) A l
  | 0, _ => ⟨_, _, Stage.start hz.ctx mathN, ⟨0, fun cfg _ fuel _ => rfl⟩, ∅, rfl, by simp⟩
  | i + 1, hi => by
    obtain ⟨A, l, h⟩ := CombReach.stairs hz mathN i (by omega)
    obtain ⟨A', l', h', -⟩ := h.step hz (si := 2 * k + i) (by omega) (by
      intro hc
      obtain ⟨a, ha, e⟩ := List.mem_map.1 hc
      have := List.mem_range.1 ha
      omega) (by rw [List.length_map, List.length_range]; omega)
    exact ⟨A', l', by rwa [List.range_succ, List.map_append, List.map_singleton]⟩

theorem CombReach.strokes (hk : 1 ≤ k) (hz : CombCtx k m P p xy) (mathN : Nat → Nat → Nat) :
    ∀ s ≤ 2 * k, ∃ A l, CombReach k m P p xy mathN (s * m) (combDone k m s) A l
  | 0, _ => by
    obtain ⟨A, l, h⟩ := CombReach.stairs hz mathN (m + 2) (le_refl _)
    exact ⟨A, l, by rw [Nat.zero_mul, combDone, List.range_zero, List.append_nil]; exact h⟩
  | s + 1, hs => by
    obtain ⟨A, l, h⟩ := CombReach.strokes hk hz mathN s (by omega)
    obtain ⟨A', l', h', hkp, hm⟩ := h.step hz (si := s) (by omega) (fun hc => by rw [mem_combDone] at hc; omega)
      (by simp [combDone]; omega)
    have ed : combDone k m s ++ [s] = combDone k m (s + 1) := by rw [combDone, combDone, List.range_succ (n := s), List.append_assoc]
    rw [ed] at h'
    obtain ⟨B, hB, hb⟩ := h.2.2
    obtain ⟨D, hD, hd⟩ := Stage.cut h.1 h'.1 hm m (combG s) (combG (s + 1)) (fun i hi => ⟨hz.U s (by omega) i hi, combG_ne⟩)
      (fun i hi => ⟨hz.U (s + 1) hs i hi, combG_ne⟩) (fun i hi => comb_same hz h.1 (by omega) hi)
      (fun i _ j hj hij => comb_apart hz h.1 (by omega) hk hj hij) (fun i hi => comb_cut hz h'.1 (by omega) hi)
    refine ⟨A', l', h'.1, h'.2.1, B ∪ D, ?_, fun q hq => ?_⟩
    · rw [Finset.card_union_of_disjoint, hB, hD]
      · ring
      · rw [Finset.disjoint_left]
        exact fun q h1 h2 => (hd q h2).1 (hb q h1)
    · rcases Finset.mem_union.1 hq with hq | hq
      · exact (hb q hq).keep hkp
      · exact (hd q hq).2

theorem exists_combCtx (k m : Nat) (hk : 1 ≤ k) : ∃ P : Plane ℚ, CombCtx k m P (PolyList.single (combPoly k m)) id := by
  have hd := describes_single (combPoly k m) (id : Coords ℚ → Coords ℚ) (by
    intro h; have := comb_length k m; rw [h] at this; simp at this)
  rw [List.map_id] at hd
  have hv : ValidPolys ([indexed (combPoly k m)].map (List.map Prod.snd)) := by
    rw [List.map_cons, List.map_nil, indexed_snd]; exact comb_valid hk
  obtain ⟨P, hctx, hU, -, ε, -, hh, hX⟩ := exists_polysCtx hd hv
    (ghosts := (List.range (2 * k + 1)).flatMap fun s => (List.range m).map (combG s)) (by
    intro q hq e he
    obtain ⟨s, hs, hq⟩ := List.mem_flatMap.1 hq
    obtain ⟨i, hi, rfl⟩ := List.mem_map.1 hq
    simp only [List.map_cons, List.map_nil, List.flatMap_cons, List.flatMap_nil, List.append_nil, indexed_snd] at he
    obtain ⟨j, g1, g2⟩ := get_cycleEdges he
    have gp : ∀ {j' : Nat} {v : Coords ℚ}, (combPoly k m)[j']? = some v → v = combP k m j' ∧ j' < 2 * k + m + 2 := by
      intro j' v hg
      obtain ⟨hl, e⟩ := List.getElem?_eq_some_iff.1 hg
      rw [comb_length] at hl
      refine ⟨?_, hl⟩
      rw [← e]
      simp [combPoly]
    obtain ⟨e1, l1⟩ := gp g1
    obtain ⟨e2, -⟩ := gp g2
    rintro ⟨t, t0, t1, hx, hy⟩
    have hi0 : (0 : ℚ) ≤ i := Nat.cast_nonneg i
    by_cases hj : j = 2 * k + m + 1
    · subst hj
      rw [comb_length, Nat.mod_self] at e2
      rw [e1, e2, combP_first, combP_last] at hy
      simp only [combG] at hy
      linarith
    · rw [comb_length, Nat.mod_eq_of_lt (by omega)] at e2
      rw [e1, e2] at hx hy
      simp only [combP_x, combG] at hx hy
      push_cast at hx
      have ht : t = ((s : ℤ) - j : ℤ) := by push_cast; linarith
      obtain ⟨z1, hz1⟩ := combP_int k m j
      obtain ⟨z2, hz2⟩ := combP_int k m (j + 1)
      rw [ht, hz1, hz2] at hy
      exact int_ne_half (z1 + ((s : ℤ) - j) * (z2 - z1)) i (by push_cast at hy ⊢; linarith))
  refine ⟨P, hctx.poly _ (by simp), ?_, ?_, ?_⟩
  · intro e v B h1 h2 b1 b2 hne
    rw [hh] at h1 h2; rw [hX]
    exact Xh_lt_of_le h1 h2 b1 b2 hne
  · intro e v B h1 h2 b1 b2 hne
    rw [hh] at h1 h2; rw [hX]
    exact lt_Xh_of_le h1 h2 b1 b2 hne
  · intro s hs i hi
    rw [hU]
    exact .inr (List.mem_flatMap.2 ⟨s, List.mem_range.2 (by omega), List.mem_map.2 ⟨i, List.mem_range.2 hi, rfl⟩⟩)

/-- With the stairs first and the strokes from the left to the right, the search structure has `2 k m` branches beside its sinks. -/
theorem comb_nodes {k m : Nat} (hk : 1 ≤ k) (mathN : Nat → Nat → Nat) :
    ∃ (N : Nat) (st : St Nat ℚ), 2 * k * m + st.ts.length ≤ st.qs.length ∧
      ∀ cfg : Cfg, cfg.mathN = mathN → cfg.order 0 (2 * k + m + 2) = startAt (2 * k) (2 * k + m + 2) → ∀ fuel ≥ N,
        trapezoidize cfg fuel (PolyList.single (combPoly k m)) id = .ok st := by
  obtain ⟨P, hz⟩ := exists_combCtx k m hk
  obtain ⟨A, l, hs, ⟨N, hN⟩, B, hB, hb⟩ := CombReach.strokes hk hz mathN (2 * k) (le_refl _)
  refine ⟨N, l.st, by rw [← hB]; exact hs.count hb, fun cfg hc ho fuel hf => ?_⟩
  refine trapezoidize_one (by rw [comb_length]; omega) cfg fuel ?_
  rw [comb_length, ho, hc]
  have : startAt (2 * k) (2 * k + m + 2) = combDone k m (2 * k) := by
    rw [startAt, combDone, show 2 * k + m + 2 - 2 * k = m + 2 by omega]
  rw [this]
  exact hN cfg hc fuel hf

end

end Tri
