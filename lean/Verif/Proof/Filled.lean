import Verif.Proof.Placed
import Verif.Proof.Nearby

/-!
# Consequences of the boundary and the winding of a mesh
-/

set_option linter.unusedSectionVars false

namespace Tri

variable {I V K : Type} [Field K] [LinearOrder K] [IsStrictOrderedRing K] [DecidableEq I]

attribute [local instance] exact

variable {pl : I → Coords K} {gI : List (List I)} {T : List (I × I × I)} {fwd : I × I → Bool}

/-! ## Polygons with places -/

theorem valid_nodup (hv : ValidPolys (gI.map (List.map pl))) : (gI.flatten.map pl).Nodup := by
  have := hv.distinct
  rwa [← List.map_flatten] at this

theorem valid_nodupI (hv : ValidPolys (gI.map (List.map pl))) : gI.flatten.Nodup := (valid_nodup hv).of_map _

theorem valid_three (hv : ValidPolys (gI.map (List.map pl))) : ∀ g ∈ gI, 3 ≤ g.length := by
  intro g hg
  have := hv.three _ (List.mem_map.2 ⟨g, hg, rfl⟩)
  simpa using this

theorem valid_inj (hv : ValidPolys (gI.map (List.map pl))) {a b : I} (ha : a ∈ gI.flatten) (hb : b ∈ gI.flatten)
    (h : pl a = pl b) : a = b := List.inj_on_of_nodup_map (valid_nodup hv) ha hb h

theorem edge_placed {e : I × I} (he : e ∈ gI.flatMap cycleEdges) :
    (pl e.1, pl e.2) ∈ (gI.map (List.map pl)).flatMap cycleEdges := by
  rw [flatMap_cycleEdges_map]
  exact List.mem_map.2 ⟨e, he, rfl⟩

/-- The middle of an edge is on no other edge. -/
theorem mid_off (hv : ValidPolys (gI.map (List.map pl))) {e e' : I × I} (he : e ∈ gI.flatMap cycleEdges)
    (he' : e' ∈ gI.flatMap cycleEdges) (hne : e' ≠ e) :
    ¬ OnSeg (pl e'.1, pl e'.2) ⟨((pl e.1).x + (pl e.2).x) / 2, ((pl e.1).y + (pl e.2).y) / 2⟩ := by
  intro ho
  have hm := edge_mem he
  have hm' := edge_mem he'
  have hpne : (pl e.1, pl e.2) ≠ (pl e'.1, pl e'.2) := by
    intro h
    have := Prod.mk.inj h
    exact hne (Prod.ext (valid_inj hv hm.1 hm'.1 this.1).symm (valid_inj hv hm.2 hm'.2 this.2).symm)
  have h1 := hv.meet _ (edge_placed he) _ (edge_placed he') hpne
    ⟨((pl e.1).x + (pl e.2).x) / 2, ((pl e.1).y + (pl e.2).y) / 2⟩
    ⟨1 / 2, by norm_num, by norm_num, by simp only; ring, by simp only; ring⟩ ho
  have hd : pl e.1 ≠ pl e.2 := fun h =>
    edges_ne (valid_nodupI hv) (valid_three hv) he (valid_inj hv hm.1 hm.2 h)
  rcases h1.1 with h | h
  · apply hd
    have hx := congrArg Coords.x h
    have hy := congrArg Coords.y h
    simp only at hx hy
    refine coords_ext ?_ ?_ <;> linarith
  · apply hd
    have hx := congrArg Coords.x h
    have hy := congrArg Coords.y h
    simp only at hx hy
    refine coords_ext ?_ ?_ <;> linarith

/-! ## Boundary -/

theorem MeshI.net_eq (h : MeshI pl gI T fwd) (hv : ValidPolys (gI.map (List.map pl))) (u v : I) :
    net (T.flatMap sides) u v = if (u, v) ∈ gI.flatMap cycleEdges then (if fwd (u, v) then 1 else -1)
      else if (v, u) ∈ gI.flatMap cycleEdges then (if fwd (v, u) then -1 else 1) else 0 := by
  rw [← esum_netFn, esum_sides, h.sum Int _ (netFn_anti u v), esum_netFn]
  exact net_turn (edges_nodup (valid_nodupI hv)) (fun e he => edges_swap (valid_nodupI hv) (valid_three hv) he) fwd u v

theorem net_mem {es : List (I × I)} {u v : I} (h : net es u v ≠ 0) : (u, v) ∈ es ∨ (v, u) ∈ es := by
  by_contra hn
  push Not at hn
  unfold net at h
  rw [List.count_eq_zero_of_not_mem hn.1, List.count_eq_zero_of_not_mem hn.2] at h
  exact h rfl

/-- Every polygon edge is a side of a triangle. -/
theorem MeshI.edge_side (h : MeshI pl gI T fwd) (hv : ValidPolys (gI.map (List.map pl))) {e : I × I}
    (he : e ∈ gI.flatMap cycleEdges) : e ∈ T.flatMap sides ∨ e.swap ∈ T.flatMap sides := by
  refine net_mem (u := e.1) (v := e.2) ?_
  rw [h.net_eq hv, if_pos (by exact he)]
  split <;> simp

theorem side_corner {T : List (I × I × I)} {e : I × I} (he : e ∈ T.flatMap sides) :
    ∃ t ∈ T, (e.1 = t.1 ∨ e.1 = t.2.1 ∨ e.1 = t.2.2) ∧ (e.2 = t.1 ∨ e.2 = t.2.1 ∨ e.2 = t.2.2) := by
  obtain ⟨t, ht, h⟩ := List.mem_flatMap.1 he
  refine ⟨t, ht, ?_⟩
  simp only [sides, List.mem_cons, List.not_mem_nil, or_false] at h
  rcases h with rfl | rfl | rfl <;> simp

theorem MeshI.used (h : MeshI pl gI T fwd) (hv : ValidPolys (gI.map (List.map pl))) {i : I} (hi : i ∈ gI.flatten) :
    ∃ t ∈ T, i = t.1 ∨ i = t.2.1 ∨ i = t.2.2 := by
  rw [← flatMap_fst'] at hi
  obtain ⟨e, he, rfl⟩ := List.mem_map.1 hi
  rcases h.edge_side hv he with h' | h'
  · obtain ⟨t, ht, h1, -⟩ := side_corner h'
    exact ⟨t, ht, h1⟩
  · obtain ⟨t, ht, -, h1⟩ := side_corner h'
    exact ⟨t, ht, h1⟩

/-! ## Cover -/

theorem esum_turn_parity (q : Coords K) (E : List (I × I)) :
    esum (fun a b => fy q (pl a) (pl b)) (E.map (turn fwd)) % 2 =
      (((E.map (Prod.map pl pl)).filter fun e => Crosses q e).length : Int) % 2 := by
  induction E with
  | nil => rfl
  | cons e E ih =>
    have e1 : esum (fun a b => fy q (pl a) (pl b)) ((e :: E).map (turn fwd)) =
        fy q (pl (turn fwd e).1) (pl (turn fwd e).2) + esum (fun a b => fy q (pl a) (pl b)) (E.map (turn fwd)) := by
      simp [esum]
    have e2 : fy q (pl (turn fwd e).1) (pl (turn fwd e).2) % 2 = if Crosses q (Prod.map pl pl e) then 1 else 0 := by
      rw [fy_parity]
      refine if_congr ?_ rfl rfl
      unfold turn
      split
      · rfl
      · exact crosses_swap (e := (pl e.1, pl e.2))
    rw [e1, Int.add_emod, e2, ih, List.map_cons, List.filter_cons]
    by_cases h : Crosses q (Prod.map pl pl e)
    · simp only [h, if_true, decide_true, List.length_cons]
      push_cast
      omega
    · simp only [h, if_false, decide_false, Bool.false_eq_true]
      omega

/-- The winding sum of the triangles tells inside from outside. -/
theorem MeshI.inside_iff (h : MeshI pl gI T fwd) {q : Coords K} (hq : OffEdges (gI.map (List.map pl)) q) :
    Inside (gI.map (List.map pl)) q ↔ (T.map (tsum fun a b => fy q (pl a) (pl b))).sum = 1 := by
  have h1 := h.wind q hq
  have h2 := h.sum Int (fun a b => fy q (pl a) (pl b)) (fun a b => fy_anti q _ _)
  have h3 := esum_turn_parity (pl := pl) (fwd := fwd) q (gI.flatMap cycleEdges)
  rw [← h2] at h3
  unfold Inside
  rw [flatMap_cycleEdges_map]
  rcases h1 with h1 | h1 <;> rw [h1] at h3 <;> rw [h1]
  · constructor
    · intro k; omega
    · intro k; omega
  · constructor
    · intro _; rfl
    · intro _; omega

theorem MeshI.inside_sum (h : MeshI pl gI T fwd) {q : Coords K} (hq : OffEdges (gI.map (List.map pl)) q) :
    (T.map (tsum fun a b => fy q (pl a) (pl b))).sum = if Inside (gI.map (List.map pl)) q then 1 else 0 := by
  split
  · rename_i hi; exact (h.inside_iff hq).1 hi
  · rename_i hi
    exact (h.wind q hq).resolve_right fun k => hi ((h.inside_iff hq).2 k)

/-- The triangles at a point, over places. -/
theorem count_sum (hpos : ∀ t ∈ T, 0 ≤ orient (pl t.1) (pl t.2.1) (pl t.2.2)) {q : Coords K}
    (hq : ∀ t ∈ T, OffT (pl t.1) (pl t.2.1) (pl t.2.2) q) :
    ((T.filter fun t => InTriangle (pl t.1, pl t.2.1, pl t.2.2) q).length : Int) =
      (T.map (tsum fun a b => fy q (pl a) (pl b))).sum := by
  induction T with
  | nil => rfl
  | cons t T ih =>
    rw [List.filter_cons, List.map_cons, List.sum_cons, ← ih (fun t ht => hpos t (by simp [ht])) fun t ht => hq t (by simp [ht])]
    have h1 := wind_tri (hpos t (by simp)) (hq t (by simp))
    simp only [tsum, h1, inTriangle_iff (hpos t (by simp))]
    split <;> simp_all <;> omega

/-- Off the triangles' sides is off the polygons' edges. -/
theorem MeshI.off_edges (h : MeshI pl gI T fwd) (hv : ValidPolys (gI.map (List.map pl))) {q : Coords K}
    (hq : ∀ t ∈ T, OffT (pl t.1) (pl t.2.1) (pl t.2.2) q) : OffEdges (gI.map (List.map pl)) q := by
  have hs : ∀ e ∈ T.flatMap sides, ¬ OnSeg (pl e.1, pl e.2) q := by
    intro e he
    obtain ⟨t, ht, h⟩ := List.mem_flatMap.1 he
    simp only [sides, List.mem_cons, List.not_mem_nil, or_false] at h
    obtain ⟨q1, q2, q3⟩ := hq t ht
    rcases h with rfl | rfl | rfl
    · exact q1
    · exact q2
    · exact q3
  intro e he ho
  rw [flatMap_cycleEdges_map] at he
  obtain ⟨e', he', rfl⟩ := List.mem_map.1 he
  rcases h.edge_side hv he' with h' | h'
  · exact hs _ h' ho
  · exact hs _ h' (onSeg_rev ho)

theorem MeshI.cover (h : MeshI pl gI T fwd) (hv : ValidPolys (gI.map (List.map pl))) {q : Coords K}
    (hq : ∀ t ∈ T, OffT (pl t.1) (pl t.2.1) (pl t.2.2) q) :
    (T.filter fun t => InTriangle (pl t.1, pl t.2.1, pl t.2.2) q).length =
      if Inside (gI.map (List.map pl)) q then 1 else 0 := by
  have h1 := count_sum h.pos hq
  rw [h.inside_sum (h.off_edges hv hq)] at h1
  split at h1 <;> rename_i hi <;> simp only [hi, if_true, if_false] <;> omega

/-! ## Directions -/

/-- Sums of potentials vanish. -/
theorem MeshI.potential (h : MeshI pl gI T fwd) (g : I → Int) :
    esum (fun a b => g b - g a) ((gI.flatMap cycleEdges).map (turn fwd)) = 0 := by
  rw [← h.sum Int (fun a b => g b - g a) (fun a b => by omega)]
  refine List.sum_eq_zero fun x hx => ?_
  obtain ⟨t, -, rfl⟩ := List.mem_map.1 hx
  simp only [tsum]; omega

/-- A sum with one term. -/
theorem esum_single {f : I → I → Int} {E : List (I × I)} {e : I × I} (hn : E.Nodup) (he : e ∈ E)
    (h0 : ∀ e' ∈ E, e' ≠ e → f e'.1 e'.2 = 0) : esum f E = f e.1 e.2 := by
  have hp := List.perm_cons_erase he
  rw [esum_perm f hp]
  have : esum f (e :: E.erase e) = f e.1 e.2 + esum f (E.erase e) := by simp [esum]
  rw [this]
  have h1 : esum f (E.erase e) = 0 := by
    refine List.sum_eq_zero fun x hx => ?_
    obtain ⟨e', he', rfl⟩ := List.mem_map.1 hx
    exact h0 e' (List.mem_of_mem_erase he') fun h => (hn.not_mem_erase) (h ▸ he')
  rw [h1, add_zero]

theorem esum_sub (f f' : I → I → Int) (es : List (I × I)) :
    esum (fun a b => f a b - f' a b) es = esum f es - esum f' es := by
  induction es with
  | nil => rfl
  | cons e es ih =>
    have : ∀ f : I → I → Int, esum f (e :: es) = f e.1 e.2 + esum f es := fun f => by simp [esum]
    rw [this, this, this, ih]; omega

theorem esum_turn (f : I → I → Int) (fwd : I × I → Bool) (E : List (I × I)) :
    esum f (E.map (turn fwd)) = esum (fun a b => f (turn fwd (a, b)).1 (turn fwd (a, b)).2) E := by
  simp [esum, Function.comp_def]

/-- The winding sums on the two sides of an edge. -/
theorem MeshI.jump (h : MeshI pl gI T fwd) (hv : ValidPolys (gI.map (List.map pl))) {e : I × I}
    (he : e ∈ gI.flatMap cycleEdges) {q q' : Coords K} (g : I → Int)
    (h0 : ∀ e' ∈ gI.flatMap cycleEdges, e' ≠ e →
      fy q (pl e'.1) (pl e'.2) - fy q' (pl e'.1) (pl e'.2) = g e'.2 - g e'.1) :
    (T.map (tsum fun a b => fy q (pl a) (pl b))).sum - (T.map (tsum fun a b => fy q' (pl a) (pl b))).sum =
      (if fwd e then 1 else -1) *
        (fy q (pl e.1) (pl e.2) - fy q' (pl e.1) (pl e.2) - (g e.2 - g e.1)) := by
  rw [h.sum Int _ (fun a b => fy_anti q _ _), h.sum Int _ (fun a b => fy_anti q' _ _)]
  have h1 := h.potential g
  rw [← sub_zero (esum _ _ - esum _ _), ← h1, ← esum_sub, ← esum_sub, esum_turn,
    esum_single (edges_nodup (valid_nodupI hv)) he]
  · simp only [turn]
    cases fwd (e.1, e.2)
    · simp only [Bool.false_eq_true, if_false, Prod.fst_swap, Prod.snd_swap]
      rw [fy_anti q, fy_anti q']; omega
    · simp
  · intro e' he' hne
    have := h0 e' he' hne
    simp only [turn]
    cases fwd (e'.1, e'.2)
    · simp only [Bool.false_eq_true, if_false, Prod.fst_swap, Prod.snd_swap]
      rw [fy_anti q, fy_anti q']; omega
    · simp only [if_true]; omega

/-- The interior is on the left of a directed edge, and not on its right. -/
theorem MeshI.side (h : MeshI pl gI T fwd) (hv : ValidPolys (gI.map (List.map pl))) {e : I × I}
    (he : e ∈ gI.flatMap cycleEdges) :
    Near fun t => (Inside (gI.map (List.map pl)) (leftOf (pl e.1) (pl e.2) t) ↔ fwd e = true) ∧
      (Inside (gI.map (List.map pl)) (leftOf (pl e.2) (pl e.1) t) ↔ fwd e = false) := by
  have hm := edge_mem he
  have hd : pl e.1 ≠ pl e.2 := fun h =>
    edges_ne (valid_nodupI hv) (valid_three hv) he (valid_inj hv hm.1 hm.2 h)
  set m : Coords K := ⟨((pl e.1).x + (pl e.2).x) / 2, ((pl e.1).y + (pl e.2).y) / 2⟩ with hmdef
  have hoff : ∀ e' ∈ gI.flatMap cycleEdges, e' ≠ e → ¬ OnSeg (pl e'.1, pl e'.2) m := fun e' he' hne =>
    mid_off hv he he' hne
  have offAll : ∀ {q : Coords K}, (∀ e' ∈ gI.flatMap cycleEdges, e' ≠ e → ¬ OnSeg (pl e'.1, pl e'.2) q) →
      orient (pl e.1) (pl e.2) q ≠ 0 → OffEdges (gI.map (List.map pl)) q := by
    intro q h1 h2 x hx ho
    rw [flatMap_cycleEdges_map] at hx
    obtain ⟨e', he', rfl⟩ := List.mem_map.1 hx
    by_cases hee : e' = e
    · subst hee; exact h2 (orient_onSeg ho)
    · exact h1 e' he' hee ho
  have concl : ∀ {q q' : Coords K}, OffEdges (gI.map (List.map pl)) q → OffEdges (gI.map (List.map pl)) q' →
      (T.map (tsum fun a b => fy q (pl a) (pl b))).sum - (T.map (tsum fun a b => fy q' (pl a) (pl b))).sum =
        (if fwd e then 1 else -1) →
      (Inside (gI.map (List.map pl)) q ↔ fwd e = true) ∧ (Inside (gI.map (List.map pl)) q' ↔ fwd e = false) := by
    intro q q' h1 h2 h3
    rw [h.inside_iff h1, h.inside_iff h2]
    have := h.wind q h1
    have := h.wind q' h2
    cases hf : fwd e <;> rw [hf] at h3 <;> simp only [Bool.false_eq_true, if_false, if_true] at h3 <;>
      constructor <;> simp <;> omega
  by_cases hy : (pl e.1).y = (pl e.2).y
  · -- horizontal
    have hx : (pl e.1).x ≠ (pl e.2).x := fun hx => hd (coords_ext hx hy)
    have n1 : Near fun t => ∀ e' ∈ gI.flatMap cycleEdges, e' ≠ e →
        fy (move m ⟨0, 1⟩ t) (pl e'.1) (pl e'.2) - fy (move m ⟨0, -1⟩ t) (pl e'.1) (pl e'.2) =
          west m (pl e'.2) - west m (pl e'.1) := near_list fun e' he' => by
      by_cases hee : e' = e
      · exact Near.of_all fun t _ hn => absurd hee hn
      · exact (near_steep (hoff e' he' hee)).imp fun t _ k _ => k
    have n2 : ∀ d : Coords K, Near fun t => ∀ e' ∈ gI.flatMap cycleEdges, e' ≠ e →
        ¬ OnSeg (pl e'.1, pl e'.2) (move m d t) := fun d => near_list fun e' he' => by
      by_cases hee : e' = e
      · exact Near.of_all fun t _ hn => absurd hee hn
      · exact (near_off d (hoff e' he' hee)).imp fun t _ k _ => k
    refine (n1.and ((n2 ⟨0, 1⟩).and (n2 ⟨0, -1⟩))).imp fun t ht ⟨k1, k2, k3⟩ => ?_
    have hmy : m.y = (pl e.1).y := by rw [hmdef]; simp only; linarith
    have o1 : orient (pl e.1) (pl e.2) (move m ⟨0, 1⟩ t) = ((pl e.2).x - (pl e.1).x) * t := by
      simp only [orient, move]; rw [hmy, ← hy]; ring
    have o2 : orient (pl e.1) (pl e.2) (move m ⟨0, -1⟩ t) = - (((pl e.2).x - (pl e.1).x) * t) := by
      simp only [orient, move]; rw [hmy, ← hy]; ring
    have hxt : ((pl e.2).x - (pl e.1).x) * t ≠ 0 := mul_ne_zero (sub_ne_zero.2 hx.symm) ht.ne'
    have f1 := offAll k2 (by rw [o1]; exact hxt)
    have f2 := offAll k3 (by rw [o2]; exact neg_ne_zero.2 hxt)
    have hj := h.jump hv he (q := move m ⟨0, 1⟩ t) (q' := move m ⟨0, -1⟩ t) (fun i => west m (pl i)) k1
    have z1 : fy (move m ⟨0, 1⟩ t) (pl e.1) (pl e.2) = 0 := by
      refine fy_beneath ?_ ?_ <;> simp only [move] <;> linarith
    have z2 : fy (move m ⟨0, -1⟩ t) (pl e.1) (pl e.2) = 0 := by
      refine fy_above ?_ ?_ <;> simp only [move] <;> linarith
    rw [z1, z2] at hj
    rcases lt_or_gt_of_ne hx with hlt | hlt
    · have w1 : west m (pl e.1) = 1 := by
        unfold west; rw [if_pos ⟨hmy.symm, by rw [hmdef]; simp only; linarith⟩]
      have w2 : west m (pl e.2) = 0 := by
        unfold west; rw [if_neg]; rintro ⟨-, k⟩; rw [hmdef] at k; simp only at k; linarith
      rw [w1, w2] at hj
      have l1 : leftOf (pl e.1) (pl e.2) t = move m ⟨0, 1⟩ t := by
        simp [leftOf, hy, hlt, move, hmdef]
      have l2 : leftOf (pl e.2) (pl e.1) t = move m ⟨0, -1⟩ t := by
        simp [leftOf, hy, not_lt.2 hlt.le, move, hmdef, add_comm]
      rw [l1, l2]
      exact concl f1 f2 (by rw [hj]; simp)
    · have w1 : west m (pl e.1) = 0 := by
        unfold west; rw [if_neg]; rintro ⟨-, k⟩; rw [hmdef] at k; simp only at k; linarith
      have w2 : west m (pl e.2) = 1 := by
        unfold west; rw [if_pos ⟨by rw [hmy, hy], by rw [hmdef]; simp only; linarith⟩]
      rw [w1, w2] at hj
      have l1 : leftOf (pl e.1) (pl e.2) t = move m ⟨0, -1⟩ t := by
        simp [leftOf, hy, not_lt.2 hlt.le, move, hmdef]
      have l2 : leftOf (pl e.2) (pl e.1) t = move m ⟨0, 1⟩ t := by
        simp [leftOf, hy, hlt, move, hmdef, add_comm]
      rw [l1, l2]
      exact concl f2 f1 (by rw [← neg_sub, hj]; cases fwd e <;> rfl)
  · -- not horizontal
    have n1 : Near fun t => ∀ e' ∈ gI.flatMap cycleEdges, e' ≠ e →
        fy (move m ⟨1, 0⟩ t) (pl e'.1) (pl e'.2) - fy (move m ⟨-1, 0⟩ t) (pl e'.1) (pl e'.2) =
          (fun _ : I => (0 : Int)) e'.2 - (fun _ : I => (0 : Int)) e'.1 := near_list fun e' he' => by
      by_cases hee : e' = e
      · exact Near.of_all fun t _ hn => absurd hee hn
      · exact (near_flat (hoff e' he' hee)).imp fun t _ k _ => by rw [k.1, k.2]; simp
    have n2 : ∀ d : Coords K, Near fun t => ∀ e' ∈ gI.flatMap cycleEdges, e' ≠ e →
        ¬ OnSeg (pl e'.1, pl e'.2) (move m d t) := fun d => near_list fun e' he' => by
      by_cases hee : e' = e
      · exact Near.of_all fun t _ hn => absurd hee hn
      · exact (near_off d (hoff e' he' hee)).imp fun t _ k _ => k
    refine (n1.and ((n2 ⟨1, 0⟩).and (n2 ⟨-1, 0⟩))).imp fun t ht ⟨k1, k2, k3⟩ => ?_
    have om : orient (pl e.1) (pl e.2) m = 0 := by
      rw [hmdef]; simp only [orient]; ring
    have o1 : orient (pl e.1) (pl e.2) (move m ⟨1, 0⟩ t) = - (((pl e.2).y - (pl e.1).y) * t) := by
      rw [orient_move, om]; simp only; ring
    have o2 : orient (pl e.1) (pl e.2) (move m ⟨-1, 0⟩ t) = ((pl e.2).y - (pl e.1).y) * t := by
      rw [orient_move, om]; simp only; ring
    have hyt : ((pl e.2).y - (pl e.1).y) * t ≠ 0 := mul_ne_zero (sub_ne_zero.2 (Ne.symm hy)) ht.ne'
    have f1 := offAll k2 (by rw [o1]; exact neg_ne_zero.2 hyt)
    have f2 := offAll k3 (by rw [o2]; exact hyt)
    have hj := h.jump hv he (q := move m ⟨1, 0⟩ t) (q' := move m ⟨-1, 0⟩ t) (fun _ => 0) k1
    have my1 : (move m ⟨1, 0⟩ t).y = m.y := by simp [move]
    have my2 : (move m ⟨-1, 0⟩ t).y = m.y := by simp [move]
    rcases lt_or_gt_of_ne hy with hlt | hlt
    · have m1 : (pl e.1).y ≤ m.y := by rw [hmdef]; simp only; linarith
      have m2 : m.y < (pl e.2).y := by rw [hmdef]; simp only; linarith
      have hp : 0 < ((pl e.2).y - (pl e.1).y) * t := mul_pos (sub_pos.2 hlt) ht
      have y1 : fy (move m ⟨1, 0⟩ t) (pl e.1) (pl e.2) = -1 := by
        rw [fy_up (by rw [my1]; exact m1) (by rw [my1]; exact m2), o1, if_pos (by linarith)]
      have y2 : fy (move m ⟨-1, 0⟩ t) (pl e.1) (pl e.2) = 0 := by
        rw [fy_up (by rw [my2]; exact m1) (by rw [my2]; exact m2), o2, if_neg (by linarith)]
      rw [y1, y2] at hj
      have l1 : leftOf (pl e.1) (pl e.2) t = move m ⟨-1, 0⟩ t := by
        simp [leftOf, hy, hlt, move, hmdef]
      have l2 : leftOf (pl e.2) (pl e.1) t = move m ⟨1, 0⟩ t := by
        simp [leftOf, Ne.symm hy, not_lt.2 hlt.le, move, hmdef, add_comm]
      rw [l1, l2]
      exact concl f2 f1 (by rw [← neg_sub, hj]; cases fwd e <;> rfl)
    · have m1 : m.y < (pl e.1).y := by rw [hmdef]; simp only; linarith
      have m2 : (pl e.2).y ≤ m.y := by rw [hmdef]; simp only; linarith
      have hp : 0 < ((pl e.1).y - (pl e.2).y) * t := mul_pos (sub_pos.2 hlt) ht
      have y1 : fy (move m ⟨1, 0⟩ t) (pl e.1) (pl e.2) = 1 := by
        rw [fy_down (by rw [my1]; exact m1) (by rw [my1]; exact m2), o1, if_pos (by linarith)]
      have y2 : fy (move m ⟨-1, 0⟩ t) (pl e.1) (pl e.2) = 0 := by
        rw [fy_down (by rw [my2]; exact m1) (by rw [my2]; exact m2), o2, if_neg (by linarith)]
      rw [y1, y2] at hj
      have l1 : leftOf (pl e.1) (pl e.2) t = move m ⟨1, 0⟩ t := by
        simp [leftOf, hy, not_lt.2 hlt.le, move, hmdef]
      have l2 : leftOf (pl e.2) (pl e.1) t = move m ⟨-1, 0⟩ t := by
        simp [leftOf, Ne.symm hy, hlt, move, hmdef, add_comm]
      rw [l1, l2]
      exact concl f1 f2 (by rw [hj]; simp)

theorem MeshI.left_iff (h : MeshI pl gI T fwd) (hv : ValidPolys (gI.map (List.map pl))) {e : I × I}
    (he : e ∈ gI.flatMap cycleEdges) :
    (InteriorLeft (gI.map (List.map pl)) (pl e.1) (pl e.2) ↔ fwd e = true) ∧
      (InteriorLeft (gI.map (List.map pl)) (pl e.2) (pl e.1) ↔ fwd e = false) := by
  have hs := h.side hv he
  refine ⟨⟨fun hl => ?_, fun hf => ?_⟩, ⟨fun hl => ?_, fun hf => ?_⟩⟩
  · obtain ⟨t, -, k1, k2⟩ := (Near.and hl hs).exists
    exact k2.1.1 k1
  · exact hs.imp fun t _ k => k.1.2 hf
  · obtain ⟨t, -, k1, k2⟩ := (Near.and hl hs).exists
    exact k2.2.1 k1
  · exact hs.imp fun t _ k => k.2.2 hf

end Tri
