import Verif.Proof.Filled
import Verif.Proof.Path
import Verif.Spec.Closed

/-!
# The cover at points on sides and edges
-/

set_option linter.unusedSectionVars false

namespace Tri

variable {I V K : Type} [Field K] [LinearOrder K] [IsStrictOrderedRing K] [DecidableEq I]

attribute [local instance] exact

/-! ## Moving in a general direction -/

/-- Past some slope, no direction is parallel to any of the segments. -/
theorem slope_past (L : List (Coords K × Coords K)) :
    ∃ s0 : K, ∀ s > s0, ∀ e ∈ L, e.1 ≠ e.2 → (e.2.x - e.1.x) * s - (e.2.y - e.1.y) ≠ 0 := by
  induction L with
  | nil => exact ⟨0, by simp⟩
  | cons e L ih =>
    obtain ⟨s0, h⟩ := ih
    refine ⟨max s0 ((e.2.y - e.1.y) / (e.2.x - e.1.x)), fun s hs e' he' hne => ?_⟩
    rcases List.mem_cons.1 he' with rfl | he'
    · by_cases hx : e'.2.x - e'.1.x = 0
      · rw [hx, zero_mul, zero_sub]
        intro hy
        exact hne (coords_ext (by linarith) (by linarith))
      · intro h0
        have : (e'.2.y - e'.1.y) / (e'.2.x - e'.1.x) = s := by
          rw [div_eq_iff hx]; linarith
        have := lt_of_le_of_lt (le_max_right s0 _) hs
        linarith
    · exact h s (lt_of_le_of_lt (le_max_left _ _) hs) e' he' hne

theorem general_dir (L : List (Coords K × Coords K)) :
    ∃ d : Coords K, d.x ≠ 0 ∧ ∀ e ∈ L, e.1 ≠ e.2 → (e.2.x - e.1.x) * d.y - (e.2.y - e.1.y) * d.x ≠ 0 := by
  obtain ⟨s0, h⟩ := slope_past L
  refine ⟨⟨1, s0 + 1⟩, one_ne_zero, fun e he hne => ?_⟩
  have := h (s0 + 1) (by linarith) e he hne
  simpa using this

/-- Moving in a direction that is not parallel leaves a segment. -/
theorem near_leave {e : Coords K × Coords K} {q d : Coords K} (hd : d.x ≠ 0)
    (h : e.1 ≠ e.2 → (e.2.x - e.1.x) * d.y - (e.2.y - e.1.y) * d.x ≠ 0) : Near fun t => ¬ OnSeg e (move q d t) := by
  by_cases ho : OnSeg e q
  · refine Near.of_all fun t ht hm => ?_
    by_cases he : e.1 = e.2
    · obtain ⟨c, -, -, hx, -⟩ := ho
      obtain ⟨c', -, -, hx', -⟩ := hm
      rw [he] at hx hx'
      simp only [move, sub_self, mul_zero, add_zero] at hx hx'
      exact mul_ne_zero ht.ne' hd (by linarith)
    · have h1 : orient e.1 e.2 q = 0 := orient_onSeg ho
      have h2 : orient e.1 e.2 (move q d t) = 0 := orient_onSeg hm
      rw [orient_move, h1, zero_add] at h2
      exact mul_ne_zero ht.ne' (h he) h2
  · exact near_off d ho

/-- The even-odd rule does not change near a point on no edge. -/
theorem near_inside {gs : List (List (Coords K))} {q : Coords K} (hq : OffEdges gs q) (d : Coords K) :
    Near fun t => OffEdges gs (move q d t) ∧ (Inside gs (move q d t) ↔ Inside gs q) := by
  obtain ⟨δ, hδ, h⟩ := near_list (L := gs.flatMap cycleEdges) (Q := fun e t => ¬ OnSeg e (move q d t))
    fun e he => near_off d (hq e he)
  refine ⟨δ, hδ, fun t h0 ht => ⟨fun e he => h t h0 ht e he, (inside_walk fun e he z hz ho => ?_).symm⟩⟩
  obtain ⟨c, c0, c1, hx, hy⟩ := ho
  have hz' : z = move q d (c * t) := by
    refine coords_ext ?_ ?_
    · rw [hx]; simp only [move]; ring
    · rw [hy]; simp only [move]; ring
  rcases eq_or_lt_of_le c0 with hc | hc
  · refine hq e he ?_
    have : z = q := by rw [hz', ← hc]; refine coords_ext ?_ ?_ <;> simp [move]
    rwa [← this]
  · exact h (c * t) (mul_pos hc h0) (lt_of_le_of_lt (mul_le_of_le_one_left h0.le c1) ht) e he (by rwa [← hz'])

/-! ## Closed triangles -/

/-- `q` is in the closed triangle. -/
theorem inHull_iff {a b c q : Coords K} (h : 0 < orient a b c) :
    InHull (a, b, c) q ↔ 0 ≤ orient a b q ∧ 0 ≤ orient b c q ∧ 0 ≤ orient c a q := by
  constructor
  · rintro ⟨u, v, w, hu, hv, hw, h1, hx, hy⟩
    obtain rfl : u = 1 - v - w := by linarith
    have e1 : orient a b q = w * orient a b c := by simp only [orient, hx, hy]; ring
    have e2 : orient b c q = (1 - v - w) * orient a b c := by simp only [orient, hx, hy]; ring
    have e3 : orient c a q = v * orient a b c := by simp only [orient, hx, hy]; ring
    rw [e1, e2, e3]
    exact ⟨mul_nonneg hw h.le, mul_nonneg hu h.le, mul_nonneg hv h.le⟩
  · rintro ⟨h1, h2, h3⟩
    have hs := orient_split a b c q
    refine ⟨orient b c q / orient a b c, orient c a q / orient a b c, orient a b q / orient a b c,
      div_nonneg h2 h.le, div_nonneg h3 h.le, div_nonneg h1 h.le, ?_, ?_, ?_⟩
    · rw [← add_div, ← add_div, div_eq_one_iff_eq h.ne']; linarith
    · have hn := h.ne'
      field_simp
      simp only [orient]; ring
    · have hn := h.ne'
      field_simp
      simp only [orient]; ring

theorem near_inCCW {a b c q : Coords K} (h : InCCW a b c q) (d : Coords K) : Near fun t => InCCW a b c (move q d t) :=
  ((near_orient d h.1.ne').and ((near_orient d h.2.1.ne').and (near_orient d h.2.2.ne'))).imp
    fun _ _ k => ⟨k.1.1.2 h.1, k.2.1.1.2 h.2.1, k.2.2.1.2 h.2.2⟩

/-- From a point of the closed triangle towards its centre. -/
theorem near_centre {a b c q : Coords K} (h : 0 < orient a b c) (hq : InHull (a, b, c) q) :
    Near fun t => InCCW a b c (move q ⟨(a.x + b.x + c.x) / 3 - q.x, (a.y + b.y + c.y) / 3 - q.y⟩ t) := by
  obtain ⟨h1, h2, h3⟩ := (inHull_iff h).1 hq
  refine ⟨1, one_pos, fun t h0 ht => ?_⟩
  have e : ∀ u v : Coords K, orient u v (move q ⟨(a.x + b.x + c.x) / 3 - q.x, (a.y + b.y + c.y) / 3 - q.y⟩ t) =
      (1 - t) * orient u v q + t * (orient u v ⟨(a.x + b.x + c.x) / 3, (a.y + b.y + c.y) / 3⟩) := by
    intro u v; simp only [orient, move]; ring
  have c1 : orient a b ⟨(a.x + b.x + c.x) / 3, (a.y + b.y + c.y) / 3⟩ = orient a b c / 3 := by
    simp only [orient]; ring
  have c2 : orient b c ⟨(a.x + b.x + c.x) / 3, (a.y + b.y + c.y) / 3⟩ = orient a b c / 3 := by
    simp only [orient]; ring
  have c3 : orient c a ⟨(a.x + b.x + c.x) / 3, (a.y + b.y + c.y) / 3⟩ = orient a b c / 3 := by
    simp only [orient]; ring
  have hp : 0 < t * (orient a b c / 3) := mul_pos h0 (by linarith)
  have h1t : 0 ≤ 1 - t := by linarith
  refine ⟨?_, ?_, ?_⟩
  · rw [e, c1]; have := mul_nonneg h1t h1; linarith
  · rw [e, c2]; have := mul_nonneg h1t h2; linarith
  · rw [e, c3]; have := mul_nonneg h1t h3; linarith

variable {pl : I → Coords K} {gI : List (List I)} {T : List (I × I × I)} {fwd : I × I → Bool}

/-- A direction that leaves all sides of the triangles. -/
theorem leave_sides (T : List (I × I × I)) (pl : I → Coords K) (q : Coords K) :
    ∃ d : Coords K, Near fun t => ∀ s ∈ T, OffT (pl s.1) (pl s.2.1) (pl s.2.2) (move q d t) := by
  obtain ⟨d, hd, h⟩ := general_dir (T.flatMap fun s => [(pl s.1, pl s.2.1), (pl s.2.1, pl s.2.2), (pl s.2.2, pl s.1)])
  refine ⟨d, near_list fun s hs => ?_⟩
  have k : ∀ e ∈ [(pl s.1, pl s.2.1), (pl s.2.1, pl s.2.2), (pl s.2.2, pl s.1)], Near fun t => ¬ OnSeg e (move q d t) :=
    fun e he => near_leave hd (h e (List.mem_flatMap.2 ⟨s, hs, he⟩))
  exact ((k _ (by simp)).and ((k _ (by simp)).and (k _ (by simp)))).imp fun t _ h => h

/-- No two triangles overlap. -/
theorem MeshI.at_most_one (h : MeshI pl gI T fwd) (hv : ValidPolys (gI.map (List.map pl))) (q : Coords K) :
    (T.filter fun t => InTriangle (pl t.1, pl t.2.1, pl t.2.2) q).length ≤ 1 := by
  obtain ⟨d, hd⟩ := leave_sides T pl q
  have k : Near fun t => ∀ s ∈ T, InTriangle (pl s.1, pl s.2.1, pl s.2.2) q →
      InTriangle (pl s.1, pl s.2.1, pl s.2.2) (move q d t) := near_list fun s hs => by
    by_cases hin : InTriangle (pl s.1, pl s.2.1, pl s.2.2) q
    · refine (near_inCCW ((inTriangle_iff (h.pos s hs)).1 hin) d).imp fun t _ k _ => (inTriangle_iff (h.pos s hs)).2 k
    · exact Near.of_all fun t _ hn => absurd hn hin
  obtain ⟨t, -, h1, h2⟩ := (hd.and k).exists
  have hc := h.cover hv h1
  rw [← List.countP_eq_length_filter] at hc ⊢
  have hm := List.countP_mono_left (p := fun s : I × I × I => decide (InTriangle (pl s.1, pl s.2.1, pl s.2.2) q))
    (q := fun s : I × I × I => decide (InTriangle (pl s.1, pl s.2.1, pl s.2.2) (move q d t))) (l := T)
    fun s hs hin => decide_eq_true (h2 s hs (of_decide_eq_true hin))
  refine hm.trans ?_
  rw [hc]
  split <;> omega

/-- A triangle only has points inside. -/
theorem MeshI.hull_inside (h : MeshI pl gI T fwd) (hv : ValidPolys (gI.map (List.map pl))) {s : I × I × I} (hs : s ∈ T)
    (hp : orient (pl s.1) (pl s.2.1) (pl s.2.2) ≠ 0) {q : Coords K} (hq : OffEdges (gI.map (List.map pl)) q)
    (hin : InHull (pl s.1, pl s.2.1, pl s.2.2) q) : Inside (gI.map (List.map pl)) q := by
  have hp' := lt_of_le_of_ne (h.pos s hs) (Ne.symm hp)
  obtain ⟨t, -, h1, h2, h3⟩ := ((near_centre hp' hin).and (near_inside hq _)).exists
  rw [← h3]
  generalize move q _ t = q1 at h1 h2
  obtain ⟨d, hd⟩ := leave_sides T pl q1
  obtain ⟨t', -, k1, k2, -, k3⟩ := (hd.and ((near_inCCW h1 d).and (near_inside h2 d))).exists
  rw [← k3]
  have hc := h.cover hv k1
  by_contra hn
  rw [if_neg hn, List.length_eq_zero_iff, List.filter_eq_nil_iff] at hc
  exact hc s hs (decide_eq_true ((inTriangle_iff (h.pos s hs)).2 k2))

/-- Every point inside is in a triangle. -/
theorem MeshI.inside_hull (h : MeshI pl gI T fwd) (hv : ValidPolys (gI.map (List.map pl))) {q : Coords K}
    (hq : OffEdges (gI.map (List.map pl)) q) (hin : Inside (gI.map (List.map pl)) q) :
    ∃ s ∈ T, orient (pl s.1) (pl s.2.1) (pl s.2.2) ≠ 0 ∧ InHull (pl s.1, pl s.2.1, pl s.2.2) q := by
  by_contra hn
  push Not at hn
  obtain ⟨d, hd⟩ := leave_sides T pl q
  have k : Near fun t => ∀ s ∈ T, ¬ InCCW (pl s.1) (pl s.2.1) (pl s.2.2) (move q d t) := near_list fun s hs => by
    by_cases h0 : orient (pl s.1) (pl s.2.1) (pl s.2.2) = 0
    · refine Near.of_all fun t _ hc => ?_
      have := orient_split (pl s.1) (pl s.2.1) (pl s.2.2) (move q d t)
      linarith [hc.1, hc.2.1, hc.2.2]
    · have hp := lt_of_le_of_ne (h.pos s hs) (Ne.symm h0)
      have h1 := hn s hs h0
      rw [inHull_iff hp] at h1
      by_cases a1 : orient (pl s.1) (pl s.2.1) q < 0
      · exact (near_orient d a1.ne).imp fun t _ k hc => not_lt.2 hc.1.le (k.2.2 a1)
      by_cases a2 : orient (pl s.2.1) (pl s.2.2) q < 0
      · exact (near_orient d a2.ne).imp fun t _ k hc => not_lt.2 hc.2.1.le (k.2.2 a2)
      by_cases a3 : orient (pl s.2.2) (pl s.1) q < 0
      · exact (near_orient d a3.ne).imp fun t _ k hc => not_lt.2 hc.2.2.le (k.2.2 a3)
      exact absurd ⟨not_lt.1 a1, not_lt.1 a2, not_lt.1 a3⟩ h1
  obtain ⟨t, -, k1, k2, -, k3⟩ := (hd.and (k.and (near_inside hq d))).exists
  have hc := h.cover hv k1
  rw [if_pos (k3.2 hin)] at hc
  obtain ⟨s, hs⟩ := List.exists_mem_of_length_pos (by rw [hc]; exact one_pos)
  obtain ⟨hs, h'⟩ := List.mem_filter.1 hs
  exact k2 s hs ((inTriangle_iff (h.pos s hs)).1 (of_decide_eq_true h'))

/-! ## Points on edges -/

/-- Crossing an edge anywhere between its ends changes from inside to outside or back. -/
theorem MeshI.cross (h : MeshI pl gI T fwd) (hv : ValidPolys (gI.map (List.map pl))) {e : I × I}
    (he : e ∈ gI.flatMap cycleEdges) {m : Coords K} (hm : OnSeg (pl e.1, pl e.2) m) (h1 : m ≠ pl e.1) (h2 : m ≠ pl e.2) :
    ∃ d d' : Coords K, Near fun t => OffEdges (gI.map (List.map pl)) (move m d t) ∧
      OffEdges (gI.map (List.map pl)) (move m d' t) ∧
      ¬ (Inside (gI.map (List.map pl)) (move m d t) ∧ Inside (gI.map (List.map pl)) (move m d' t)) := by
  have hoff : ∀ e' ∈ gI.flatMap cycleEdges, e' ≠ e → ¬ OnSeg (pl e'.1, pl e'.2) m := by
    intro e' he' hne ho
    have hmem := edge_mem he
    have hmem' := edge_mem he'
    have hpne : (pl e.1, pl e.2) ≠ (pl e'.1, pl e'.2) := by
      intro h
      have := Prod.mk.inj h
      exact hne (Prod.ext (valid_inj hv hmem.1 hmem'.1 this.1).symm (valid_inj hv hmem.2 hmem'.2 this.2).symm)
    rcases (hv.meet _ (edge_placed he) _ (edge_placed he') hpne m hm ho).1 with k | k
    · exact h1 k
    · exact h2 k
  have offAll : ∀ {q : Coords K}, (∀ e' ∈ gI.flatMap cycleEdges, e' ≠ e → ¬ OnSeg (pl e'.1, pl e'.2) q) →
      orient (pl e.1) (pl e.2) q ≠ 0 → OffEdges (gI.map (List.map pl)) q := by
    intro q h1 h2 x hx ho
    rw [flatMap_cycleEdges_map] at hx
    obtain ⟨e', he', rfl⟩ := List.mem_map.1 hx
    by_cases hee : e' = e
    · subst hee; exact h2 (orient_onSeg ho)
    · exact h1 e' he' hee ho
  have n2 : ∀ d : Coords K, Near fun t => ∀ e' ∈ gI.flatMap cycleEdges, e' ≠ e →
      ¬ OnSeg (pl e'.1, pl e'.2) (move m d t) := fun d => near_list fun e' he' => by
    by_cases hee : e' = e
    · exact Near.of_all fun t _ hn => absurd hee hn
    · exact (near_off d (hoff e' he' hee)).imp fun t _ k _ => k
  have concl : ∀ {q q' : Coords K}, OffEdges (gI.map (List.map pl)) q → OffEdges (gI.map (List.map pl)) q' →
      (T.map (tsum fun a b => fy q (pl a) (pl b))).sum - (T.map (tsum fun a b => fy q' (pl a) (pl b))).sum ≠ 0 →
      ¬ (Inside (gI.map (List.map pl)) q ∧ Inside (gI.map (List.map pl)) q') := by
    intro q q' h1 h2 h3
    rw [h.inside_iff h1, h.inside_iff h2]
    omega
  have hsgn : (if fwd e then (1 : Int) else -1) = 1 ∨ (if fwd e then (1 : Int) else -1) = -1 := by
    cases fwd e <;> simp
  have om : orient (pl e.1) (pl e.2) m = 0 := orient_onSeg hm
  obtain ⟨c, c0, c1, hx, hy⟩ := hm
  simp only at hx hy
  have c0' : 0 < c := by
    refine lt_of_le_of_ne c0 fun h => h1 (coords_ext ?_ ?_)
    · rw [hx, ← h]; ring
    · rw [hy, ← h]; ring
  have c1' : c < 1 := by
    refine lt_of_le_of_ne c1 fun h => h2 (coords_ext ?_ ?_)
    · rw [hx, h]; ring
    · rw [hy, h]; ring
  have between : ∀ {a b z : K}, a < b → z = a + c * (b - a) → a < z ∧ z < b := by
    intro a b z hab hz
    have k1 := mul_pos c0' (sub_pos.2 hab)
    have k2 := mul_pos (sub_pos.2 c1') (sub_pos.2 hab)
    constructor <;> nlinarith
  have between' : ∀ {a b z : K}, b < a → z = a + c * (b - a) → b < z ∧ z < a := by
    intro a b z hab hz
    have k1 := mul_pos c0' (sub_pos.2 hab)
    have k2 := mul_pos (sub_pos.2 c1') (sub_pos.2 hab)
    constructor <;> nlinarith
  by_cases hyy : (pl e.1).y = (pl e.2).y
  · have hmy : m.y = (pl e.1).y := by rw [hy, hyy]; ring
    have hxx : (pl e.1).x ≠ (pl e.2).x := by
      intro hxx
      exact h1 (coords_ext (by rw [hx, hxx]; ring) hmy)
    refine ⟨⟨0, 1⟩, ⟨0, -1⟩, ?_⟩
    have n1 : Near fun t => ∀ e' ∈ gI.flatMap cycleEdges, e' ≠ e →
        fy (move m ⟨0, 1⟩ t) (pl e'.1) (pl e'.2) - fy (move m ⟨0, -1⟩ t) (pl e'.1) (pl e'.2) =
          west m (pl e'.2) - west m (pl e'.1) := near_list fun e' he' => by
      by_cases hee : e' = e
      · exact Near.of_all fun t _ hn => absurd hee hn
      · exact (near_steep (hoff e' he' hee)).imp fun t _ k _ => k
    refine (n1.and ((n2 ⟨0, 1⟩).and (n2 ⟨0, -1⟩))).imp fun t ht ⟨k1, k2, k3⟩ => ?_
    have hxt : t * ((pl e.2).x - (pl e.1).x) ≠ 0 := mul_ne_zero ht.ne' (sub_ne_zero.2 hxx.symm)
    have f1 := offAll k2 (by rw [orient_move, om]; simpa using hxt)
    have f2 := offAll k3 (by rw [orient_move, om]; simpa using ⟨ht.ne', sub_ne_zero.2 hxx⟩)
    refine ⟨f1, f2, concl f1 f2 ?_⟩
    have hj := h.jump hv he (q := move m ⟨0, 1⟩ t) (q' := move m ⟨0, -1⟩ t) (fun i => west m (pl i)) k1
    have z1 : fy (move m ⟨0, 1⟩ t) (pl e.1) (pl e.2) = 0 := by
      refine fy_beneath ?_ ?_ <;> simp only [move] <;> linarith
    have z2 : fy (move m ⟨0, -1⟩ t) (pl e.1) (pl e.2) = 0 := by
      refine fy_above ?_ ?_ <;> simp only [move] <;> linarith
    rw [z1, z2] at hj
    have w : west m (pl e.2) - west m (pl e.1) = 1 ∨ west m (pl e.2) - west m (pl e.1) = -1 := by
      rcases lt_or_gt_of_ne hxx with hlt | hlt
      · obtain ⟨b1, b2⟩ := between hlt hx
        right
        simp [west, hmy, ← hyy, b1, not_lt.2 b2.le]
      · obtain ⟨b1, b2⟩ := between' hlt hx
        left
        simp [west, hmy, ← hyy, b1, not_lt.2 b2.le]
    rw [hj]
    rcases hsgn with k | k <;> rw [k] <;> rcases w with w | w <;> rw [w] <;> decide
  · refine ⟨⟨1, 0⟩, ⟨-1, 0⟩, ?_⟩
    have n1 : Near fun t => ∀ e' ∈ gI.flatMap cycleEdges, e' ≠ e →
        fy (move m ⟨1, 0⟩ t) (pl e'.1) (pl e'.2) - fy (move m ⟨-1, 0⟩ t) (pl e'.1) (pl e'.2) =
          (fun _ : I => (0 : Int)) e'.2 - (fun _ : I => (0 : Int)) e'.1 := near_list fun e' he' => by
      by_cases hee : e' = e
      · exact Near.of_all fun t _ hn => absurd hee hn
      · exact (near_flat (hoff e' he' hee)).imp fun t _ k _ => by rw [k.1, k.2]; simp
    refine (n1.and ((n2 ⟨1, 0⟩).and (n2 ⟨-1, 0⟩))).imp fun t ht ⟨k1, k2, k3⟩ => ?_
    have o1 : orient (pl e.1) (pl e.2) (move m ⟨1, 0⟩ t) = - (((pl e.2).y - (pl e.1).y) * t) := by
      rw [orient_move, om]; simp only; ring
    have o2 : orient (pl e.1) (pl e.2) (move m ⟨-1, 0⟩ t) = ((pl e.2).y - (pl e.1).y) * t := by
      rw [orient_move, om]; simp only; ring
    have hyt : ((pl e.2).y - (pl e.1).y) * t ≠ 0 := mul_ne_zero (sub_ne_zero.2 (Ne.symm hyy)) ht.ne'
    have f1 := offAll k2 (by rw [o1]; exact neg_ne_zero.2 hyt)
    have f2 := offAll k3 (by rw [o2]; exact hyt)
    refine ⟨f1, f2, concl f1 f2 ?_⟩
    have hj := h.jump hv he (q := move m ⟨1, 0⟩ t) (q' := move m ⟨-1, 0⟩ t) (fun _ => 0) k1
    have my1 : (move m ⟨1, 0⟩ t).y = m.y := by simp [move]
    have my2 : (move m ⟨-1, 0⟩ t).y = m.y := by simp [move]
    rw [hj]
    rcases lt_or_gt_of_ne hyy with hlt | hlt
    · obtain ⟨b1, b2⟩ := between hlt hy
      have hp : 0 < ((pl e.2).y - (pl e.1).y) * t := mul_pos (sub_pos.2 hlt) ht
      have y1 : fy (move m ⟨1, 0⟩ t) (pl e.1) (pl e.2) = -1 := by
        rw [fy_up (by rw [my1]; exact b1.le) (by rw [my1]; exact b2), o1, if_pos (by linarith)]
      have y2 : fy (move m ⟨-1, 0⟩ t) (pl e.1) (pl e.2) = 0 := by
        rw [fy_up (by rw [my2]; exact b1.le) (by rw [my2]; exact b2), o2, if_neg (by linarith)]
      rw [y1, y2]
      rcases hsgn with k | k <;> rw [k] <;> decide
    · obtain ⟨b1, b2⟩ := between' hlt hy
      have hp : 0 < ((pl e.1).y - (pl e.2).y) * t := mul_pos (sub_pos.2 hlt) ht
      have y1 : fy (move m ⟨1, 0⟩ t) (pl e.1) (pl e.2) = 1 := by
        rw [fy_down (by rw [my1]; exact b2) (by rw [my1]; exact b1.le), o1, if_pos (by linarith)]
      have y2 : fy (move m ⟨-1, 0⟩ t) (pl e.1) (pl e.2) = 0 := by
        rw [fy_down (by rw [my2]; exact b2) (by rw [my2]; exact b1.le), o2, if_neg (by linarith)]
      rw [y1, y2]
      rcases hsgn with k | k <;> rw [k] <;> decide

/-- No edge passes through a triangle. -/
theorem MeshI.edge_not_in (h : MeshI pl gI T fwd) (hv : ValidPolys (gI.map (List.map pl))) {s : I × I × I} (hs : s ∈ T)
    {q : Coords K} (hq : ¬ OffEdges (gI.map (List.map pl)) q) : ¬ InTriangle (pl s.1, pl s.2.1, pl s.2.2) q := by
  intro hin
  rw [inTriangle_iff (h.pos s hs)] at hin
  unfold OffEdges at hq
  push Not at hq
  obtain ⟨x, hx, ho⟩ := hq
  rw [flatMap_cycleEdges_map] at hx
  obtain ⟨e, he, rfl⟩ := List.mem_map.1 hx
  have hm := edge_mem he
  have hd : pl e.1 ≠ pl e.2 := fun h =>
    edges_ne (valid_nodupI hv) (valid_three hv) he (valid_inj hv hm.1 hm.2 h)
  -- a point between the ends of the edge
  obtain ⟨m, hm, m1, m2, hmin⟩ : ∃ m, OnSeg (pl e.1, pl e.2) m ∧ m ≠ pl e.1 ∧ m ≠ pl e.2 ∧
      InCCW (pl s.1) (pl s.2.1) (pl s.2.2) m := by
    have nz : ∀ {u v : Coords K} {t : K}, u ≠ v → t ≠ 0 → move u ⟨v.x - u.x, v.y - u.y⟩ t ≠ u := by
      intro u v t huv ht h
      have hx := congrArg Coords.x h
      have hy := congrArg Coords.y h
      simp only [move, add_eq_left, mul_eq_zero, ht, false_or] at hx hy
      exact huv (coords_ext (by linarith) (by linarith))
    have no : ∀ {u v : Coords K} {t : K}, u ≠ v → t ≠ 1 → move u ⟨v.x - u.x, v.y - u.y⟩ t ≠ v := by
      intro u v t huv ht h
      have hx := congrArg Coords.x h
      have hy := congrArg Coords.y h
      simp only [move] at hx hy
      have k1 : (t - 1) * (v.x - u.x) = 0 := by linarith
      have k2 : (t - 1) * (v.y - u.y) = 0 := by linarith
      have ht' := sub_ne_zero.2 ht
      simp only [mul_eq_zero, ht', false_or] at k1 k2
      exact huv (coords_ext (by linarith) (by linarith))
    have one : Near fun t : K => t < 1 := ⟨1, one_pos, fun t _ h => h⟩
    by_cases q1 : q = pl e.1
    · obtain ⟨t, t0, t1, k⟩ := (one.and (near_inCCW hin ⟨(pl e.2).x - (pl e.1).x, (pl e.2).y - (pl e.1).y⟩)).exists
      rw [q1] at k
      exact ⟨_, ⟨t, t0.le, t1.le, rfl, rfl⟩, nz hd t0.ne', no hd t1.ne, k⟩
    · by_cases q2 : q = pl e.2
      · obtain ⟨t, t0, t1, k⟩ := (one.and (near_inCCW hin ⟨(pl e.1).x - (pl e.2).x, (pl e.1).y - (pl e.2).y⟩)).exists
        rw [q2] at k
        exact ⟨_, onSeg_rev ⟨t, t0.le, t1.le, rfl, rfl⟩, no hd.symm t1.ne, nz hd.symm t0.ne', k⟩
      · exact ⟨q, ho, q1, q2, hin⟩
  have hp : orient (pl s.1) (pl s.2.1) (pl s.2.2) ≠ 0 := by
    have := orient_split (pl s.1) (pl s.2.1) (pl s.2.2) m
    have := hmin.1
    have := hmin.2.1
    have := hmin.2.2
    intro h0
    linarith
  have hp' := lt_of_le_of_ne (h.pos s hs) (Ne.symm hp)
  obtain ⟨d, d', hn⟩ := h.cross hv he hm m1 m2
  obtain ⟨t, -, ⟨k1, k2, k3⟩, k4, k5⟩ := (hn.and ((near_inCCW hmin d).and (near_inCCW hmin d'))).exists
  exact k3 ⟨h.hull_inside hv hs hp k1 ((inHull_iff hp').2 ⟨k4.1.le, k4.2.1.le, k4.2.2.le⟩),
    h.hull_inside hv hs hp k2 ((inHull_iff hp').2 ⟨k5.1.le, k5.2.1.le, k5.2.2.le⟩)⟩

end Tri
