import Verif.Proof.Everywhere

/-!
# How two triangles meet
-/

set_option linter.unusedSectionVars false

namespace Tri

variable {I V K : Type} [Field K] [LinearOrder K] [IsStrictOrderedRing K] [DecidableEq I]

attribute [local instance] exact

/-- Strictly inside the side from `a` to `b` of the triangle `a b c`. -/
def Amid (a b c q : Coords K) : Prop := orient a b q = 0 ∧ 0 < orient b c q ∧ 0 < orient c a q

/-- From inside a side to the left. -/
theorem near_side {a b c q d : Coords K} (h : Amid a b c q) (hd : 0 < (b.x - a.x) * d.y - (b.y - a.y) * d.x) :
    Near fun t => InCCW a b c (move q d t) :=
  ((near_orient d h.2.1.ne').and (near_orient d h.2.2.ne')).imp fun t ht k => by
    refine ⟨?_, k.1.1.2 h.2.1, k.2.1.2 h.2.2⟩
    rw [orient_move, h.1, zero_add]
    exact mul_pos ht hd

/-- Where a point of a closed triangle may be. -/
theorem hull_cases {a b c q : Coords K} (h : 0 < orient a b c) (hq : InHull (a, b, c) q) :
    InCCW a b c q ∨ (q = a ∨ q = b ∨ q = c) ∨ Amid a b c q ∨ Amid b c a q ∨ Amid c a b q := by
  obtain ⟨u, v, w, hu, hv, hw, h1, hx, hy⟩ := hq
  obtain rfl : u = 1 - v - w := by linarith
  simp only at hx hy
  have e1 : orient a b q = w * orient a b c := by simp only [orient, hx, hy]; ring
  have e2 : orient b c q = (1 - v - w) * orient a b c := by simp only [orient, hx, hy]; ring
  have e3 : orient c a q = v * orient a b c := by simp only [orient, hx, hy]; ring
  rcases eq_or_lt_of_le hu with k1 | k1 <;> rcases eq_or_lt_of_le hv with k2 | k2 <;> rcases eq_or_lt_of_le hw with k3 | k3
  · exfalso; linarith
  · refine .inr (.inl (.inr (.inr (coords_ext ?_ ?_))))
    · have : w = 1 := by linarith
      rw [hx, ← k1, ← k2, this]; ring
    · have : w = 1 := by linarith
      rw [hy, ← k1, ← k2, this]; ring
  · refine .inr (.inl (.inr (.inl (coords_ext ?_ ?_))))
    · have : v = 1 := by linarith
      rw [hx, ← k1, ← k3, this]; ring
    · have : v = 1 := by linarith
      rw [hy, ← k1, ← k3, this]; ring
  · exact .inr (.inr (.inr (.inl ⟨by rw [e2, ← k1, zero_mul], by rw [e3]; exact mul_pos k2 h, by rw [e1]; exact mul_pos k3 h⟩)))
  · refine .inr (.inl (.inl (coords_ext ?_ ?_)))
    · rw [hx, ← k2, ← k3]; ring
    · rw [hy, ← k2, ← k3]; ring
  · exact .inr (.inr (.inr (.inr ⟨by rw [e3, ← k2, zero_mul], by rw [e1]; exact mul_pos k3 h, by rw [e2]; exact mul_pos k1 h⟩)))
  · exact .inr (.inr (.inl ⟨by rw [e1, ← k3, zero_mul], by rw [e2]; exact mul_pos k1 h, by rw [e3]; exact mul_pos k2 h⟩))
  · exact .inl ⟨by rw [e1]; exact mul_pos k3 h, by rw [e2]; exact mul_pos k1 h, by rw [e3]; exact mul_pos k2 h⟩

theorem Amid.onSeg {a b c q : Coords K} (h : Amid a b c q) : OnSeg (a, b) q := by
  obtain ⟨h1, h2, h3⟩ := h
  have hs := orient_split a b c q
  have hp : 0 < orient a b c := by linarith
  have e : orient c a q = orient a b c - orient b c q := by linarith
  refine ⟨orient c a q / orient a b c, (div_pos h3 hp).le, (div_le_one hp).2 (by linarith), ?_, ?_⟩
  · have : (q.x - a.x) * orient a b c = orient c a q * (b.x - a.x) := by
      have : (q.x - a.x) * orient a b c - orient c a q * (b.x - a.x) = orient a b q * (c.x - a.x) := by
        simp only [orient]; ring
      rw [h1] at this; linarith
    field_simp
    linarith
  · have : (q.y - a.y) * orient a b c = orient c a q * (b.y - a.y) := by
      have : (q.y - a.y) * orient a b c - orient c a q * (b.y - a.y) = orient a b q * (c.y - a.y) := by
        simp only [orient]; ring
      rw [h1] at this; linarith
    field_simp
    linarith

theorem Amid.ne {a b c q : Coords K} (h : Amid a b c q) : q ≠ a ∧ q ≠ b ∧ q ≠ c := by
  obtain ⟨h1, h2, h3⟩ := h
  refine ⟨?_, ?_, ?_⟩ <;> rintro rfl
  · have : orient c q q = 0 := by simp only [orient]; ring
    linarith
  · have : orient q c q = 0 := by simp only [orient]; ring
    linarith
  · have : orient b q q = 0 := by simp only [orient]; ring
    linarith

/-- Sides that cross belong to triangles that overlap. -/
theorem cross_overlap {a b c a' b' c' q : Coords K} (h : Amid a b c q) (h' : Amid a' b' c' q)
    (hd : (b.x - a.x) * (b'.y - a'.y) - (b.y - a.y) * (b'.x - a'.x) ≠ 0) :
    ∃ z, InCCW a b c z ∧ InCCW a' b' c' z := by
  have hD := mul_self_pos.2 hd
  set D := (b.x - a.x) * (b'.y - a'.y) - (b.y - a.y) * (b'.x - a'.x) with hDe
  obtain ⟨t, -, k1, k2⟩ := ((near_side (d := ⟨D * ((b'.x - a'.x) - (b.x - a.x)), D * ((b'.y - a'.y) - (b.y - a.y))⟩) h (by
      have : (b.x - a.x) * (D * ((b'.y - a'.y) - (b.y - a.y))) - (b.y - a.y) * (D * ((b'.x - a'.x) - (b.x - a.x))) = D * D := by
        rw [hDe]; ring
      simpa only [this] using hD)).and (near_side (d := ⟨D * ((b'.x - a'.x) - (b.x - a.x)), D * ((b'.y - a'.y) - (b.y - a.y))⟩) h' (by
      have : (b'.x - a'.x) * (D * ((b'.y - a'.y) - (b.y - a.y))) - (b'.y - a'.y) * (D * ((b'.x - a'.x) - (b.x - a.x))) = D * D := by
        rw [hDe]; ring
      simpa only [this] using hD))).exists
  exact ⟨_, k1, k2⟩

theorem filter_two {α : Type} {p : α → Bool} {l : List α} {i j : Nat} {a b : α} (hi : l[i]? = some a) (hj : l[j]? = some b)
    (hij : i < j) (ha : p a = true) (hb : p b = true) : 2 ≤ (l.filter p).length := by
  have h1 : a ∈ (l.take j).filter p := by
    refine List.mem_filter.2 ⟨List.mem_of_getElem? (i := i) ?_, ha⟩
    rw [List.getElem?_take_of_lt hij]; exact hi
  have h2 : b ∈ (l.drop j).filter p := by
    refine List.mem_filter.2 ⟨List.mem_of_getElem? (i := 0) ?_, hb⟩
    rw [List.getElem?_drop]; exact hj
  have := List.length_pos_of_mem h1
  have := List.length_pos_of_mem h2
  rw [← List.take_append_drop j l, List.filter_append, List.length_append]
  omega

variable {pl : I → Coords K} {gI : List (List I)} {T : List (I × I × I)} {fwd : I × I → Bool}

/-- Two triangles of the list have no inner point in common. -/
theorem MeshI.apart (h : MeshI pl gI T fwd) (hv : ValidPolys (gI.map (List.map pl))) {i j : Nat} {t t' : I × I × I}
    (hi : T[i]? = some t) (hj : T[j]? = some t') (hij : i ≠ j) {z : Coords K}
    (h1 : InCCW (pl t.1) (pl t.2.1) (pl t.2.2) z) (h2 : InCCW (pl t'.1) (pl t'.2.1) (pl t'.2.2) z) : False := by
  have k := h.at_most_one hv z
  have k1 := decide_eq_true ((inTriangle_iff (h.pos t (List.mem_of_getElem? hi))).2 h1)
  have k2 := decide_eq_true ((inTriangle_iff (h.pos t' (List.mem_of_getElem? hj))).2 h2)
  rcases lt_or_gt_of_ne hij with hlt | hlt
  · have := filter_two (p := fun t => decide (InTriangle (pl t.1, pl t.2.1, pl t.2.2) z)) hi hj hlt k1 k2
    omega
  · have := filter_two (p := fun t => decide (InTriangle (pl t.1, pl t.2.1, pl t.2.2) z)) hj hi hlt k2 k1
    omega

/-- The side from `u` to `v` of the triangle `t`, and the third corner. -/
def SideOf (t : I × I × I) (u v w : I) : Prop := t = (u, v, w) ∨ t = (w, u, v) ∨ t = (v, w, u)

theorem SideOf.inCCW {t : I × I × I} {u v w : I} (h : SideOf t u v w) {q : Coords K} (hq : InCCW (pl u) (pl v) (pl w) q) :
    InCCW (pl t.1) (pl t.2.1) (pl t.2.2) q := by
  obtain ⟨h1, h2, h3⟩ := hq
  rcases h with rfl | rfl | rfl
  · exact ⟨h1, h2, h3⟩
  · exact ⟨h3, h1, h2⟩
  · exact ⟨h2, h3, h1⟩

theorem SideOf.corner {t : I × I × I} {u v w : I} (h : SideOf t u v w) : Corner t u ∧ Corner t v ∧ Corner t w := by
  rcases h with rfl | rfl | rfl <;> simp [Corner]

/-- Crossing sides of two triangles are parallel. -/
theorem MeshI.parallel (h : MeshI pl gI T fwd) (hv : ValidPolys (gI.map (List.map pl))) {i j : Nat} {t t' : I × I × I}
    (hi : T[i]? = some t) (hj : T[j]? = some t') (hij : i ≠ j) {u v w u' v' w' : I} (hs : SideOf t u v w)
    (hs' : SideOf t' u' v' w') {q : Coords K} (hq : Amid (pl u) (pl v) (pl w) q) (hq' : Amid (pl u') (pl v') (pl w') q) :
    ((pl v).x - (pl u).x) * ((pl v').y - (pl u').y) - ((pl v).y - (pl u).y) * ((pl v').x - (pl u').x) = 0 := by
  by_contra hd
  obtain ⟨z, k1, k2⟩ := cross_overlap hq hq' hd
  exact h.apart hv hi hj hij (hs.inCCW k1) (hs'.inCCW k2)

/-- Where a point of a closed triangle may be, with the names of the corners. -/
theorem hull_casesI {t : I × I × I} (hp : 0 < orient (pl t.1) (pl t.2.1) (pl t.2.2)) {q : Coords K}
    (hq : InHull (pl t.1, pl t.2.1, pl t.2.2) q) :
    InCCW (pl t.1) (pl t.2.1) (pl t.2.2) q ∨ (∃ v, Corner t v ∧ q = pl v) ∨
      ∃ u v w, SideOf t u v w ∧ Amid (pl u) (pl v) (pl w) q := by
  obtain ⟨a, b, c⟩ := t
  rcases hull_cases hp hq with k | (k | k | k) | k | k | k
  · exact .inl k
  · exact .inr (.inl ⟨a, .inl rfl, k⟩)
  · exact .inr (.inl ⟨b, .inr (.inl rfl), k⟩)
  · exact .inr (.inl ⟨c, .inr (.inr rfl), k⟩)
  · exact .inr (.inr ⟨a, b, c, .inl rfl, k⟩)
  · exact .inr (.inr ⟨b, c, a, .inr (.inl rfl), k⟩)
  · exact .inr (.inr ⟨c, a, b, .inr (.inr rfl), k⟩)

/-- A point inside one triangle is not in another one. -/
theorem MeshI.not_hull (h : MeshI pl gI T fwd) (hv : ValidPolys (gI.map (List.map pl))) {i j : Nat} {t t' : I × I × I}
    (hi : T[i]? = some t) (hj : T[j]? = some t') (hij : i ≠ j) {q : Coords K}
    (h1 : InCCW (pl t.1) (pl t.2.1) (pl t.2.2) q) (hp : 0 < orient (pl t'.1) (pl t'.2.1) (pl t'.2.2))
    (h2 : InHull (pl t'.1, pl t'.2.1, pl t'.2.2) q) : False := by
  obtain ⟨s, -, k1, k2⟩ := ((near_centre hp h2).and (near_inCCW h1 _)).exists
  exact h.apart hv hi hj hij k2 k1

theorem MeshI.corner_mem (h : MeshI pl gI T fwd) {t : I × I × I} (ht : t ∈ T) {v : I} (hc : Corner t v) :
    v ∈ gI.flatten := by
  obtain ⟨h1, h2, h3⟩ := h.mem t ht
  rcases hc with rfl | rfl | rfl <;> assumption

theorem place_mem {v : I} (h : v ∈ gI.flatten) : pl v ∈ (gI.map (List.map pl)).flatten := by
  rw [← List.map_flatten]; exact List.mem_map_of_mem h

/-- In general position a vertex on a side is an end of it. -/
theorem MeshI.on_side (h : MeshI pl gI T fwd) (hg : GeneralPosition (gI.map (List.map pl))) {t : I × I × I} (ht : t ∈ T)
    {u v w z : I} (hs : SideOf t u v w) (hz : z ∈ gI.flatten) (hq : orient (pl u) (pl v) (pl z) = 0) :
    pl z = pl u ∨ pl z = pl v := by
  by_contra hn
  push Not at hn
  have hu := place_mem (pl := pl) (h.corner_mem ht hs.corner.1)
  have hv := place_mem (pl := pl) (h.corner_mem ht hs.corner.2.1)
  refine hg _ hu _ hv _ (place_mem hz) ?_ (Ne.symm hn.2) hn.1 hq
  obtain ⟨d1, d2, d3⟩ := h.dist t ht
  rcases hs with rfl | rfl | rfl
  · exact d1
  · exact d2
  · exact d3

/-- In general position every triangle has a positive area. -/
theorem MeshI.area_pos (h : MeshI pl gI T fwd) (hg : GeneralPosition (gI.map (List.map pl))) {t : I × I × I} (ht : t ∈ T) :
    0 < orient (pl t.1) (pl t.2.1) (pl t.2.2) := by
  obtain ⟨m1, m2, m3⟩ := h.mem t ht
  obtain ⟨d1, d2, d3⟩ := h.dist t ht
  exact lt_of_le_of_ne (h.pos t ht) (hg _ (place_mem m1) _ (place_mem m2) _ (place_mem m3) d1 d2 d3).symm

/-- In general position two triangles meet in a common face. -/
theorem MeshI.conform (h : MeshI pl gI T fwd) (hv : ValidPolys (gI.map (List.map pl)))
    (hg : GeneralPosition (gI.map (List.map pl))) {i j : Nat} {t t' : I × I × I}
    (hi : T[i]? = some t) (hj : T[j]? = some t') (hij : i ≠ j) {q : Coords K}
    (h1 : InHull (pl t.1, pl t.2.1, pl t.2.2) q) (h2 : InHull (pl t'.1, pl t'.2.1, pl t'.2.2) q) :
    (∃ v, Corner t v ∧ Corner t' v ∧ q = pl v) ∨
      ∃ u v, u ≠ v ∧ Corner t u ∧ Corner t' u ∧ Corner t v ∧ Corner t' v ∧ OnSeg (pl u, pl v) q := by
  have ht := List.mem_of_getElem? hi
  have ht' := List.mem_of_getElem? hj
  have hp := h.area_pos hg ht
  have hp' := h.area_pos hg ht'
  have inj : ∀ {a b : I}, a ∈ gI.flatten → b ∈ gI.flatten → pl a = pl b → a = b := fun ha hb e => valid_inj hv ha hb e
  rcases hull_casesI hp h1 with k | ⟨v, kc, k⟩ | ⟨u, v, w, ks, k⟩
  · exact (h.not_hull hv hi hj hij k hp' h2).elim
  · rcases hull_casesI hp' h2 with k' | ⟨v', kc', k'⟩ | ⟨u', v', w', ks', k'⟩
    · exact (h.not_hull hv hj hi hij.symm k' hp h1).elim
    · have := inj (h.corner_mem ht kc) (h.corner_mem ht' kc') (k.symm.trans k')
      subst this
      exact .inl ⟨v, kc, kc', k⟩
    · have := h.on_side hg ht' ks' (h.corner_mem ht kc) (by rw [← k]; exact k'.1)
      rw [← k] at this
      rcases this with e | e
      · exact absurd e k'.ne.1
      · exact absurd e k'.ne.2.1
  · rcases hull_casesI hp' h2 with k' | ⟨v', kc', k'⟩ | ⟨u', v', w', ks', k'⟩
    · exact (h.not_hull hv hj hi hij.symm k' hp h1).elim
    · have := h.on_side hg ht ks (h.corner_mem ht' kc') (by rw [← k']; exact k.1)
      rw [← k'] at this
      rcases this with e | e
      · exact absurd e k.ne.1
      · exact absurd e k.ne.2.1
    · have hpar := h.parallel hv hi hj hij ks ks' k k'
      have hcol : orient (pl u) (pl v) (pl u') = 0 ∧ orient (pl u) (pl v) (pl v') = 0 := by
        obtain ⟨s, -, -, sx, sy⟩ := k'.onSeg
        have k1 := k.1
        simp only at sx sy
        constructor
        · have : orient (pl u) (pl v) (pl u') = orient (pl u) (pl v) q -
              s * (((pl v).x - (pl u).x) * ((pl v').y - (pl u').y) - ((pl v).y - (pl u).y) * ((pl v').x - (pl u').x)) := by
            simp only [orient, sx, sy]; ring
          rw [this, k1, hpar]; ring
        · have : orient (pl u) (pl v) (pl v') = orient (pl u) (pl v) q +
              (1 - s) * (((pl v).x - (pl u).x) * ((pl v').y - (pl u').y) - ((pl v).y - (pl u).y) * ((pl v').x - (pl u').x)) := by
            simp only [orient, sx, sy]; ring
          rw [this, k1, hpar]; ring
      have cu := ks.corner
      have cu' := ks'.corner
      have mu := h.corner_mem ht cu.1
      have mv := h.corner_mem ht cu.2.1
      have mu' := h.corner_mem ht' cu'.1
      have mv' := h.corner_mem ht' cu'.2.1
      have d' : u' ≠ v' := by
        intro e
        obtain ⟨d1, d2, d3⟩ := h.dist t' ht'
        subst e
        rcases ks' with rfl | rfl | rfl
        · exact d1 rfl
        · exact d2 rfl
        · exact d3 rfl
      refine .inr ⟨u', v', d', ?_, cu'.1, ?_, cu'.2.1, k'.onSeg⟩
      · rcases h.on_side hg ht ks mu' hcol.1 with e | e
        · rw [inj mu' mu e]; exact cu.1
        · rw [inj mu' mv e]; exact cu.2.1
      · rcases h.on_side hg ht ks mv' hcol.2 with e | e
        · rw [inj mv' mu e]; exact cu.1
        · rw [inj mv' mv e]; exact cu.2.1

/-- A directed side belongs to one triangle of positive area only. -/
theorem MeshI.side_once (h : MeshI pl gI T fwd) (hv : ValidPolys (gI.map (List.map pl))) {i j : Nat} {t t' : I × I × I}
    (hi : T[i]? = some t) (hj : T[j]? = some t') {u v w w' : I} (hs : SideOf t u v w) (hs' : SideOf t' u v w')
    (hp : 0 < orient (pl u) (pl v) (pl w)) (hp' : 0 < orient (pl u) (pl v) (pl w')) : i = j := by
  by_contra hij
  have hm : ∀ {z : Coords K}, 0 < orient (pl u) (pl v) z →
      Amid (pl u) (pl v) z ⟨((pl u).x + (pl v).x) / 2, ((pl u).y + (pl v).y) / 2⟩ := by
    intro z hz
    have e1 : orient (pl u) (pl v) ⟨((pl u).x + (pl v).x) / 2, ((pl u).y + (pl v).y) / 2⟩ = 0 := by
      simp only [orient]; ring
    have e2 : orient (pl v) z ⟨((pl u).x + (pl v).x) / 2, ((pl u).y + (pl v).y) / 2⟩ = orient (pl u) (pl v) z / 2 := by
      simp only [orient]; ring
    have e3 : orient z (pl u) ⟨((pl u).x + (pl v).x) / 2, ((pl u).y + (pl v).y) / 2⟩ = orient (pl u) (pl v) z / 2 := by
      simp only [orient]; ring
    exact ⟨e1, by rw [e2]; linarith, by rw [e3]; linarith⟩
  obtain ⟨s, -, k1, k2⟩ := ((near_side (d := ⟨(pl w).x - (pl u).x, (pl w).y - (pl u).y⟩) (hm hp) hp).and
    (near_side (d := ⟨(pl w).x - (pl u).x, (pl w).y - (pl u).y⟩) (hm hp') hp)).exists
  exact h.apart hv hi hj hij (hs.inCCW k1) (hs'.inCCW k2)

theorem sideOf_of_mem {t : I × I × I} {e : I × I} (h : e ∈ sides t) : ∃ w, SideOf t e.1 e.2 w := by
  obtain ⟨a, b, c⟩ := t
  simp only [sides, List.mem_cons, List.not_mem_nil, or_false] at h
  rcases h with rfl | rfl | rfl
  · exact ⟨c, .inl rfl⟩
  · exact ⟨a, .inr (.inl rfl)⟩
  · exact ⟨b, .inr (.inr rfl)⟩

/-- If all areas are positive, no directed side occurs twice. -/
theorem MeshI.sides_nodup (h : MeshI pl gI T fwd) (hv : ValidPolys (gI.map (List.map pl)))
    (hp : ∀ t ∈ T, 0 < orient (pl t.1) (pl t.2.1) (pl t.2.2)) : (T.flatMap sides).Nodup := by
  rw [List.nodup_flatMap]
  constructor
  · intro t ht
    obtain ⟨d1, d2, d3⟩ := h.dist t ht
    have e1 : t.1 ≠ t.2.1 := fun e => d1 (congrArg pl e)
    have e2 : t.2.1 ≠ t.2.2 := fun e => d2 (congrArg pl e)
    have e3 : t.2.2 ≠ t.1 := fun e => d3 (congrArg pl e)
    obtain ⟨a, b, c⟩ := t
    simp only at e1 e2 e3
    simp [sides, e1, e2, e3.symm]
  · rw [List.pairwise_iff_getElem]
    intro i j hi hj hij
    rw [Function.onFun, List.disjoint_left]
    intro e he he'
    obtain ⟨w, hw⟩ := sideOf_of_mem he
    obtain ⟨w', hw'⟩ := sideOf_of_mem he'
    have pos : ∀ {t : I × I × I} {u v w : I}, t ∈ T → SideOf t u v w → 0 < orient (pl u) (pl v) (pl w) := by
      intro t u v w ht hs
      have := hp t ht
      rcases hs with rfl | rfl | rfl
      · exact this
      · rw [← orient_rot] at this; exact this
      · rw [orient_rot] at this; exact this
    have := h.side_once hv (List.getElem?_eq_getElem hi) (List.getElem?_eq_getElem hj) hw hw'
      (pos (List.getElem_mem hi) hw) (pos (List.getElem_mem hj) hw')
    omega

end Tri
