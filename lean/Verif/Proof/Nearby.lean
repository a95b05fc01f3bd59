import Verif.Proof.Cover
import Verif.Proof.ValidCheck

/-!
# What does not change near a point
-/

set_option linter.unusedSectionVars false

namespace Tri

variable {K : Type} [Field K] [LinearOrder K] [IsStrictOrderedRing K]

/-- True for all small positive numbers. -/
def Near (Q : K → Prop) : Prop := ∃ δ > 0, ∀ t, 0 < t → t < δ → Q t

theorem Near.and {Q R : K → Prop} (h : Near Q) (h' : Near R) : Near fun t => Q t ∧ R t := by
  obtain ⟨d, hd, h⟩ := h
  obtain ⟨d', hd', h'⟩ := h'
  exact ⟨min d d', lt_min hd hd', fun t h0 ht => ⟨h t h0 (lt_of_lt_of_le ht (min_le_left _ _)),
    h' t h0 (lt_of_lt_of_le ht (min_le_right _ _))⟩⟩

theorem Near.imp {Q R : K → Prop} (h : Near Q) (hi : ∀ t, 0 < t → Q t → R t) : Near R := by
  obtain ⟨d, hd, h⟩ := h
  exact ⟨d, hd, fun t h0 ht => hi t h0 (h t h0 ht)⟩

theorem Near.of_all {Q : K → Prop} (h : ∀ t, 0 < t → Q t) : Near Q := ⟨1, one_pos, fun t h0 _ => h t h0⟩

theorem Near.exists {Q : K → Prop} (h : Near Q) : ∃ t, 0 < t ∧ Q t := by
  obtain ⟨d, hd, h⟩ := h
  exact ⟨d / 2, by linarith, h _ (by linarith) (by linarith)⟩

theorem near_list {α : Type} {Q : α → K → Prop} {L : List α} (h : ∀ e ∈ L, Near (Q e)) : Near fun t => ∀ e ∈ L, Q e t := by
  induction L with
  | nil => exact Near.of_all (by simp)
  | cons a L ih =>
    refine ((h a (by simp)).and (ih fun e he => h e (by simp [he]))).imp fun t _ ht e he => ?_
    rcases List.mem_cons.1 he with rfl | he
    · exact ht.1
    · exact ht.2 e he

theorem near_pos {c : K} (d : K) (hc : 0 < c) : Near fun t => 0 < c + t * d := by
  have hd : (0 : K) < |d| + 1 := by positivity
  refine ⟨c / (|d| + 1), div_pos hc hd, fun t h0 ht => ?_⟩
  rw [lt_div_iff₀ hd] at ht
  have := mul_le_mul_of_nonneg_left (neg_abs_le d) h0.le
  nlinarith

theorem near_neg {c : K} (d : K) (hc : c < 0) : Near fun t => c + t * d < 0 := by
  refine (near_pos (-d) (neg_pos.2 hc)).imp fun t _ h => ?_
  linarith

theorem near_ne {c : K} (d : K) (hc : c ≠ 0) : Near fun t => c + t * d ≠ 0 := by
  rcases lt_or_gt_of_ne hc with h | h
  · exact (near_neg d h).imp fun t _ h => h.ne
  · exact (near_pos d h).imp fun t _ h => h.ne'

theorem near_iff {c : K} (d : K) (hc : c ≠ 0) : Near fun t => (0 < c + t * d ↔ 0 < c) ∧ (c + t * d < 0 ↔ c < 0) := by
  rcases lt_or_gt_of_ne hc with h | h
  · exact (near_neg d h).imp fun t _ h' => ⟨⟨fun k => absurd k (not_lt.2 h'.le), fun k => absurd k (not_lt.2 h.le)⟩,
      ⟨fun _ => h, fun _ => h'⟩⟩
  · exact (near_pos d h).imp fun t _ h' => ⟨⟨fun _ => h, fun _ => h'⟩,
      ⟨fun k => absurd k (not_lt.2 h'.le), fun k => absurd k (not_lt.2 h.le)⟩⟩

/-- The point `m`, moved. -/
def move (m d : Coords K) (t : K) : Coords K := ⟨m.x + t * d.x, m.y + t * d.y⟩

theorem orient_move (a b m d : Coords K) (t : K) :
    orient a b (move m d t) = orient a b m + t * ((b.x - a.x) * d.y - (b.y - a.y) * d.x) := by
  simp only [orient, move]; ring

theorem near_orient {a b m : Coords K} (d : Coords K) (ho : orient a b m ≠ 0) :
    Near fun t => (0 < orient a b (move m d t) ↔ 0 < orient a b m) ∧ (orient a b (move m d t) < 0 ↔ orient a b m < 0) := by
  simp only [orient_move]
  exact near_iff _ ho

theorem convex_lt {a b c t : K} (ha : c < a) (hb : c < b) (h0 : 0 ≤ t) (h1 : t ≤ 1) : c < a + t * (b - a) := by
  rcases eq_or_lt_of_le h0 with h | h
  · rw [← h]; simpa using ha
  · have := mul_lt_mul_of_pos_left hb h
    have := mul_le_mul_of_nonneg_left ha.le (sub_nonneg.2 h1)
    nlinarith

theorem convex_gt {a b c t : K} (ha : a < c) (hb : b < c) (h0 : 0 ≤ t) (h1 : t ≤ 1) : a + t * (b - a) < c := by
  have := convex_lt (neg_lt_neg ha) (neg_lt_neg hb) h0 h1
  nlinarith

theorem frac_mem {a b m : K} (hab : a ≠ b) (h1 : ¬ (m < a ∧ m < b)) (h2 : ¬ (a < m ∧ b < m)) :
    0 ≤ (m - a) / (b - a) ∧ (m - a) / (b - a) ≤ 1 := by
  rcases lt_or_gt_of_ne hab with h | h
  · have hd : 0 < b - a := by linarith
    have k1 : a ≤ m := by by_contra hn; exact h1 ⟨not_le.1 hn, by linarith [not_le.1 hn]⟩
    have k2 : m ≤ b := by by_contra hn; exact h2 ⟨by linarith [not_le.1 hn], not_le.1 hn⟩
    exact ⟨div_nonneg (by linarith) hd.le, (div_le_one hd).2 (by linarith)⟩
  · have hd : 0 < a - b := by linarith
    have k1 : b ≤ m := by by_contra hn; exact h1 ⟨by linarith [not_le.1 hn], not_le.1 hn⟩
    have k2 : m ≤ a := by by_contra hn; exact h2 ⟨not_le.1 hn, by linarith [not_le.1 hn]⟩
    rw [show (m - a) / (b - a) = (a - m) / (a - b) by rw [← neg_sub a m, ← neg_sub a b, neg_div_neg_eq]]
    exact ⟨div_nonneg (by linarith) hd.le, (div_le_one hd).2 (by linarith)⟩

/-- A point on the line of a segment and not beyond its ends. -/
theorem onSeg_box {a b m : Coords K} (h : orient a b m = 0) (h1 : ¬ (m.x < a.x ∧ m.x < b.x)) (h2 : ¬ (a.x < m.x ∧ b.x < m.x))
    (h3 : ¬ (m.y < a.y ∧ m.y < b.y)) (h4 : ¬ (a.y < m.y ∧ b.y < m.y)) : OnSeg (a, b) m := by
  by_cases hx : a.x = b.x
  · have ex : m.x = a.x := by
      rw [← hx] at h1 h2
      simp only [and_self] at h1 h2
      exact le_antisymm (not_lt.1 h2) (not_lt.1 h1)
    by_cases hy : a.y = b.y
    · have ey : m.y = a.y := by
        rw [← hy] at h3 h4
        simp only [and_self] at h3 h4
        exact le_antisymm (not_lt.1 h4) (not_lt.1 h3)
      exact ⟨0, le_rfl, zero_le_one, by simp [ex], by simp [ey]⟩
    · obtain ⟨k1, k2⟩ := frac_mem hy h3 h4
      refine ⟨_, k1, k2, by simp [ex, hx], ?_⟩
      simp only
      rw [div_mul_cancel₀ _ (sub_ne_zero.2 (Ne.symm hy))]; ring
  · obtain ⟨k1, k2⟩ := frac_mem hx h1 h2
    have hd : b.x - a.x ≠ 0 := sub_ne_zero.2 (Ne.symm hx)
    refine ⟨_, k1, k2, ?_, ?_⟩
    · simp only
      rw [div_mul_cancel₀ _ hd]; ring
    · simp only
      have : m.y - a.y = (m.x - a.x) * (b.y - a.y) / (b.x - a.x) := by
        rw [eq_div_iff hd]
        unfold orient at h
        linarith
      rw [div_mul_eq_mul_div, ← this]; ring

/-- Points near a point off a segment are off it. -/
theorem near_off {a b m : Coords K} (d : Coords K) (h : ¬ OnSeg (a, b) m) : Near fun t => ¬ OnSeg (a, b) (move m d t) := by
  by_cases ho : orient a b m = 0
  · by_cases h1 : m.x < a.x ∧ m.x < b.x
    · refine ((near_pos (-d.x) (sub_pos.2 h1.1)).and (near_pos (-d.x) (sub_pos.2 h1.2))).imp fun t _ ⟨k1, k2⟩ => ?_
      rintro ⟨s, h0, h1, hx, -⟩
      have := convex_lt (show (move m d t).x < a.x by simp only [move]; linarith)
        (show (move m d t).x < b.x by simp only [move]; linarith) h0 h1
      simp only at hx
      rw [← hx] at this
      exact lt_irrefl _ this
    by_cases h2 : a.x < m.x ∧ b.x < m.x
    · refine ((near_pos d.x (sub_pos.2 h2.1)).and (near_pos d.x (sub_pos.2 h2.2))).imp fun t _ ⟨k1, k2⟩ => ?_
      rintro ⟨s, h0, h1, hx, -⟩
      have := convex_gt (show a.x < (move m d t).x by simp only [move]; linarith)
        (show b.x < (move m d t).x by simp only [move]; linarith) h0 h1
      simp only at hx
      rw [← hx] at this
      exact lt_irrefl _ this
    by_cases h3 : m.y < a.y ∧ m.y < b.y
    · refine ((near_pos (-d.y) (sub_pos.2 h3.1)).and (near_pos (-d.y) (sub_pos.2 h3.2))).imp fun t _ ⟨k1, k2⟩ => ?_
      rintro ⟨s, h0, h1, -, hx⟩
      have := convex_lt (show (move m d t).y < a.y by simp only [move]; linarith)
        (show (move m d t).y < b.y by simp only [move]; linarith) h0 h1
      simp only at hx
      rw [← hx] at this
      exact lt_irrefl _ this
    by_cases h4 : a.y < m.y ∧ b.y < m.y
    · refine ((near_pos d.y (sub_pos.2 h4.1)).and (near_pos d.y (sub_pos.2 h4.2))).imp fun t _ ⟨k1, k2⟩ => ?_
      rintro ⟨s, h0, h1, -, hx⟩
      have := convex_gt (show a.y < (move m d t).y by simp only [move]; linarith)
        (show b.y < (move m d t).y by simp only [move]; linarith) h0 h1
      simp only at hx
      rw [← hx] at this
      exact lt_irrefl _ this
    exact absurd (onSeg_box ho h1 h2 h3 h4) h
  · refine (near_ne ((b.x - a.x) * d.y - (b.y - a.y) * d.x) ho).imp fun t _ hn hon => hn ?_
    rw [← orient_move a b m d t]
    exact orient_onSeg hon

/-- Moving sideways off an edge does not change how it is crossed. -/
theorem near_flat {a b m : Coords K} (h : ¬ OnSeg (a, b) m) :
    Near fun t => fy (move m ⟨1, 0⟩ t) a b = fy m a b ∧ fy (move m ⟨-1, 0⟩ t) a b = fy m a b := by
  have hy : ∀ s t : K, (move m ⟨s, 0⟩ t).y = m.y := by intro s t; simp [move]
  rcases lt_or_ge m.y a.y with ha | ha <;> rcases lt_or_ge m.y b.y with hb | hb
  · exact Near.of_all fun t _ => by
      rw [fy_above ha hb, fy_above (by rw [hy]; exact ha) (by rw [hy]; exact hb),
        fy_above (by rw [hy]; exact ha) (by rw [hy]; exact hb)]; exact ⟨rfl, rfl⟩
  · have ho : orient a b m ≠ 0 := fun ho => h (onSeg_height hb ha ho)
    refine ((near_orient ⟨1, 0⟩ ho).and (near_orient ⟨-1, 0⟩ ho)).imp fun t _ ⟨k1, k2⟩ => ?_
    rw [fy_down ha hb, fy_down (by rw [hy]; exact ha) (by rw [hy]; exact hb),
        fy_down (by rw [hy]; exact ha) (by rw [hy]; exact hb)]
    exact ⟨if_congr k1.1 rfl rfl, if_congr k2.1 rfl rfl⟩
  · have ho : orient a b m ≠ 0 := fun ho => h (onSeg_rev (onSeg_height ha hb (by rw [orient_rev, ho, neg_zero])))
    refine ((near_orient ⟨1, 0⟩ ho).and (near_orient ⟨-1, 0⟩ ho)).imp fun t _ ⟨k1, k2⟩ => ?_
    rw [fy_up ha hb, fy_up (by rw [hy]; exact ha) (by rw [hy]; exact hb),
        fy_up (by rw [hy]; exact ha) (by rw [hy]; exact hb)]
    exact ⟨if_congr k1.2 rfl rfl, if_congr k2.2 rfl rfl⟩
  · exact Near.of_all fun t _ => by
      rw [fy_beneath ha hb, fy_beneath (by rw [hy]; exact ha) (by rw [hy]; exact hb),
        fy_beneath (by rw [hy]; exact ha) (by rw [hy]; exact hb)]; exact ⟨rfl, rfl⟩

/-- The points on the level of `m`, left of it. -/
def west (m a : Coords K) : Int := if a.y = m.y ∧ a.x < m.x then 1 else 0

theorem west_not {m a : Coords K} (h : a.y ≠ m.y) : west m a = 0 := by simp [west, h]

theorem near_above {c y : K} (h : y < c) : Near fun t => y + t < c := by
  refine (near_pos (-1) (sub_pos.2 h)).imp fun t _ k => by linarith

theorem near_below {c y : K} (h : c < y) : Near fun t => c < y - t := by
  refine (near_pos (-1) (sub_pos.2 h)).imp fun t _ k => by linarith

/-- Moving up past the level of a point changes the crossings by the ends on that level. -/
theorem near_steep {a b m : Coords K} (h : ¬ OnSeg (a, b) m) :
    Near fun t => fy (move m ⟨0, 1⟩ t) a b - fy (move m ⟨0, -1⟩ t) a b = west m b - west m a := by
  have hu : ∀ t : K, (move m ⟨0, 1⟩ t).y = m.y + t := by intro t; simp [move]
  have hl : ∀ t : K, (move m ⟨0, -1⟩ t).y = m.y - t := by intro t; simp [move]; ring
  have hma : a ≠ m := fun e => h (by rw [e]; exact ⟨0, le_rfl, zero_le_one, by simp, by simp⟩)
  have hmb : b ≠ m := fun e => h (by rw [e]; exact ⟨1, zero_le_one, le_rfl, by simp, by simp⟩)
  have hxa : a.y = m.y → a.x ≠ m.x := fun h1 h2 => hma (by cases a; cases m; simp_all)
  have hxb : b.y = m.y → b.x ≠ m.x := fun h1 h2 => hmb (by cases b; cases m; simp_all)
  rcases lt_trichotomy a.y m.y with ha | ha | ha <;> rcases lt_trichotomy b.y m.y with hb | hb | hb
  · refine ((near_below ha).and (near_below hb)).imp fun t ht ⟨k1, k2⟩ => ?_
    rw [fy_beneath (by rw [hu]; linarith) (by rw [hu]; linarith), fy_beneath (by rw [hl]; linarith) (by rw [hl]; linarith),
      west_not ha.ne, west_not hb.ne]
  · -- up to the level
    have ho : orient a b m ≠ 0 := by
      have e : orient a b m = (m.y - a.y) * (b.x - m.x) := by unfold orient; rw [hb]; ring
      rw [e]; exact mul_ne_zero (sub_ne_zero.2 ha.ne') (sub_ne_zero.2 (hxb hb))
    refine ((near_below ha).and (near_orient ⟨0, -1⟩ ho)).imp fun t ht ⟨k1, k2⟩ => ?_
    rw [fy_beneath (by rw [hu]; linarith) (by rw [hu]; linarith), fy_up (by rw [hl]; linarith) (by rw [hl]; linarith),
      west_not ha.ne]
    have e : orient a b m < 0 ↔ b.x < m.x := by
      have e : orient a b m = (m.y - a.y) * (b.x - m.x) := by unfold orient; rw [hb]; ring
      rw [e, mul_neg_iff]
      constructor
      · rintro (h | h) <;> linarith [h.1, h.2]
      · intro h; exact .inl ⟨by linarith, by linarith⟩
    simp only [k2.2, e, west, hb, true_and]
    split <;> rfl
  · have ho : orient a b m ≠ 0 := fun ho => h (onSeg_rev (onSeg_height ha.le hb (by rw [orient_rev, ho, neg_zero])))
    refine (((near_below ha).and (near_above hb)).and ((near_orient ⟨0, 1⟩ ho).and (near_orient ⟨0, -1⟩ ho))).imp fun t ht ⟨⟨k1, k2⟩, k3, k4⟩ => ?_
    rw [fy_up (by rw [hu]; linarith) (by rw [hu]; linarith), fy_up (by rw [hl]; linarith) (by rw [hl]; linarith),
      west_not ha.ne, west_not hb.ne']
    simp only [k3.2, k4.2, sub_self]
  · have ho : orient a b m ≠ 0 := by
      have e : orient a b m = (b.y - m.y) * (a.x - m.x) := by unfold orient; rw [ha]; ring
      rw [e]; exact mul_ne_zero (sub_ne_zero.2 hb.ne) (sub_ne_zero.2 (hxa ha))
    refine ((near_below hb).and (near_orient ⟨0, -1⟩ ho)).imp fun t ht ⟨k1, k2⟩ => ?_
    rw [fy_beneath (by rw [hu]; linarith) (by rw [hu]; linarith), fy_down (by rw [hl]; linarith) (by rw [hl]; linarith),
      west_not hb.ne]
    have e : 0 < orient a b m ↔ a.x < m.x := by
      have e : orient a b m = (b.y - m.y) * (a.x - m.x) := by unfold orient; rw [ha]; ring
      rw [e, mul_pos_iff]
      constructor
      · rintro (h | h) <;> linarith [h.1, h.2]
      · intro h; exact .inr ⟨by linarith, by linarith⟩
    simp only [k2.1, e, west, ha, true_and]
  · refine Near.of_all fun t ht => ?_
    rw [fy_beneath (by rw [hu]; linarith) (by rw [hu]; linarith), fy_above (by rw [hl]; linarith) (by rw [hl]; linarith)]
    have hab : a.x < m.x ↔ b.x < m.x := by
      constructor
      · intro h1
        by_contra h2
        exact h (onSeg_flat ha hb h1 (lt_of_le_of_ne (not_lt.1 h2) (Ne.symm (hxb hb))))
      · intro h1
        by_contra h2
        exact h (onSeg_rev (onSeg_flat hb ha h1 (lt_of_le_of_ne (not_lt.1 h2) (Ne.symm (hxa ha)))))
    simp only [west, ha, hb, hab, sub_self]
  · have ho : orient a b m ≠ 0 := by
      have e : orient a b m = (b.y - m.y) * (a.x - m.x) := by unfold orient; rw [ha]; ring
      rw [e]; exact mul_ne_zero (sub_ne_zero.2 hb.ne') (sub_ne_zero.2 (hxa ha))
    refine ((near_above hb).and (near_orient ⟨0, 1⟩ ho)).imp fun t ht ⟨k1, k2⟩ => ?_
    rw [fy_up (by rw [hu]; linarith) (by rw [hu]; linarith), fy_above (by rw [hl]; linarith) (by rw [hl]; linarith),
      west_not hb.ne']
    have e : orient a b m < 0 ↔ a.x < m.x := by
      have e : orient a b m = (b.y - m.y) * (a.x - m.x) := by unfold orient; rw [ha]; ring
      rw [e, mul_neg_iff]
      constructor
      · rintro (h | h) <;> linarith [h.1, h.2]
      · intro h; exact .inl ⟨by linarith, by linarith⟩
    simp only [k2.2, e, west, ha, true_and]
    split <;> rfl
  · have ho : orient a b m ≠ 0 := fun ho => h (onSeg_height hb.le ha ho)
    refine (((near_above ha).and (near_below hb)).and ((near_orient ⟨0, 1⟩ ho).and (near_orient ⟨0, -1⟩ ho))).imp fun t ht ⟨⟨k1, k2⟩, k3, k4⟩ => ?_
    rw [fy_down (by rw [hu]; linarith) (by rw [hu]; linarith), fy_down (by rw [hl]; linarith) (by rw [hl]; linarith),
      west_not ha.ne', west_not hb.ne]
    simp only [k3.1, k4.1, sub_self]
  · have ho : orient a b m ≠ 0 := by
      have e : orient a b m = (m.y - a.y) * (b.x - m.x) := by unfold orient; rw [hb]; ring
      rw [e]; exact mul_ne_zero (sub_ne_zero.2 ha.ne) (sub_ne_zero.2 (hxb hb))
    refine ((near_above ha).and (near_orient ⟨0, 1⟩ ho)).imp fun t ht ⟨k1, k2⟩ => ?_
    rw [fy_down (by rw [hu]; linarith) (by rw [hu]; linarith), fy_above (by rw [hl]; linarith) (by rw [hl]; linarith),
      west_not ha.ne']
    have e : 0 < orient a b m ↔ b.x < m.x := by
      have e : orient a b m = (m.y - a.y) * (b.x - m.x) := by unfold orient; rw [hb]; ring
      rw [e, mul_pos_iff]
      constructor
      · rintro (h | h) <;> linarith [h.1, h.2]
      · intro h; exact .inr ⟨by linarith, by linarith⟩
    simp only [k2.1, e, west, hb, true_and]
  · refine ((near_above ha).and (near_above hb)).imp fun t ht ⟨k1, k2⟩ => ?_
    rw [fy_above (by rw [hu]; linarith) (by rw [hu]; linarith), fy_above (by rw [hl]; linarith) (by rw [hl]; linarith),
      west_not ha.ne', west_not hb.ne']

end Tri
