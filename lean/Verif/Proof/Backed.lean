import Verif.Proof.Manifold

/-!
# Sides do not cross
-/

namespace Tri

variable {I K : Type} [Field K] [LinearOrder K] [IsStrictOrderedRing K] [DecidableEq I]

theorem Parallel.symm {s s' : Coords K × Coords K} (h : Parallel s s') : Parallel s' s := by
  unfold Parallel at *; linarith

theorem Parallel.refl (s : Coords K × Coords K) : Parallel s s := by
  unfold Parallel; ring

theorem Parallel.trans {s t r : Coords K × Coords K} (h1 : Parallel s t) (h2 : Parallel t r) (ht : t.1 ≠ t.2) : Parallel s r := by
  unfold Parallel at *
  have h : t.2.x - t.1.x ≠ 0 ∨ t.2.y - t.1.y ≠ 0 := by
    by_contra hn
    push Not at hn
    exact ht (coords_ext (by linarith [hn.1]) (by linarith [hn.2]))
  generalize t.2.x - t.1.x = x at *
  generalize t.2.y - t.1.y = y at *
  generalize s.2.x - s.1.x = a at *
  generalize s.2.y - s.1.y = b at *
  generalize r.2.x - r.1.x = c at *
  generalize r.2.y - r.1.y = d at *
  rcases h with h | h
  · refine mul_left_cancel₀ h ?_
    calc x * (a * d) = a * (x * d) := by ring
      _ = a * y * c := by rw [h2]; ring
      _ = x * (b * c) := by rw [h1]; ring
  · refine mul_left_cancel₀ h ?_
    calc y * (a * d) = a * y * d := by ring
      _ = b * (x * d) := by rw [h1]; ring
      _ = y * (b * c) := by rw [h2]; ring

/-- A point in the middle of a side. -/
theorem amid_of_onSeg {a b c q : Coords K} (h : OnSeg (a, b) q) (ha : q ≠ a) (hb : q ≠ b) (hp : 0 < orient a b c) :
    Amid a b c q := by
  obtain ⟨s, s0, s1, hx, hy⟩ := h
  simp only at hx hy
  have k0 : s ≠ 0 := by
    rintro rfl
    exact ha (coords_ext (by rw [hx]; ring) (by rw [hy]; ring))
  have k1 : s ≠ 1 := by
    rintro rfl
    exact hb (coords_ext (by rw [hx]; ring) (by rw [hy]; ring))
  have e2 : orient b c q = (1 - s) * orient a b c := by simp only [orient, hx, hy]; ring
  have e3 : orient c a q = s * orient a b c := by simp only [orient, hx, hy]; ring
  refine ⟨by simp only [orient, hx, hy]; ring, ?_, ?_⟩
  · rw [e2]; exact mul_pos (sub_pos.2 (lt_of_le_of_ne s1 k1)) hp
  · rw [e3]; exact mul_pos (lt_of_le_of_ne s0 k0.symm) hp

section
variable {pl : I → Coords K} {gI : List (List I)} {T : List (I × I × I)} {fwd : I × I → Bool} {u v : I} {μ : K}

omit [DecidableEq I] in
theorem Over.onSeg {Q : K → Prop} (huv : pl u ≠ pl v) {a b : I} (h : Over pl u v μ Q a b) :
    OnSeg (pl a, pl b) (move (pl u) ⟨(pl v).x - (pl u).x, (pl v).y - (pl u).y⟩ μ) := by
  obtain ⟨h1, h2, h3, h4, -⟩ := h
  obtain ⟨ax, ay⟩ := along_point huv h1
  obtain ⟨bx, by'⟩ := along_point huv h2
  generalize along (pl u) (pl v) (pl a) = α at *
  generalize along (pl u) (pl v) (pl b) = β at *
  have hd : 0 < β - α := by linarith
  refine ⟨(μ - α) / (β - α), div_nonneg (by linarith) hd.le, (div_le_one hd).2 (by linarith), ?_, ?_⟩
  · simp only [move, ax, bx]; field_simp; ring
  · simp only [move, ay, by']; field_simp; ring

omit [DecidableEq I] in
theorem line_parallel (huv : pl u ≠ pl v) {a b : I} (h1 : orient (pl u) (pl v) (pl a) = 0)
    (h2 : orient (pl u) (pl v) (pl b) = 0) : Parallel (pl u, pl v) (pl a, pl b) := by
  obtain ⟨ax, ay⟩ := along_point huv h1
  obtain ⟨bx, by'⟩ := along_point huv h2
  unfold Parallel
  simp only [ax, ay, bx, by']
  ring

/-- An edge, or a side of a triangle of positive area, passes through `q` in the direction of `s`. -/
def Thick (pl : I → Coords K) (gI : List (List I)) (T : List (I × I × I)) (s : Coords K × Coords K) (q : Coords K) : Prop :=
  (∃ e ∈ gI.flatMap cycleEdges, OnSeg (pl e.1, pl e.2) q ∧ Parallel s (pl e.1, pl e.2)) ∨
    ∃ t ∈ T, ∃ a b w, SideOf t a b w ∧ Amid (pl a) (pl b) (pl w) q ∧ Parallel s (pl a, pl b)

/-- The sides of a triangle without area, those up to some length counted. -/
theorem flat_ge {a b c : I} {l : K} (ha : orient (pl u) (pl v) (pl a) = 0) (hb : orient (pl u) (pl v) (pl b) = 0)
    (hc : orient (pl u) (pl v) (pl c) = 0) (hab : along (pl u) (pl v) (pl a) < along (pl u) (pl v) (pl b))
    (hbc : along (pl u) (pl v) (pl b) < along (pl u) (pl v) (pl c)) (hb' : along (pl u) (pl v) (pl b) ≠ μ) :
    0 ≤ overs pl u v μ (fun x => x ≤ l) a b + overs pl u v μ (fun x => x ≤ l) b c + overs pl u v μ (fun x => x ≤ l) c a ∧
    ((Over pl u v μ (fun x => x ≤ l) a b ∨ Over pl u v μ (fun x => x ≤ l) b c) → ¬ Over pl u v μ (fun x => x ≤ l) a c →
      1 ≤ overs pl u v μ (fun x => x ≤ l) a b + overs pl u v μ (fun x => x ≤ l) b c + overs pl u v μ (fun x => x ≤ l) c a) := by
  have n1 : ¬ Over pl u v μ (fun x => x ≤ l) b a := fun k => absurd (k.2.2.1.trans k.2.2.2.1) (not_lt.2 hab.le)
  have n2 : ¬ Over pl u v μ (fun x => x ≤ l) c b := fun k => absurd (k.2.2.1.trans k.2.2.2.1) (not_lt.2 hbc.le)
  have n3 : ¬ Over pl u v μ (fun x => x ≤ l) c a :=
    fun k => absurd (k.2.2.1.trans k.2.2.2.1) (not_lt.2 (hab.trans hbc).le)
  have p1 : 0 ≤ overs pl u v μ (fun x => x ≤ l) a b := by unfold overs; rw [if_neg n1]; split <;> omega
  have p2 : 0 ≤ overs pl u v μ (fun x => x ≤ l) b c := by unfold overs; rw [if_neg n2]; split <;> omega
  constructor
  · by_cases n4 : Over pl u v μ (fun x => x ≤ l) a c
    · rw [overs_down n4]
      obtain ⟨-, -, k1, k2, k3⟩ := n4
      rcases lt_or_gt_of_ne hb' with k | k
      · rw [overs_up (a := b) (b := c) ⟨hb, hc, k, k2, by linarith⟩]; omega
      · rw [overs_up (a := a) (b := b) ⟨ha, hb, k1, k, by linarith⟩]; omega
    · rw [overs_none n3 n4]; omega
  · intro h n4
    rw [overs_none n3 n4]
    rcases h with h | h
    · rw [overs_up h]; omega
    · rw [overs_up h]; omega

/-- Every side lies, at a point that is no vertex, along an edge or a side of a triangle of positive area. -/
theorem MeshI.backed (h : MeshI pl gI T fwd) {t : I × I × I} (ht : t ∈ T) {a b : I} (hs : (a, b) ∈ sides t)
    {q : Coords K} (hq : OnSeg (pl a, pl b) q) (hnv : ∀ z ∈ gI.flatten, pl z ≠ q) : Thick pl gI T (pl a, pl b) q := by
  obtain ⟨w, hw⟩ := sideOf_of_mem hs
  have hab : pl a ≠ pl b := by
    obtain ⟨d1, d2, d3⟩ := h.dist t ht
    rcases hw with rfl | rfl | rfl
    · exact d1
    · exact d2
    · exact d3
  have hqa := hnv a (h.corner_mem ht hw.corner.1)
  have hqb := hnv b (h.corner_mem ht hw.corner.2.1)
  rcases eq_or_lt_of_le (h.pos t ht) with h0 | hp
  swap
  · exact .inr ⟨t, ht, a, b, w, hw, amid_of_onSeg hq hqa.symm hqb.symm (hw.orient (pl := pl) ▸ hp), .refl _⟩
  by_contra hth
  -- the line, upwards
  obtain ⟨u, v, huv, hup, hou, hov, hcol, hpar⟩ : ∃ u v : I, pl u ≠ pl v ∧ Upward (pl u) (pl v) ∧
      orient (pl u) (pl v) (pl a) = 0 ∧ orient (pl u) (pl v) (pl b) = 0 ∧ orient (pl u) (pl v) q = 0 ∧
      Parallel (pl a, pl b) (pl u, pl v) := by
    have ho := orient_onSeg hq
    rcases upward_or hab with k | k
    · exact ⟨a, b, hab, k, by simp only [orient]; ring, by simp only [orient]; ring, ho, .refl _⟩
    · refine ⟨b, a, hab.symm, k, by simp only [orient]; ring, by simp only [orient]; ring, ?_, by unfold Parallel; simp only; ring⟩
      have : orient (pl b) (pl a) q = - orient (pl a) (pl b) q := by simp only [orient]; ring
      rw [this, ho, neg_zero]
  obtain ⟨μ, hμ⟩ : ∃ μ, along (pl u) (pl v) q = μ := ⟨_, rfl⟩
  have hqm : move (pl u) ⟨(pl v).x - (pl u).x, (pl v).y - (pl u).y⟩ μ = q := by
    obtain ⟨k1, k2⟩ := along_point huv hcol
    rw [hμ] at k1 k2
    exact coords_ext (by simp only [move]; rw [k1]) (by simp only [move]; rw [k2])
  have hz : ∀ z ∈ gI.flatten, orient (pl u) (pl v) (pl z) = 0 → along (pl u) (pl v) (pl z) ≠ μ := by
    intro z hzm hzo he
    exact hnv z hzm (along_inj huv hzo hcol (he.trans hμ.symm))
  -- no edge and no triangle of positive area counts
  have hnE : ∀ (Q : K → Prop), ∀ e ∈ gI.flatMap cycleEdges, overs pl u v μ Q (turn fwd e).1 (turn fwd e).2 = 0 := by
    intro Q e he
    have n1 : ¬ Over pl u v μ Q e.1 e.2 := fun k => hth (.inl ⟨e, he, hqm ▸ k.onSeg huv,
      hpar.trans (line_parallel huv k.1 k.2.1) huv⟩)
    have n2 : ¬ Over pl u v μ Q e.2 e.1 := fun k => hth (.inl ⟨e, he, hqm ▸ onSeg_rev (k.onSeg huv),
      hpar.trans (line_parallel huv k.2.1 k.1) huv⟩)
    unfold turn
    split
    · exact overs_none n1 n2
    · exact overs_none n2 n1
  have hnT : ∀ (Q : K → Prop), ∀ t ∈ T, 0 < orient (pl t.1) (pl t.2.1) (pl t.2.2) → tsum (overs pl u v μ Q) t = 0 := by
    intro Q t ht hp
    obtain ⟨k1, k2⟩ := tsum_pos (μ := μ) (Q := Q) huv hp
    by_cases hn : ∃ a b w, SideOf t a b w ∧ orient (pl u) (pl v) (pl a) = 0 ∧ orient (pl u) (pl v) (pl b) = 0
    · obtain ⟨a', b', w', hs', ha', hb'⟩ := hn
      rw [k1 a' b' w' hs' ha' hb']
      have hp' : 0 < orient (pl a') (pl b') (pl w') := hs'.orient (pl := pl) ▸ hp
      refine overs_none (fun k => ?_) (fun k => ?_)
      · exact hth (.inr ⟨t, ht, a', b', w', hs', hqm ▸ Over.amid huv (.inl k) hp', hpar.trans (line_parallel huv ha' hb') huv⟩)
      · exact hth (.inr ⟨t, ht, a', b', w', hs', hqm ▸ Over.amid huv (.inr k) hp', hpar.trans (line_parallel huv ha' hb') huv⟩)
    · exact k2 hn
  -- a short side of this triangle over the point
  obtain ⟨x, y, z, hsx, hx, hy, hzz, hxy, hyz⟩ :
      ∃ x y z, SideOf t x y z ∧ orient (pl u) (pl v) (pl x) = 0 ∧ orient (pl u) (pl v) (pl y) = 0 ∧
      orient (pl u) (pl v) (pl z) = 0 ∧ along (pl u) (pl v) (pl x) < along (pl u) (pl v) (pl y) ∧
      along (pl u) (pl v) (pl y) < along (pl u) (pl v) (pl z) := by
    rcases h.tsum_flat (μ := μ) huv hup ht h0.symm with ⟨-, k⟩ | k
    · exact absurd ⟨a, b, w, hw, hou, hov⟩ k
    · exact k
  have hy' := hz y (h.corner_mem ht hsx.corner.2.1) hy
  have hxz : along (pl u) (pl v) (pl x) < μ ∧ μ < along (pl u) (pl v) (pl z) := by
    -- the point is between `a` and `b`
    have bet : ∀ lo hi : K, (∀ c, Corner t c → lo ≤ along (pl u) (pl v) (pl c) ∧ along (pl u) (pl v) (pl c) ≤ hi) → lo ≤ μ ∧ μ ≤ hi := by
      intro lo hi hb
      obtain ⟨la, ha⟩ := hb a hw.corner.1
      obtain ⟨lb, hb⟩ := hb b hw.corner.2.1
      obtain ⟨s, s0, s1, qx, qy⟩ := hq
      simp only at qx qy
      have e : μ = along (pl u) (pl v) (pl a) + s * (along (pl u) (pl v) (pl b) - along (pl u) (pl v) (pl a)) := by
        rw [← hμ]
        unfold along
        split
        · rw [qx]; ring
        · rw [qy]; ring
      rw [e]
      constructor <;> nlinarith
    obtain ⟨k1, k2⟩ := bet (along (pl u) (pl v) (pl x)) (along (pl u) (pl v) (pl z)) (by
      intro c hc
      have : c = x ∨ c = y ∨ c = z := by
        rcases hsx with rfl | rfl | rfl <;> rcases hc with k | k | k <;> simp only at k <;> simp [k]
      rcases this with rfl | rfl | rfl
      · exact ⟨le_rfl, (hxy.trans hyz).le⟩
      · exact ⟨hxy.le, hyz.le⟩
      · exact ⟨(hxy.trans hyz).le, le_rfl⟩)
    exact ⟨lt_of_le_of_ne k1 (hz x (h.corner_mem ht hsx.corner.1) hx), lt_of_le_of_ne k2 (hz z (h.corner_mem ht hsx.corner.2.2) hzz).symm⟩
  obtain ⟨l, ho, hno⟩ : ∃ l : K, (Over pl u v μ (fun r => r ≤ l) x y ∨ Over pl u v μ (fun r => r ≤ l) y z) ∧
      ¬ Over pl u v μ (fun r => r ≤ l) x z := by
    rcases lt_or_gt_of_ne hy' with k | k
    · refine ⟨along (pl u) (pl v) (pl z) - along (pl u) (pl v) (pl y), .inr ⟨hy, hzz, k, hxz.2, le_rfl⟩, ?_⟩
      rintro ⟨-, -, -, -, k⟩
      linarith
    · refine ⟨along (pl u) (pl v) (pl y) - along (pl u) (pl v) (pl x), .inl ⟨hx, hy, hxz.1, k, le_rfl⟩, ?_⟩
      rintro ⟨-, -, -, -, k⟩
      linarith
  have hsum := h.sum Int _ (overs_anti pl u v μ fun r => r ≤ l)
  have hE0 : esum (overs pl u v μ fun r => r ≤ l) ((gI.flatMap cycleEdges).map (turn fwd)) = 0 := by
    rw [esum_turn]
    refine List.sum_eq_zero fun r hr => ?_
    obtain ⟨e, he, rfl⟩ := List.mem_map.1 hr
    exact hnE _ e he
  have hge : ∀ r ∈ T.map (tsum (overs pl u v μ fun r => r ≤ l)), 0 ≤ r := by
    intro r hr
    obtain ⟨t', ht', rfl⟩ := List.mem_map.1 hr
    rcases eq_or_lt_of_le (h.pos t' ht') with k0 | kp
    · rcases h.tsum_flat (μ := μ) huv hup ht' k0.symm with ⟨k, -⟩ | ⟨a', b', c', hs', ha', hb', hc', k1, k2⟩
      · rw [k]
      · rw [hs'.tsum]
        exact (flat_ge ha' hb' hc' k1 k2 (hz b' (h.corner_mem ht' hs'.corner.2.1) hb')).1
    · rw [hnT _ t' ht' kp]
  have h1 : 1 ≤ tsum (overs pl u v μ fun r => r ≤ l) t := by
    rw [hsx.tsum]
    exact (flat_ge hx hy hzz hxy hyz hy').2 ho hno
  have h2 := List.single_le_sum hge _ (List.mem_map.2 ⟨t, ht, rfl⟩)
  rw [hsum, hE0] at h2
  omega

/-- No side passes through the inside of a triangle. -/
theorem MeshI.side_not_in (h : MeshI pl gI T fwd) (hv : ValidPolys (gI.map (List.map pl))) {t t' : I × I × I} (ht : t ∈ T)
    (ht' : t' ∈ T) {e : I × I} (he : e ∈ sides t) {q : Coords K} (hq : OnSeg (pl e.1, pl e.2) q) :
    ¬ InTriangle (pl t'.1, pl t'.2.1, pl t'.2.2) q := by
  intro hin
  by_cases hnv : ∀ z ∈ gI.flatten, pl z ≠ q
  · have hin' := (inTriangle_iff (h.pos t' ht')).1 hin
    rcases h.backed ht he hq hnv with ⟨x, hx, ho, -⟩ | ⟨r, hr, a, b, w, hs, ha, -⟩
    · exact h.edge_not_in hv ht' (fun k => k _ (edge_placed hx) ho) hin
    · obtain ⟨i, hi⟩ := List.getElem?_of_mem ht'
      obtain ⟨j, hj⟩ := List.getElem?_of_mem hr
      have hp : 0 < orient (pl a) (pl b) (pl w) := by
        have := orient_split (pl a) (pl b) (pl w) q
        linarith [ha.1, ha.2.1, ha.2.2]
      by_cases hij : i = j
      · subst hij
        obtain rfl : t' = r := Option.some.inj (hi.symm.trans hj)
        obtain ⟨k1, k2, k3⟩ := hin'
        obtain ⟨e1, -, -⟩ := ha
        rcases hs with rfl | rfl | rfl
        · exact k1.ne' e1
        · exact k2.ne' e1
        · exact k3.ne' e1
      · -- near the side, on the side of the triangle
        obtain ⟨s, -, k1, k2⟩ := ((near_side (d := ⟨-((pl b).y - (pl a).y), (pl b).x - (pl a).x⟩) ha (left_pos (by
          rintro e
          rw [e] at hp
          simp [orient] at hp))).and (near_inCCW hin' _)).exists
        exact h.apart hv hi hj hij k2 (hs.inCCW k1)
  · push Not at hnv
    obtain ⟨z, hz, rfl⟩ := hnv
    refine h.edge_not_in hv ht' (fun k => ?_) hin
    rw [← flatMap_fst'] at hz
    obtain ⟨x, hx, rfl⟩ := List.mem_map.1 hz
    exact k _ (edge_placed hx) ⟨0, le_rfl, zero_le_one, by simp, by simp⟩

/-- Along an edge. -/
theorem near_edge {a b q : Coords K} (h : OnSeg (a, b) q) (ha : q ≠ a) (hb : q ≠ b) (c : K) :
    Near fun t => OnSeg (a, b) (move q ⟨c * (b.x - a.x), c * (b.y - a.y)⟩ t) := by
  obtain ⟨s, s0, s1, hx, hy⟩ := h
  simp only at hx hy
  have k0 : s ≠ 0 := by
    rintro rfl
    exact ha (coords_ext (by rw [hx]; ring) (by rw [hy]; ring))
  have k1 : s ≠ 1 := by
    rintro rfl
    exact hb (coords_ext (by rw [hx]; ring) (by rw [hy]; ring))
  refine ((near_pos c (lt_of_le_of_ne s0 k0.symm)).and (near_pos (-c) (sub_pos.2 (lt_of_le_of_ne s1 k1)))).imp fun t _ ⟨p1, p2⟩ => ?_
  refine ⟨s + t * c, p1.le, by linarith, ?_, ?_⟩
  · simp only [move, hx]; ring
  · simp only [move, hy]; ring

theorem MeshI.edge_parallel (h : MeshI pl gI T fwd) (hv : ValidPolys (gI.map (List.map pl))) {q : Coords K}
    (hnv : ∀ z ∈ gI.flatten, pl z ≠ q) {e : I × I} (he : e ∈ gI.flatMap cycleEdges) (ho : OnSeg (pl e.1, pl e.2) q)
    {t : I × I × I} (ht : t ∈ T) {a b w : I} (hs : SideOf t a b w) (ha : Amid (pl a) (pl b) (pl w) q) :
    Parallel (pl e.1, pl e.2) (pl a, pl b) := by
  by_contra hn
  obtain ⟨m1, m2⟩ := edge_mem he
  obtain ⟨c, hc⟩ : ∃ c : K, 0 < ((pl b).x - (pl a).x) * (c * ((pl e.2).y - (pl e.1).y)) -
      ((pl b).y - (pl a).y) * (c * ((pl e.2).x - (pl e.1).x)) := by
    refine ⟨((pl b).x - (pl a).x) * ((pl e.2).y - (pl e.1).y) - ((pl b).y - (pl a).y) * ((pl e.2).x - (pl e.1).x), ?_⟩
    have hne : ((pl b).x - (pl a).x) * ((pl e.2).y - (pl e.1).y) - ((pl b).y - (pl a).y) * ((pl e.2).x - (pl e.1).x) ≠ 0 := by
      intro k
      apply hn
      unfold Parallel
      simp only
      linarith
    have := mul_self_pos.2 hne
    linarith
  obtain ⟨s, -, k1, k2⟩ := ((near_side (d := ⟨c * ((pl e.2).x - (pl e.1).x), c * ((pl e.2).y - (pl e.1).y)⟩) ha hc).and
    (near_edge ho (hnv _ m1).symm (hnv _ m2).symm c)).exists
  exact h.edge_not_in hv ht (fun k => k _ (edge_placed he) k2) ((inTriangle_iff (h.pos t ht)).2 (hs.inCCW k1))

/-- Sides that have a point in common that is no vertex are parallel. -/
theorem MeshI.sides_parallel (h : MeshI pl gI T fwd) (hv : ValidPolys (gI.map (List.map pl))) {t t' : I × I × I} (ht : t ∈ T)
    (ht' : t' ∈ T) {e e' : I × I} (he : e ∈ sides t) (he' : e' ∈ sides t') {q : Coords K} (hnv : ∀ z ∈ gI.flatten, pl z ≠ q)
    (hq : OnSeg (pl e.1, pl e.2) q) (hq' : OnSeg (pl e'.1, pl e'.2) q) : Parallel (pl e.1, pl e.2) (pl e'.1, pl e'.2) := by
  have amid_ne : ∀ {a b w : I}, Amid (pl a) (pl b) (pl w) q → pl a ≠ pl b := by
    intro a b w ha k
    have hp := orient_split (pl a) (pl b) (pl w) q
    have : orient (pl a) (pl b) (pl w) = 0 := by rw [k]; simp only [orient]; ring
    linarith [ha.1, ha.2.1, ha.2.2]
  have edge_ne : ∀ {x : I × I}, x ∈ gI.flatMap cycleEdges → pl x.1 ≠ pl x.2 := fun hx k =>
    edges_ne (valid_nodupI hv) (valid_three hv) hx (valid_inj hv (edge_mem hx).1 (edge_mem hx).2 k)
  rcases h.backed ht he hq hnv with ⟨x, hx, ho, hp⟩ | ⟨r, hr, a, b, w, hs, ha, hp⟩ <;>
  rcases h.backed ht' he' hq' hnv with ⟨x', hx', ho', hp'⟩ | ⟨r', hr', a', b', w', hs', ha', hp'⟩
  · have : x = x' := by
      by_contra hne
      have hm := edge_mem hx
      have hm' := edge_mem hx'
      have hne' : (pl x.1, pl x.2) ≠ (pl x'.1, pl x'.2) := by
        intro k
        obtain ⟨k1, k2⟩ := Prod.mk.inj k
        exact hne (Prod.ext (valid_inj hv hm.1 hm'.1 k1) (valid_inj hv hm.2 hm'.2 k2))
      rcases (hv.meet _ (edge_placed hx) _ (edge_placed hx') hne' _ ho ho').1 with k | k
      · exact hnv _ hm.1 k.symm
      · exact hnv _ hm.2 k.symm
    subst this
    exact hp.trans hp'.symm (edge_ne hx)
  · exact hp.trans ((h.edge_parallel hv hnv hx ho hr' hs' ha').trans hp'.symm (amid_ne ha')) (edge_ne hx)
  · exact hp.trans ((h.edge_parallel hv hnv hx' ho' hr hs ha).symm.trans hp'.symm (edge_ne hx')) (amid_ne ha)
  · have hpar : Parallel (pl a, pl b) (pl a', pl b') := by
      obtain ⟨i, hi⟩ := List.getElem?_of_mem hr
      obtain ⟨j, hj⟩ := List.getElem?_of_mem hr'
      by_cases hij : i = j
      · subst hij
        obtain rfl : r = r' := Option.some.inj (hi.symm.trans hj)
        obtain ⟨k1, k2, k3⟩ := ha
        obtain ⟨k1', k2', k3'⟩ := ha'
        rcases hs with rfl | rfl | rfl <;> simp only [SideOf, Prod.mk.injEq] at hs' <;>
          rcases hs' with ⟨rfl, rfl, rfl⟩ | ⟨rfl, rfl, rfl⟩ | ⟨rfl, rfl, rfl⟩ <;>
          first | exact .refl _ | (exfalso; linarith)
      · have := h.parallel hv hi hj hij hs hs' ha ha'
        unfold Parallel
        simp only
        linarith
    exact hp.trans (hpar.trans hp'.symm (amid_ne ha')) (amid_ne ha)

omit [DecidableEq I] in
theorem hull_corner {t : I × I × I} {v : I} (h : Corner t v) : InHull (pl t.1, pl t.2.1, pl t.2.2) (pl v) := by
  rcases h with rfl | rfl | rfl
  · exact ⟨1, 0, 0, zero_le_one, le_rfl, le_rfl, by ring, by ring, by ring⟩
  · exact ⟨0, 1, 0, le_rfl, zero_le_one, le_rfl, by ring, by ring, by ring⟩
  · exact ⟨0, 0, 1, le_rfl, le_rfl, zero_le_one, by ring, by ring, by ring⟩

theorem hull_convex {t : Coords K × Coords K × Coords K} {p r q : Coords K} (hp : InHull t p) (hr : InHull t r)
    (h : OnSeg (p, r) q) : InHull t q := by
  obtain ⟨u, v, w, hu, hv, hw, h1, hx, hy⟩ := hp
  obtain ⟨u', v', w', hu', hv', hw', h1', hx', hy'⟩ := hr
  obtain ⟨s, s0, s1, qx, qy⟩ := h
  have k : 0 ≤ 1 - s := by linarith
  simp only at qx qy
  refine ⟨(1 - s) * u + s * u', (1 - s) * v + s * v', (1 - s) * w + s * w', by positivity, by positivity, by positivity, ?_, ?_, ?_⟩
  · calc _ = (1 - s) * (u + v + w) + s * (u' + v' + w') := by ring
      _ = 1 := by rw [h1, h1']; ring
  · rw [qx, hx, hx']; ring
  · rw [qy, hy, hy']; ring

/-- In general position two triangles have nothing, a corner or a side in common. -/
theorem MeshI.common_face (h : MeshI pl gI T fwd) (hv : ValidPolys (gI.map (List.map pl)))
    (hg : GeneralPosition (gI.map (List.map pl))) {i j : Nat} {t t' : I × I × I}
    (hi : T[i]? = some t) (hj : T[j]? = some t') (hij : i ≠ j) :
    (∀ q, ¬ (InHull (pl t.1, pl t.2.1, pl t.2.2) q ∧ InHull (pl t'.1, pl t'.2.1, pl t'.2.2) q)) ∨
    (∃ v, Corner t v ∧ Corner t' v ∧
      ∀ q, InHull (pl t.1, pl t.2.1, pl t.2.2) q ∧ InHull (pl t'.1, pl t'.2.1, pl t'.2.2) q ↔ q = pl v) ∨
    ∃ u v, u ≠ v ∧ Corner t u ∧ Corner t' u ∧ Corner t v ∧ Corner t' v ∧
      ∀ q, InHull (pl t.1, pl t.2.1, pl t.2.2) q ∧ InHull (pl t'.1, pl t'.2.1, pl t'.2.2) q ↔ OnSeg (pl u, pl v) q := by
  by_cases h2 : ∃ u v, u ≠ v ∧ Corner t u ∧ Corner t' u ∧ Corner t v ∧ Corner t' v
  · obtain ⟨u, v, huv, c1, c2, c3, c4⟩ := h2
    have third : ∀ z, Corner t z → Corner t' z → z = u ∨ z = v := by
      intro z k1 k2
      by_contra hn
      push Not at hn
      refine hij (h.corners_unique hv hi hj fun x hx => ?_)
      have : x = u ∨ x = v ∨ x = z := by
        obtain ⟨a, b, c⟩ := t
        unfold Corner at c1 c3 k1 hx
        simp only at c1 c3 k1 hx
        rcases c1 with rfl | rfl | rfl <;> rcases c3 with rfl | rfl | rfl <;> rcases k1 with rfl | rfl | rfl <;>
          rcases hx with rfl | rfl | rfl <;> simp_all
      rcases this with rfl | rfl | rfl <;> assumption
    refine .inr (.inr ⟨u, v, huv, c1, c2, c3, c4, fun q => ⟨fun ⟨k1, k2⟩ => ?_, fun ho =>
      ⟨hull_convex (hull_corner c1) (hull_corner c3) ho, hull_convex (hull_corner c2) (hull_corner c4) ho⟩⟩⟩)
    have e0 : OnSeg (pl u, pl v) (pl u) := ⟨0, le_rfl, zero_le_one, by simp, by simp⟩
    have e1 : OnSeg (pl u, pl v) (pl v) := ⟨1, zero_le_one, le_rfl, by simp, by simp⟩
    rcases h.conform hv hg hi hj hij k1 k2 with ⟨z, k3, k4, rfl⟩ | ⟨x, y, hxy, k3, k4, k5, k6, ho⟩
    · rcases third z k3 k4 with rfl | rfl
      · exact e0
      · exact e1
    · rcases third x k3 k4 with rfl | rfl <;> rcases third y k5 k6 with rfl | rfl
      · exact absurd rfl hxy
      · exact ho
      · exact onSeg_rev ho
      · exact absurd rfl hxy
  · push Not at h2
    by_cases h1 : ∃ v, Corner t v ∧ Corner t' v
    · obtain ⟨v, c1, c2⟩ := h1
      refine .inr (.inl ⟨v, c1, c2, fun q => ⟨fun ⟨k1, k2⟩ => ?_, ?_⟩⟩)
      · rcases h.conform hv hg hi hj hij k1 k2 with ⟨z, k3, k4, rfl⟩ | ⟨x, y, hxy, k3, k4, k5, k6, -⟩
        · by_cases e : z = v
          · rw [e]
          · exact absurd c2 (h2 z v e k3 k4 c1)
        · exact absurd k6 (h2 x y hxy k3 k4 k5)
      · rintro rfl
        exact ⟨hull_corner c1, hull_corner c2⟩
    · push Not at h1
      refine .inl fun q ⟨k1, k2⟩ => ?_
      rcases h.conform hv hg hi hj hij k1 k2 with ⟨z, k3, k4, -⟩ | ⟨x, y, -, k3, k4, -⟩
      · exact h1 z k3 k4
      · exact h1 x k3 k4

end

end Tri
