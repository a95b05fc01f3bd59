import Verif.Proof.EdgeTop
import Verif.Proof.Float

/-!
# Floating point coordinates that answer like exact ones for edges
-/

namespace Tri

variable {I V : Type}

attribute [local instance] ieee exact

/-- An edge between indices is an edge between their places. -/
theorem edge_places {p : PolyList I V} {xy : V → Coords ℚ} {gs : List (List (I × Coords ℚ))} (hd : Describes p xy gs) {i j : I}
    (h : (i, j) ∈ (gs.map (List.map Prod.fst)).flatMap cycleEdges) {a b : Coords ℚ} (ha : (p.getVertex i).map xy = some a)
    (hb : (p.getVertex j).map xy = some b) : (a, b) ∈ (gs.map (List.map Prod.snd)).flatMap cycleEdges := by
  obtain ⟨g', hg', h2⟩ := List.mem_flatMap.1 h
  obtain ⟨g, hg, rfl⟩ := List.mem_map.1 hg'
  obtain ⟨k, h3, h4⟩ := get_cycleEdges h2
  rw [List.length_map] at h4
  rw [List.getElem?_map, Option.map_eq_some_iff] at h3 h4
  obtain ⟨u, h3, e3⟩ := h3
  obtain ⟨v, h4, e4⟩ := h4
  simp only at e3 e4
  subst e3 e4
  have e1 := hd.coords g hg u (List.mem_of_getElem? h3)
  have e2 := hd.coords g hg v (List.mem_of_getElem? h4)
  rw [ha, Option.some.injEq] at e1
  rw [hb, Option.some.injEq] at e2
  subst e1 e2
  refine List.mem_flatMap.2 ⟨_, List.mem_map.2 ⟨g, hg, rfl⟩, List.mem_iff_getElem?.2 ⟨k, cycleEdges_at ?_ ?_⟩⟩
  · rw [List.getElem?_map, h3]; rfl
  · rw [List.length_map, List.getElem?_map, h4]; rfl

theorem edge_answers_toFl {f : FloatFormat} (hf : f.Usual) {p : PolyList I V} {xy : V → Coords ℚ} {gs : List (List (I × Coords ℚ))}
    (hd : Describes p xy gs) (hs : ∀ i v, p.getVertex i = some v → f.Sound (xy v))
    (hc : ∀ a b, (a, b) ∈ (gs.map (List.map Prod.snd)).flatMap cycleEdges ∨ (b, a) ∈ (gs.map (List.map Prod.snd)).flatMap cycleEdges →
      below a b → ∀ i v, p.getVertex i = some v → (xy v).y ≠ b.y → (xy v).y ≠ a.y → f.Reliable a b (xy v)) :
    SameEdgeAnswers (gs.map (List.map Prod.fst)) (fun i => (p.getVertex i).map xy) (fun i => (p.getVertex i).map fun v => (xy v).toFl f) := by
  have two : ∀ {i a a'}, (p.getVertex i).map xy = some a → (p.getVertex i).map (fun v => (xy v).toFl f) = some a' →
      ∃ v, p.getVertex i = some v ∧ a = xy v ∧ a' = (xy v).toFl f := by
    intro i a a' h1 h2
    obtain ⟨v, hv, rfl⟩ := Option.map_eq_some_iff.1 h1
    rw [hv, Option.map_some, Option.some.injEq] at h2
    exact ⟨v, hv, rfl, h2.symm⟩
  constructor
  · intro i j a b a' b' h1 h2 h3 h4
    obtain ⟨u, -, rfl, rfl⟩ := two h1 h3
    obtain ⟨v, -, rfl, rfl⟩ := two h2 h4
    rfl
  · intro i j k u v w u' v' w' he h1 h2 h3 h4 h5 h6 hlt
    have hm := he.imp (fun h => edge_places hd h h1 h2) (fun h => edge_places hd h h2 h1)
    obtain ⟨x, hx, rfl, rfl⟩ := two h1 h4
    obtain ⟨y, hy, rfl, rfl⟩ := two h2 h5
    obtain ⟨z, hz, rfl, rfl⟩ := two h3 h6
    have hb : below (xy x) (xy y) := ltB_exact.1 (by unfold Coords.ltB; rw [hlt]; rfl)
    exact (side_toFl hf.two hf.big hf.small (hs i x hx) (hs j y hy) (hs k z hz) fun _ n1 n2 => hc _ _ hm hb k z hz n1 n2).symm

theorem clear_of_product {f : FloatFormat} (hp : 4 ≤ f.p) {u v w : Coords ℚ} {k : Int} (hk : f.emin + 1 ≤ 2 * k)
    (h0 : (sideProducts u v w).1 = 0 ∨ (sideProducts u v w).2 = 0) (hm : pow2 (2 * k) ≤ |(sideProducts u v w).1 - (sideProducts u v w).2|) :
    f.Clear u v w := by
  unfold FloatFormat.Clear
  generalize (sideProducts u v w).1 = A at h0 hm ⊢
  generalize (sideProducts u v w).2 = B at h0 hm ⊢
  have e : |A| + |B| = |A - B| := by rcases h0 with rfl | rfl <;> simp
  rw [e]
  have h1 : pow2 (-(f.p : Int)) ≤ 1 / 16 := by
    have : pow2 (-(f.p : Int)) ≤ pow2 (-4) := pow2_le.2 (by omega)
    have h4 : pow2 (-4) = 1 / 16 := by rw [pow2_eq]; norm_num
    linarith
  have h2 : 2 * pow2 f.emin ≤ pow2 (2 * k) := by
    have : pow2 (f.emin + 1) ≤ pow2 (2 * k) := pow2_le.2 hk
    rw [pow2_add, pow2_one] at this
    linarith
  have h3 := pow2_pos f.emin
  have h4 : 4 * pow2 (-(f.p : Int)) * |A - B| ≤ 1 / 4 * |A - B| := by
    refine mul_le_mul_of_nonneg_right (by linarith) (abs_nonneg _)
  linarith

/-- A nonzero product of multiples of `2 ^ k`. -/
theorem product_big {k : Int} {a b c d : ℚ} {l m n o : Int} (ha : a = l * pow2 k) (hb : b = m * pow2 k) (hc : c = n * pow2 k) (hd : d = o * pow2 k)
    (h1 : a ≠ b) (h2 : c ≠ d) : pow2 (2 * k) ≤ |(a - b) * (c - d)| := by
  subst ha hb hc hd
  have e : ((l : ℚ) * pow2 k - m * pow2 k) * (n * pow2 k - o * pow2 k) = (((l - m) * (n - o) : Int) : ℚ) * pow2 (2 * k) := by
    rw [two_mul, pow2_add]; push_cast; ring
  have hz : (l - m) * (n - o) ≠ 0 := by
    refine mul_ne_zero ?_ ?_
    · intro h
      exact h1 (by rw [show l = m by omega])
    · intro h
      exact h2 (by rw [show n = o by omega])
  rw [e, abs_mul, abs_of_pos (pow2_pos _)]
  have : (1 : ℚ) ≤ |(((l - m) * (n - o) : Int) : ℚ)| := by
    rw [← Int.cast_abs]
    exact_mod_cast Int.one_le_abs hz
  have hp := pow2_pos (2 * k)
  nlinarith

/-- Side tests for horizontal and vertical edges. -/
theorem reliable_axis {f : FloatFormat} (hp : 4 ≤ f.p) {k : Int} (hk : f.emin + 1 ≤ 2 * k) {u v w : Coords ℚ}
    (hu : ∃ m n : Int, u.x = m * pow2 k ∧ u.y = n * pow2 k) (hv : ∃ m n : Int, v.x = m * pow2 k ∧ v.y = n * pow2 k)
    (hw : ∃ m n : Int, w.x = m * pow2 k ∧ w.y = n * pow2 k) (huv : u ≠ v) (hax : u.x = v.x ∨ u.y = v.y) (h1 : w.y ≠ v.y) :
    f.Reliable u v w := by
  obtain ⟨a, b, ua, ub⟩ := hu
  obtain ⟨c, d, vc, vd⟩ := hv
  obtain ⟨m, n, wm, wn⟩ := hw
  rcases hax with h | h
  · by_cases hx : w.x = v.x
    · exact .inr (.inr ⟨h, hx⟩)
    · refine .inl (clear_of_product hp hk (.inl (by simp [sideProducts, h])) ?_)
      have hy : u.y ≠ v.y := fun hy => huv (by cases u; cases v; simp_all)
      have e : (sideProducts u v w).1 - (sideProducts u v w).2 = -((u.y - v.y) * (w.x - v.x)) := by
        simp only [sideProducts, h]; ring
      rw [e, abs_neg]
      exact product_big ub vd wm vc hy hx
  · refine .inl (clear_of_product hp hk (.inr (by simp [sideProducts, h])) ?_)
    have hx : u.x ≠ v.x := fun hx => huv (by cases u; cases v; simp_all)
    have e : (sideProducts u v w).1 - (sideProducts u v w).2 = (u.x - v.x) * (w.y - v.y) := by
      simp only [sideProducts, h]; ring
    rw [e]
    exact product_big ua vc wn vd hx h1

/-- Horizontal and vertical edges. -/
theorem edge_answers_axis {f : FloatFormat} (hf : f.Usual) (hp : 4 ≤ f.p) {k : Int} (hk : f.emin < 2 * k) {p : PolyList I V}
    {xy : V → Coords ℚ} {gs : List (List (I × Coords ℚ))} (hd : Describes p xy gs)
    (hs : ∀ i v, p.getVertex i = some v → f.Sound (xy v))
    (hg : ∀ i v, p.getVertex i = some v → ∃ m n : Int, (xy v).x = m * pow2 k ∧ (xy v).y = n * pow2 k)
    (hax : ∀ e ∈ (gs.map (List.map Prod.snd)).flatMap cycleEdges, e.1.x = e.2.x ∨ e.1.y = e.2.y) :
    SameEdgeAnswers (gs.map (List.map Prod.fst)) (fun i => (p.getVertex i).map xy) (fun i => (p.getVertex i).map fun v => (xy v).toFl f) := by
  refine edge_answers_toFl hf hd hs fun a b he hab i v hi n1 n2 => ?_
  have hgrid : ∀ c ∈ (gs.map (List.map Prod.snd)).flatten, ∃ m n : Int, c.x = m * pow2 k ∧ c.y = n * pow2 k := by
    intro c hc
    rw [← List.map_flatten] at hc
    obtain ⟨u, hu, rfl⟩ := List.mem_map.1 hc
    obtain ⟨g, hg', hu⟩ := List.mem_flatten.1 hu
    obtain ⟨v, h1, h2⟩ := Option.map_eq_some_iff.1 (hd.coords g hg' u hu)
    rw [← h2]
    exact hg _ v h1
  have hends : ∀ {a b}, (a, b) ∈ (gs.map (List.map Prod.snd)).flatMap cycleEdges → (∃ m n : Int, a.x = m * pow2 k ∧ a.y = n * pow2 k) ∧
      ∃ m n : Int, b.x = m * pow2 k ∧ b.y = n * pow2 k := by
    intro a b h
    refine ⟨hgrid _ ?_, hgrid _ ?_⟩
    · rw [← flatMap_fst]; exact List.mem_map.2 ⟨_, h, rfl⟩
    · exact (flatMap_snd _).mem_iff.1 (List.mem_map.2 ⟨_, h, rfl⟩)
  have hne' : a ≠ b := by rintro rfl; exact below_irrefl _ hab
  rcases he with he | he
  · exact reliable_axis hp (by omega) (hends he).1 (hends he).2 (hg i v hi) hne' (hax _ he) n1
  · exact reliable_axis hp (by omega) (hends he).2 (hends he).1 (hg i v hi) hne' ((hax _ he).imp Eq.symm Eq.symm) n1

end Tri
