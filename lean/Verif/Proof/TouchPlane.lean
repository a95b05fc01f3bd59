import Verif.Proof.PlaneOf

/-!
# Touching edges are planes

Edges may be touched from their right, horizontal ones from above.  To obtain a `Plane` every edge is bent a little to the other side
between its ends.
-/

set_option linter.unusedSectionVars false

namespace Tri

variable {K : Type} [Field K] [LinearOrder K] [IsStrictOrderedRing K]

attribute [local instance] exact

/-- `v` is strictly on the side of the sorted edge `e` from which it may be touched. -/
def FreeC (e : Coords K × Coords K) (v : Coords K) : Prop :=
  (e.1.y < e.2.y ∧ orient e.1 e.2 v < 0) ∨ (e.1.y = e.2.y ∧ 0 < orient e.1 e.2 v)

/-- `f` leans on `e` from that side; both are sorted. -/
structure LeanC (e f : Coords K × Coords K) : Prop where
  lo : f.1 ≠ e.1 ∧ f.1 ≠ e.2 ∧ (FreeC e f.1 ∨ OnSeg e f.1)
  hi : f.2 ≠ e.1 ∧ f.2 ≠ e.2 ∧ (FreeC e f.2 ∨ OnSeg e f.2)

/-- Edges that meet only in common ends. -/
def MeetC (e f : Coords K × Coords K) : Prop := ∀ q, OnSeg e q → OnSeg f q → (q = e.1 ∨ q = e.2) ∧ (q = f.1 ∨ q = f.2)

/-- Points and edges that meet only in common ends or lean on each other. -/
structure DrawnT (pts : List (Coords K)) (es : List (Coords K × Coords K)) : Prop where
  lt : ∀ e ∈ es, below e.1 e.2
  lo : ∀ e ∈ es, e.1 ∈ pts
  hi : ∀ e ∈ es, e.2 ∈ pts
  meet : ∀ e ∈ es, ∀ f ∈ es, e ≠ f → MeetC e f ∨ LeanC e f ∨ LeanC f e
  deg : ∀ e ∈ es, ∀ f ∈ es, ∀ g ∈ es, ∀ v, (v = e.1 ∨ v = e.2) → (v = f.1 ∨ v = f.2) → (v = g.1 ∨ v = g.2) →
    e = f ∨ f = g ∨ e = g

/-- The side to which an edge is bent. -/
def side1 (e : Coords K × Coords K) : K := if e.1.y < e.2.y then 1 else -1

theorem side1_cases (e : Coords K × Coords K) : side1 e = 1 ∧ e.1.y < e.2.y ∨ side1 e = -1 ∧ ¬ e.1.y < e.2.y := by
  unfold side1
  split
  · rename_i h; exact .inl ⟨rfl, h⟩
  · rename_i h; exact .inr ⟨rfl, h⟩

/-- How far an edge is bent. -/
def bump0 (ε : K) (e : Coords K × Coords K) (H : K) : K := (H - ht ε e.1) * (ht ε e.2 - H)

/-- How far an edge is bent to the left. -/
def bump (ε : K) (e : Coords K × Coords K) (H : K) : K := side1 e * bump0 ε e H

theorem exists_small (L : List (K × K)) : ∃ δ : K, 0 < δ ∧ ∀ p ∈ L, 0 < p.1 → δ * p.2 < p.1 := by
  suffices h : ∃ δ : K, 0 < δ ∧ ∀ δ', 0 < δ' → δ' ≤ δ → ∀ p ∈ L, 0 < p.1 → δ' * p.2 < p.1 by
    obtain ⟨δ, h0, h⟩ := h
    exact ⟨δ, h0, h δ h0 le_rfl⟩
  induction L with
  | nil => exact ⟨1, one_pos, by simp⟩
  | cons p L ih =>
    obtain ⟨δ, h0, h⟩ := ih
    by_cases hp : 0 < p.1
    · have hd : (0 : K) < |p.2| + 1 := by positivity
      refine ⟨min δ (p.1 / (|p.2| + 1)), lt_min h0 (div_pos hp hd), ?_⟩
      intro δ' h1 h2 q hq hq0
      rcases List.mem_cons.1 hq with rfl | hq
      · have h3 := le_trans h2 (min_le_right _ _)
        rw [le_div_iff₀ hd] at h3
        have h4 : δ' * q.2 ≤ δ' * |q.2| := mul_le_mul_of_nonneg_left (le_abs_self _) h1.le
        nlinarith
      · exact h δ' h1 (le_trans h2 (min_le_left _ _)) q hq hq0
    · refine ⟨δ, h0, fun δ' h1 h2 q hq hq0 => ?_⟩
      rcases List.mem_cons.1 hq with rfl | hq
      · exact absurd hq0 hp
      · exact h δ' h1 h2 q hq hq0

theorem orient_Xh_lt {ε : K} {e : Coords K × Coords K} (hlt : ht ε e.1 < ht ε e.2) (c : Coords K) :
    orient e.1 e.2 c < 0 ↔ Xh ε e (ht ε c) < c.x := by
  rw [orient_ht ε]
  have hd : 0 < ht ε e.2 - ht ε e.1 := by linarith
  have e1 : (ht ε c - ht ε e.1) / (ht ε e.2 - ht ε e.1) * (ht ε e.2 - ht ε e.1) = ht ε c - ht ε e.1 :=
    div_mul_cancel₀ _ hd.ne'
  unfold Xh
  generalize (ht ε c - ht ε e.1) / (ht ε e.2 - ht ε e.1) = t at e1 ⊢
  rw [← e1]
  have e2 : (e.2.x - e.1.x) * (t * (ht ε e.2 - ht ε e.1)) - (ht ε e.2 - ht ε e.1) * (c.x - e.1.x) =
      - ((ht ε e.2 - ht ε e.1) * (c.x - (e.1.x + t * (e.2.x - e.1.x)))) := by ring
  rw [e2, neg_lt_zero, mul_pos_iff_of_pos_left hd, sub_pos]

set_option maxHeartbeats 1000000 in
/-- The plane of a drawing with touching edges. -/
theorem exists_bentPlane {pts : List (Coords K)} {es : List (Coords K × Coords K)} (hD : DrawnT pts es) :
    ∃ P : Plane K, (∀ v, P.U v ↔ v ∈ pts) ∧ (∀ e, P.E e ↔ e ∈ es) ∧ ∃ ε > 0, P.h = ht ε := by
  obtain ⟨ε, hε, hsh⟩ := exists_shear (pts.flatMap fun u => pts.map fun v => (u, v))
  have hlt : ∀ {u v}, u ∈ pts → v ∈ pts → below u v → ht ε u < ht ε v := by
    intro u v hu hv hb
    exact hsh (u, v) (List.mem_flatMap.2 ⟨u, hu, List.mem_map.2 ⟨v, hv, rfl⟩⟩) hb
  have hinj : ∀ {u v}, u ∈ pts → v ∈ pts → ht ε u = ht ε v → u = v := by
    intro u v hu hv h
    by_contra hne
    rcases below_total hne with h' | h'
    · exact (hlt hu hv h').ne h
    · exact (hlt hv hu h').ne h.symm
  have hE : ∀ {e}, e ∈ es → ht ε e.1 < ht ε e.2 := fun he => hlt (hD.lo _ he) (hD.hi _ he) (hD.lt _ he)
  have htq : ∀ x H : K, ht ε ⟨x, H - ε * x⟩ = H := by intro x H; unfold ht; ring
  have heta : ∀ v : Coords K, (⟨v.x, ht ε v - ε * v.x⟩ : Coords K) = v := fun v =>
    coords_ext rfl (by simp only [ht]; ring)
  have hon : ∀ {e : Coords K × Coords K} {v : Coords K}, OnSeg e v → e ∈ es → Xh ε e (ht ε v) = v.x := by
    rintro e v ⟨t, -, -, hx, hy⟩ he
    have hd : 0 < ht ε e.2 - ht ε e.1 := by linarith [hE he]
    have e1 : ht ε v - ht ε e.1 = t * (ht ε e.2 - ht ε e.1) := by unfold ht; rw [hx, hy]; ring
    unfold Xh
    rw [e1, mul_div_cancel_right₀ _ hd.ne', hx]
  have honr : ∀ {e : Coords K × Coords K} {v : Coords K}, OnSeg e v → e ∈ es → ht ε e.1 ≤ ht ε v ∧ ht ε v ≤ ht ε e.2 := by
    rintro e v ⟨t, t0, t1, hx, hy⟩ he
    have hd : 0 < ht ε e.2 - ht ε e.1 := by linarith [hE he]
    have e1 : ht ε v - ht ε e.1 = t * (ht ε e.2 - ht ε e.1) := by unfold ht; rw [hx, hy]; ring
    constructor <;> nlinarith
  obtain ⟨δ, hδ, hsm⟩ := exists_small (es.flatMap fun e => pts.flatMap fun v =>
    (Xh ε e (ht ε v) - v.x, bump ε e (ht ε v)) :: (v.x - Xh ε e (ht ε v), - bump ε e (ht ε v)) ::
      es.map fun f => (Xh ε f (ht ε v) - Xh ε e (ht ε v), bump ε f (ht ε v) - bump ε e (ht ε v)))
  let X : Coords K × Coords K → Coords K → K := fun e v => Xh ε e (ht ε v) - δ * bump ε e (ht ε v)
  have sm1 : ∀ {e v}, e ∈ es → v ∈ pts → v.x < Xh ε e (ht ε v) → v.x < X e v := by
    intro e v he hv hx
    have := hsm (Xh ε e (ht ε v) - v.x, bump ε e (ht ε v))
      (List.mem_flatMap.2 ⟨e, he, List.mem_flatMap.2 ⟨v, hv, List.mem_cons_self⟩⟩) (by simpa using hx)
    simp only [X]; simp only at this; linarith
  have sm1' : ∀ {e v}, e ∈ es → v ∈ pts → Xh ε e (ht ε v) < v.x → X e v < v.x := by
    intro e v he hv hx
    have := hsm (v.x - Xh ε e (ht ε v), - bump ε e (ht ε v))
      (List.mem_flatMap.2 ⟨e, he, List.mem_flatMap.2 ⟨v, hv, List.mem_cons_of_mem _ List.mem_cons_self⟩⟩) (by simpa using hx)
    simp only [X]; simp only at this; linarith
  have sm2 : ∀ {e f v}, e ∈ es → f ∈ es → v ∈ pts → Xh ε e (ht ε v) < Xh ε f (ht ε v) → X e v < X f v := by
    intro e f v he hf hv hx
    have := hsm (Xh ε f (ht ε v) - Xh ε e (ht ε v), bump ε f (ht ε v) - bump ε e (ht ε v))
      (List.mem_flatMap.2 ⟨e, he, List.mem_flatMap.2 ⟨v, hv, List.mem_cons_of_mem _ (List.mem_cons_of_mem _ (List.mem_map.2 ⟨f, hf, rfl⟩))⟩⟩)
      (by simpa using hx)
    simp only [X]; simp only at this; linarith
  have Xlo : ∀ e, X e e.1 = e.1.x := by
    intro e; simp only [X, bump, bump0, Xh_lo]; ring
  have Xhi : ∀ {e}, e ∈ es → X e e.2 = e.2.x := by
    intro e he; simp only [X, bump, bump0, Xh_hi (hE he)]; ring
  have Xend : ∀ {e v}, e ∈ es → (v = e.1 ∨ v = e.2) → X e v = v.x := by
    rintro e v he (rfl | rfl)
    · exact Xlo e
    · exact Xhi he
  have bpos : ∀ {e v}, ht ε e.1 < ht ε v → ht ε v < ht ε e.2 → 0 < δ * bump0 ε e (ht ε v) := by
    intro e v h1 h2
    exact mul_pos hδ (mul_pos (by linarith) (by linarith))
  -- equal abscissas without bending
  have meq : ∀ {e f v}, e ∈ es → f ∈ es → MeetC e f → v ∈ pts → ht ε e.1 ≤ ht ε v → ht ε v ≤ ht ε e.2 →
      ht ε f.1 ≤ ht ε v → ht ε v ≤ ht ε f.2 → Xh ε e (ht ε v) = Xh ε f (ht ε v) →
      (v = e.1 ∨ v = e.2) ∧ (v = f.1 ∨ v = f.2) := by
    intro e f v he hf hM hv a1 a2 a3 a4 hx
    have o1 := onSeg_at (hE he) a1 a2
    have o2 := onSeg_at (hE hf) a3 a4
    rw [← hx] at o2
    have hm := hM _ o1 o2
    have tr : ∀ {w : Coords K}, w ∈ pts → (⟨Xh ε e (ht ε v), ht ε v - ε * Xh ε e (ht ε v)⟩ : Coords K) = w → v = w := by
      intro w hw h
      have := congrArg (ht ε) h
      rw [htq] at this
      exact hinj hv hw this
    exact ⟨hm.1.imp (tr (hD.lo _ he)) (tr (hD.hi _ he)), hm.2.imp (tr (hD.lo _ hf)) (tr (hD.hi _ hf))⟩
  -- no crossing without bending
  have mnc : ∀ {e f u v}, e ∈ es → f ∈ es → MeetC e f → u ∈ pts → v ∈ pts → ht ε e.1 ≤ ht ε u → ht ε u ≤ ht ε e.2 →
      ht ε f.1 ≤ ht ε u → ht ε u ≤ ht ε f.2 → ht ε e.1 ≤ ht ε v → ht ε v ≤ ht ε e.2 → ht ε f.1 ≤ ht ε v →
      ht ε v ≤ ht ε f.2 → Xh ε e (ht ε u) < Xh ε f (ht ε u) → Xh ε e (ht ε v) ≤ Xh ε f (ht ε v) := by
    intro e f u v he hf hM hu hv a1 a2 a3 a4 b1 b2 b3 b4 hx
    by_contra hc
    have hc := not_le.1 hc
    have hd : 0 < (Xh ε f (ht ε u) - Xh ε e (ht ε u)) - (Xh ε f (ht ε v) - Xh ε e (ht ε v)) := by linarith
    obtain ⟨s, hs⟩ : ∃ s, s = (Xh ε f (ht ε u) - Xh ε e (ht ε u)) /
      ((Xh ε f (ht ε u) - Xh ε e (ht ε u)) - (Xh ε f (ht ε v) - Xh ε e (ht ε v))) := ⟨_, rfl⟩
    have hs0 : 0 < s := by rw [hs]; exact div_pos (by linarith) hd
    have hs1 : s < 1 := by rw [hs, div_lt_one hd]; linarith
    have hseq : s * ((Xh ε f (ht ε u) - Xh ε e (ht ε u)) - (Xh ε f (ht ε v) - Xh ε e (ht ε v))) =
        Xh ε f (ht ε u) - Xh ε e (ht ε u) := by rw [hs, div_mul_cancel₀ _ hd.ne']
    have hX : Xh ε e ((1 - s) * ht ε u + s * ht ε v) = Xh ε f ((1 - s) * ht ε u + s * ht ε v) := by
      rw [Xh_affine, Xh_affine]; linarith
    have hs2 : 0 < 1 - s := by linarith
    have lo : ∀ {c : K}, c ≤ ht ε u → c ≤ ht ε v → c ≤ (1 - s) * ht ε u + s * ht ε v := by
      intro c h1 h2; nlinarith
    have up : ∀ {c : K}, ht ε u ≤ c → ht ε v ≤ c → (1 - s) * ht ε u + s * ht ε v ≤ c := by
      intro c h1 h2; nlinarith
    have o1 := onSeg_at (hE he) (lo a1 b1) (up a2 b2)
    have o2 := onSeg_at (hE hf) (lo a3 b3) (up a4 b4)
    rw [← hX] at o2
    have huv : ht ε u ≠ ht ε v := by
      intro h; rw [h] at hx; exact lt_asymm hx hc
    rcases (hM _ o1 o2).1 with h | h
    · have := congrArg (ht ε) h
      rw [htq] at this
      apply huv
      have h5 : ht ε u = ht ε e.1 := by nlinarith
      have h6 : ht ε v = ht ε e.1 := by nlinarith
      rw [h5, h6]
    · have := congrArg (ht ε) h
      rw [htq] at this
      apply huv
      have h5 : ht ε u = ht ε e.2 := by nlinarith
      have h6 : ht ε v = ht ε e.2 := by nlinarith
      rw [h5, h6]
  -- an edge that leans on another one is on that side of it
  have lean : ∀ {e f u}, e ∈ es → f ∈ es → LeanC e f → u ∈ pts → ht ε e.1 ≤ ht ε u → ht ε u ≤ ht ε e.2 →
      ht ε f.1 ≤ ht ε u → ht ε u ≤ ht ε f.2 → 0 < side1 e * (X f u - X e u) := by
    intro e f u he hf hL hu a1 a2 a3 a4
    have ss : side1 e * side1 e = 1 := by rcases side1_cases e with h | h <;> rw [h.1] <;> ring
    have wk : ∀ {w}, w ∈ pts → w ≠ e.1 ∧ w ≠ e.2 ∧ (FreeC e w ∨ OnSeg e w) →
        0 < side1 e * (w.x - Xh ε e (ht ε w)) ∨ Xh ε e (ht ε w) = w.x ∧ ht ε e.1 < ht ε w ∧ ht ε w < ht ε e.2 := by
      rintro w hw ⟨n1, n2, (⟨h0, h⟩ | ⟨h0, h⟩) | h⟩
      · refine .inl ?_
        rcases side1_cases e with k | k
        · rw [k.1, one_mul]; linarith [(orient_Xh_lt (hE he) w).1 h]
        · exact absurd h0 k.2
      · refine .inl ?_
        rcases side1_cases e with k | k
        · exact absurd h0 k.2.ne
        · rw [k.1]; linarith [(orient_Xh (hE he) w).1 h]
      · obtain ⟨r1, r2⟩ := honr h he
        exact .inr ⟨hon h he, lt_of_le_of_ne r1 fun h' => n1 (hinj hw (hD.lo _ he) h'.symm),
          lt_of_le_of_ne r2 fun h' => n2 (hinj hw (hD.hi _ he) h')⟩
    have sm3 : 0 < side1 e * (Xh ε f (ht ε u) - Xh ε e (ht ε u)) → 0 < side1 e * (X f u - X e u) := by
      intro h
      rcases side1_cases e with k | k <;> rw [k.1] at h ⊢
      · have := sm2 he hf hu (by linarith); linarith
      · have := sm2 hf he hu (by linarith); linarith
    have w1 := wk (hD.lo _ hf) hL.lo
    have w2 := wk (hD.hi _ hf) hL.hi
    have hd : 0 < ht ε f.2 - ht ε f.1 := by linarith [hE hf]
    obtain ⟨s, hs⟩ : ∃ s, s = (ht ε u - ht ε f.1) / (ht ε f.2 - ht ε f.1) := ⟨_, rfl⟩
    have hs0 : 0 ≤ s := by rw [hs]; exact div_nonneg (by linarith) hd.le
    have hs1 : s ≤ 1 := by rw [hs]; exact (div_le_one hd).2 (by linarith)
    have hsu : ht ε u = (1 - s) * ht ε f.1 + s * ht ε f.2 := by
      have : s * (ht ε f.2 - ht ε f.1) = ht ε u - ht ε f.1 := by rw [hs, div_mul_cancel₀ _ hd.ne']
      linarith
    have xe : Xh ε e (ht ε u) = (1 - s) * Xh ε e (ht ε f.1) + s * Xh ε e (ht ε f.2) := by rw [hsu, Xh_affine]
    have xf : Xh ε f (ht ε u) = (1 - s) * f.1.x + s * f.2.x := by rw [hsu, Xh_affine, Xh_lo, Xh_hi (hE hf)]
    have atlo : s = 0 → u = f.1 := fun h => hinj hu (hD.lo _ hf) (by rw [hsu, h]; ring)
    have athi : s = 1 → u = f.2 := fun h => hinj hu (hD.hi _ hf) (by rw [hsu, h]; ring)
    have ends : ∀ {w}, u = w → (w = f.1 ∨ w = f.2) → (0 < side1 e * (w.x - Xh ε e (ht ε w)) ∨
        Xh ε e (ht ε w) = w.x ∧ ht ε e.1 < ht ε w ∧ ht ε w < ht ε e.2) → 0 < side1 e * (X f u - X e u) := by
      intro w hw hwf h
      subst hw
      rw [Xend hf hwf]
      have e1 : side1 e * (u.x - X e u) = side1 e * (u.x - Xh ε e (ht ε u)) +
          (side1 e * side1 e) * (δ * bump0 ε e (ht ε u)) := by simp only [X, bump]; ring
      rw [e1, ss, one_mul]
      rcases h with h | ⟨h, h1, h2⟩
      · have := mul_nonneg hδ.le (mul_nonneg (sub_nonneg.2 a1) (sub_nonneg.2 a2))
        have : 0 ≤ δ * bump0 ε e (ht ε u) := this
        linarith
      · have := bpos h1 h2
        rw [h]; linarith
    rcases hs0.lt_or_eq with p0 | p0
    · rcases hs1.lt_or_eq with p1 | p1
      · have e2 : side1 e * (Xh ε f (ht ε u) - Xh ε e (ht ε u)) = (1 - s) * (side1 e * (f.1.x - Xh ε e (ht ε f.1))) +
            s * (side1 e * (f.2.x - Xh ε e (ht ε f.2))) := by rw [xe, xf]; ring
        rcases w1 with w1 | ⟨w1, r1, r1'⟩
        · refine sm3 ?_
          rw [e2]
          have : 0 ≤ side1 e * (f.2.x - Xh ε e (ht ε f.2)) := by
            rcases w2 with h | h
            · exact h.le
            · rw [h.1, sub_self, mul_zero]
          have m1 := mul_pos (sub_pos.2 p1) w1
          have m2 := mul_nonneg p0.le this
          linarith
        · rcases w2 with w2 | ⟨w2, r2, r2'⟩
          · refine sm3 ?_
            rw [e2, w1, sub_self, mul_zero, mul_zero, zero_add]
            exact mul_pos p0 w2
          · have : Xh ε e (ht ε u) = Xh ε f (ht ε u) := by rw [xe, xf, w1, w2]
            have hb : bump0 ε f (ht ε u) < bump0 ε e (ht ε u) := by
              unfold bump0
              have q1 : 0 ≤ ht ε u - ht ε f.1 := by linarith
              have q2 : 0 ≤ ht ε f.2 - ht ε u := by linarith
              have q3 : 0 < ht ε f.1 - ht ε e.1 := by linarith
              have q4 : 0 < ht ε e.2 - ht ε f.2 := by linarith
              have q5 : (ht ε u - ht ε e.1) * (ht ε e.2 - ht ε u) = (ht ε u - ht ε f.1) * (ht ε f.2 - ht ε u) +
                  (ht ε u - ht ε f.1) * (ht ε e.2 - ht ε f.2) + (ht ε f.2 - ht ε u) * (ht ε f.1 - ht ε e.1) +
                  (ht ε f.1 - ht ε e.1) * (ht ε e.2 - ht ε f.2) := by ring
              have q6 := mul_nonneg q1 q4.le
              have q7 := mul_nonneg q2 q3.le
              have q8 := mul_pos q3 q4
              linarith
            have hf0 : 0 ≤ bump0 ε f (ht ε u) := mul_nonneg (by linarith) (by linarith)
            have hle : side1 e * side1 f * bump0 ε f (ht ε u) ≤ bump0 ε f (ht ε u) := by
              rcases side1_cases e with k | k <;> rcases side1_cases f with k' | k' <;> rw [k.1, k'.1] <;> linarith
            have e3 : side1 e * (X f u - X e u) = δ * ((side1 e * side1 e) * bump0 ε e (ht ε u) -
                side1 e * side1 f * bump0 ε f (ht ε u)) := by simp only [X, bump, this]; ring
            rw [e3, ss, one_mul]
            exact mul_pos hδ (by linarith)
      · exact ends (athi p1) (.inr rfl) w2
    · exact ends (atlo p0.symm) (.inl rfl) w1
  -- two edges with a common end do not lean on each other
  have common : ∀ {e f}, e ∈ es → f ∈ es → e ≠ f → (e.2 = f.2 ∨ e.1 = f.1) → MeetC e f := by
    intro e f he hf hne h
    rcases hD.meet e he f hf hne with hm | hm | hm
    · exact hm
    · rcases h with h | h
      · exact absurd h.symm hm.hi.2.1
      · exact absurd h.symm hm.lo.1
    · rcases h with h | h
      · exact absurd h hm.hi.2.1
      · exact absurd h hm.lo.1
  -- the order of two edges that meet in common ends is not changed
  have same : ∀ {e f m}, e ∈ es → f ∈ es → MeetC e f → m ∈ pts → ht ε e.1 ≤ ht ε m → ht ε m ≤ ht ε e.2 → ht ε f.1 ≤ ht ε m →
      ht ε m ≤ ht ε f.2 → (Xh ε f (ht ε m) < Xh ε e (ht ε m) ↔ X f m < X e m) := by
    intro e f m he hf hM hm a1 a2 a3 a4
    refine ⟨sm2 hf he hm, fun h => ?_⟩
    rcases lt_trichotomy (Xh ε f (ht ε m)) (Xh ε e (ht ε m)) with h1 | h1 | h1
    · exact h1
    · obtain ⟨k1, k2⟩ := meq he hf hM hm a1 a2 a3 a4 h1.symm
      rw [Xend he k1, Xend hf k2] at h
      exact absurd h (lt_irrefl _)
    · exact absurd h (lt_asymm (sm2 he hf hm h1))
  refine ⟨{ U := (· ∈ pts), E := (· ∈ es), h := ht ε, X := X
            h_lt := ?_, h_inj := fun hu hv => hinj hu hv, lo_U := fun he => hD.lo _ he, hi_U := fun he => hD.hi _ he
            E_lt := hE, X_lo := fun _ => Xlo _, X_hi := fun he => Xhi he
            X_ne := ?_, nc := ?_, nc_eq := ?_, left_iff := ?_, left_hi := ?_, left_lo := ?_
            deg := fun he hf hg => hD.deg _ he _ hf _ hg _ },
    fun _ => Iff.rfl, fun _ => Iff.rfl, ε, hε, rfl⟩
  · intro u v hu hv
    refine ⟨hlt hu hv, fun h => ?_⟩
    by_contra hb
    have hne : u ≠ v := by rintro rfl; exact lt_irrefl _ h
    exact lt_asymm h (hlt hv hu ((below_total hne).resolve_left hb))
  · intro e v he hv h1 h2
    rcases lt_trichotomy v.x (Xh ε e (ht ε v)) with h | h | h
    · exact (sm1 he hv h).ne'
    · have := bpos h1 h2
      simp only [X, bump]
      intro h'
      rcases side1_cases e with k | k <;> rw [k.1] at h' <;> linarith
    · exact (sm1' he hv h).ne
  · intro e f u v he hf hne hu hv a1 a2 a3 a4 b1 b2 b3 b4 hx
    rcases hD.meet e he f hf hne with hM | hL | hL
    · have hx' := (same hf he (fun q h1 h2 => (hM q h2 h1).symm) hu a3 a4 a1 a2).2 hx
      rcases (mnc he hf hM hu hv a1 a2 a3 a4 b1 b2 b3 b4 hx').lt_or_eq with h | h
      · exact (sm2 he hf hv h).le
      · obtain ⟨k1, k2⟩ := meq he hf hM hv b1 b2 b3 b4 h
        rw [Xend he k1, Xend hf k2]
    · have k1 := lean he hf hL hv b1 b2 b3 b4
      have k2 := lean he hf hL hu a1 a2 a3 a4
      rcases side1_cases e with k | k <;> rw [k.1] at k1 k2 <;> linarith
    · have k1 := lean hf he hL hv b3 b4 b1 b2
      have k2 := lean hf he hL hu a3 a4 a1 a2
      rcases side1_cases f with k | k <;> rw [k.1] at k1 k2 <;> linarith
  · intro e f v he hf hne hv a1 a2 a3 a4 hx
    rcases hD.meet e he f hf hne with hM | hL | hL
    · refine meq he hf hM hv a1 a2 a3 a4 ?_
      rcases lt_trichotomy (Xh ε e (ht ε v)) (Xh ε f (ht ε v)) with h1 | h1 | h1
      · exact absurd hx (sm2 he hf hv h1).ne
      · exact h1
      · exact absurd hx (sm2 hf he hv h1).ne'
    · have k1 := lean he hf hL hv a1 a2 a3 a4
      rw [hx, sub_self, mul_zero] at k1
      exact absurd k1 (lt_irrefl _)
    · have k1 := lean hf he hL hv a3 a4 a1 a2
      rw [hx, sub_self, mul_zero] at k1
      exact absurd k1 (lt_irrefl _)
  · intro e v he hv h1 h2
    have hb := bpos h1 h2
    by_cases hfl : e.1.y = e.2.y ∧ v.y = e.2.y
    · obtain ⟨hy1, hy2⟩ := hfl
      have hx1 : e.1.x < v.x := by
        have : ε * e.1.x < ε * v.x := by unfold ht at h1; linarith
        exact lt_of_mul_lt_mul_left this hε.le
      have hx2 : v.x < e.2.x := by
        have : ε * v.x < ε * e.2.x := by unfold ht at h2; linarith
        exact lt_of_mul_lt_mul_left this hε.le
      have hd : 0 < e.2.x - e.1.x := by linarith
      have ho : OnSeg e v := by
        refine ⟨(v.x - e.1.x) / (e.2.x - e.1.x), div_nonneg (by linarith) hd.le, (div_le_one hd).2 (by linarith), ?_, ?_⟩
        · rw [div_mul_cancel₀ _ hd.ne']; ring
        · rw [hy1, hy2]; ring
      rw [isLeft_unfold, if_pos hy2]
      refine ⟨fun _ => ?_, fun _ => hx2⟩
      simp only [X, bump, hon ho he]
      rcases side1_cases e with k | k
      · exact absurd hy1 k.2.ne
      · rw [k.1]; linarith
    · rw [isLeft_orient (hD.lt _ he) hfl, orient_Xh (hE he)]
      refine ⟨sm1 he hv, fun h => ?_⟩
      rcases lt_trichotomy v.x (Xh ε e (ht ε v)) with h' | h' | h'
      · exact h'
      · exfalso
        rcases side1_cases e with k | k
        · simp only [X, bump, k.1] at h; linarith
        · have hy : e.1.y = e.2.y := ((hD.lt _ he).resolve_left k.2).1
          have h0 : orient e.1 e.2 v = 0 := by
            refine le_antisymm (not_lt.1 fun h0 => ?_) (not_lt.1 fun h0 => ?_)
            · exact ((orient_Xh (hE he) v).1 h0).ne h'
            · exact ((orient_Xh_lt (hE he) v).1 h0).ne' h'
          unfold orient at h0
          rw [hy, sub_self, zero_mul, sub_zero] at h0
          rcases mul_eq_zero.1 h0 with k' | k'
          · have := hE he
            unfold ht at this
            have hx : e.2.x = e.1.x := by linarith
            rw [hy, hx] at this
            exact lt_irrefl _ this
          · exact hfl ⟨hy, by linarith⟩
      · exact absurd h (lt_asymm (sm1' he hv h'))
  · intro e f m he hf hne hef hm h1 h2 h3
    have hM := common he hf hne (.inl hef)
    rw [isLeft_orient (hD.lt _ he), orient_hi (hE he) (hE hf) hef h3]
    · exact same he hf hM hm h1 h3.le h2 (by rw [← hef]; exact h3.le)
    rintro ⟨hy1, hy2⟩
    exact hne (flat_overlap (hD.lt _ he) (hD.lt _ hf) hy1 (by rw [hy2, hef]) (by rw [hy1, hy2])
      (.inl (by rw [hef])) hM)
  · intro e f m he hf hne hef hm h1 h2 h3
    have hM := common he hf hne (.inr hef)
    rw [isLeft_orient (hD.lt _ he), orient_lo (hE he) (hE hf) hef h3]
    · exact same he hf hM hm h3.le h1 (by rw [← hef]; exact h3.le) h2
    rintro ⟨hy1, hy2⟩
    exact hne (flat_overlap (hD.lt _ he) (hD.lt _ hf) hy1 (by rw [hy2, ← hy1, hef]) (by rw [hef])
      (.inr (by rw [hef])) hM)

end Tri
