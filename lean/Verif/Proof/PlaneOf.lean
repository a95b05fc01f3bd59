import Mathlib.Tactic.FieldSimp
import Verif.Proof.Plane
import Verif.Proof.ExactLemmas
import Verif.Proof.ValidCheck

/-!
# Valid inputs are planes

Finitely many points and edges that meet only in common ends form a `Plane`: the height is the ordinate,
slightly sheared, so that no two points have the same height.
-/

set_option linter.unusedSectionVars false

namespace Tri

variable {K : Type} [Field K] [LinearOrder K] [IsStrictOrderedRing K]

attribute [local instance] exact

/-- Points and edges that meet only in common ends. -/
structure Drawn (pts : List (Coords K)) (es : List (Coords K × Coords K)) : Prop where
  lt : ∀ e ∈ es, below e.1 e.2
  lo : ∀ e ∈ es, e.1 ∈ pts
  hi : ∀ e ∈ es, e.2 ∈ pts
  meet : ∀ e ∈ es, ∀ f ∈ es, e ≠ f → ∀ q, OnSeg e q → OnSeg f q → (q = e.1 ∨ q = e.2) ∧ (q = f.1 ∨ q = f.2)
  off : ∀ v ∈ pts, ∀ e ∈ es, OnSeg e v → v = e.1 ∨ v = e.2
  deg : ∀ e ∈ es, ∀ f ∈ es, ∀ g ∈ es, ∀ v, (v = e.1 ∨ v = e.2) → (v = f.1 ∨ v = f.2) → (v = g.1 ∨ v = g.2) →
    e = f ∨ f = g ∨ e = g

/-- The sheared height. -/
def ht (ε : K) (v : Coords K) : K := v.y + ε * v.x

/-- The abscissa of `e` at height `H`. -/
def Xh (ε : K) (e : Coords K × Coords K) (H : K) : K :=
  e.1.x + (H - ht ε e.1) / (ht ε e.2 - ht ε e.1) * (e.2.x - e.1.x)

theorem exists_shear (L : List (Coords K × Coords K)) :
    ∃ ε : K, 0 < ε ∧ ∀ e ∈ L, below e.1 e.2 → ht ε e.1 < ht ε e.2 := by
  suffices h : ∃ ε : K, 0 < ε ∧ ∀ ε', 0 < ε' → ε' ≤ ε → ∀ e ∈ L, below e.1 e.2 → ht ε' e.1 < ht ε' e.2 by
    obtain ⟨ε, h0, h⟩ := h
    exact ⟨ε, h0, h ε h0 le_rfl⟩
  induction L with
  | nil => exact ⟨1, one_pos, by simp⟩
  | cons e L ih =>
    obtain ⟨ε, h0, h⟩ := ih
    by_cases hy : e.1.y < e.2.y
    · have hd : (0 : K) < |e.1.x - e.2.x| + 1 := by positivity
      refine ⟨min ε ((e.2.y - e.1.y) / (|e.1.x - e.2.x| + 1) ), lt_min h0 (div_pos (by linarith) hd), ?_⟩
      intro ε' h1 h2 f hf hb
      rcases List.mem_cons.1 hf with rfl | hf
      · have h3 := le_trans h2 (min_le_right _ _)
        rw [le_div_iff₀ hd] at h3
        have h4 : ε' * (f.1.x - f.2.x) ≤ ε' * |f.1.x - f.2.x| :=
          mul_le_mul_of_nonneg_left (le_abs_self _) h1.le
        unfold ht
        nlinarith
      · exact h ε' h1 (le_trans h2 (min_le_left _ _)) f hf hb
    · refine ⟨ε, h0, ?_⟩
      intro ε' h1 h2 f hf hb
      rcases List.mem_cons.1 hf with rfl | hf
      · rcases hb with hb | ⟨hb, hx⟩
        · exact absurd hb hy
        · have := mul_lt_mul_of_pos_left hx h1
          unfold ht
          linarith
      · exact h ε' h1 h2 f hf hb

theorem below_total {u v : Coords K} (h : u ≠ v) : below u v ∨ below v u := by
  unfold below
  rcases lt_trichotomy u.y v.y with h1 | h1 | h1
  · exact .inl (.inl h1)
  · rcases lt_trichotomy u.x v.x with h2 | h2 | h2
    · exact .inl (.inr ⟨h1, h2⟩)
    · exact absurd (coords_ext h2 h1) h
    · exact .inr (.inr ⟨h1.symm, h2⟩)
  · exact .inr (.inl h1)

theorem onSeg_at {ε : K} {e : Coords K × Coords K} (hlt : ht ε e.1 < ht ε e.2) {H : K} (h1 : ht ε e.1 ≤ H)
    (h2 : H ≤ ht ε e.2) : OnSeg e ⟨Xh ε e H, H - ε * Xh ε e H⟩ := by
  have hd : 0 < ht ε e.2 - ht ε e.1 := by linarith
  refine ⟨(H - ht ε e.1) / (ht ε e.2 - ht ε e.1), div_nonneg (by linarith) hd.le,
    (div_le_one hd).2 (by linarith), by simp only [Xh], ?_⟩
  simp only [Xh]
  have hne := hd.ne'
  have e1 : (H - ht ε e.1) / (ht ε e.2 - ht ε e.1) * (ht ε e.2 - ht ε e.1) = H - ht ε e.1 :=
    div_mul_cancel₀ _ hne
  generalize (H - ht ε e.1) / (ht ε e.2 - ht ε e.1) = t at e1 ⊢
  have e2 : H = ht ε e.1 + t * (ht ε e.2 - ht ε e.1) := by rw [e1]; ring
  rw [e2]; unfold ht; ring

theorem Xh_affine (ε : K) (e : Coords K × Coords K) (s H1 H2 : K) :
    Xh ε e ((1 - s) * H1 + s * H2) = (1 - s) * Xh ε e H1 + s * Xh ε e H2 := by
  unfold Xh; simp only [div_eq_mul_inv]; ring

theorem Xh_lo (ε : K) (e : Coords K × Coords K) : Xh ε e (ht ε e.1) = e.1.x := by
  unfold Xh; simp

theorem Xh_hi {ε : K} {e : Coords K × Coords K} (h : ht ε e.1 < ht ε e.2) : Xh ε e (ht ε e.2) = e.2.x := by
  unfold Xh
  rw [div_self (by linarith [sub_pos.2 h] : ht ε e.2 - ht ε e.1 ≠ 0)]; ring

/-- The library's test is the orientation, unless the three points have the same ordinate. -/
theorem isLeft_orient {a b c : Coords K} (hab : below a b) (hn : ¬ (a.y = b.y ∧ c.y = b.y)) :
    isLeftOfLine a b c = true ↔ 0 < orient a b c := by
  rw [isLeft_unfold]
  have hc : (a.x - b.x) * (c.y - b.y) < (a.y - b.y) * (c.x - b.x) ↔ 0 < orient a b c := by
    have : orient a b c = (a.y - b.y) * (c.x - b.x) - (a.x - b.x) * (c.y - b.y) := by unfold orient; ring
    rw [this, sub_pos]
  split
  · rename_i h
    have hay : a.y < b.y := by
      rcases hab with h' | h'
      · exact h'
      · exact absurd ⟨h'.1, h⟩ hn
    rw [← hc, h]
    constructor
    · intro h'
      have := mul_pos_of_neg_of_neg (sub_neg.2 hay) (sub_neg.2 h')
      simpa using this
    · intro h'
      by_contra h2
      have := mul_nonpos_of_nonpos_of_nonneg (sub_neg.2 hay).le (sub_nonneg.2 (not_lt.1 h2))
      simp at h'
      linarith
  · split
    · rename_i h h2
      have hay : a.y < b.y := by
        rcases hab with h' | h'
        · exact h'
        · exact absurd (h2.trans h'.1) h
      rw [← hc, h2, mul_comm, mul_lt_mul_left_of_neg (sub_neg.2 hay)]
      constructor <;> intro h' <;> linarith
    · exact hc

theorem orient_ht (ε : K) (a b c : Coords K) :
    orient a b c = (b.x - a.x) * (ht ε c - ht ε a) - (ht ε b - ht ε a) * (c.x - a.x) := by
  unfold orient ht; ring

theorem orient_Xh {ε : K} {e : Coords K × Coords K} (hlt : ht ε e.1 < ht ε e.2) (c : Coords K) :
    0 < orient e.1 e.2 c ↔ c.x < Xh ε e (ht ε c) := by
  rw [orient_ht ε]
  have hd : 0 < ht ε e.2 - ht ε e.1 := by linarith
  have e1 : (ht ε c - ht ε e.1) / (ht ε e.2 - ht ε e.1) * (ht ε e.2 - ht ε e.1) = ht ε c - ht ε e.1 :=
    div_mul_cancel₀ _ hd.ne'
  unfold Xh
  generalize (ht ε c - ht ε e.1) / (ht ε e.2 - ht ε e.1) = t at e1 ⊢
  rw [← e1]
  have e2 : (e.2.x - e.1.x) * (t * (ht ε e.2 - ht ε e.1)) - (ht ε e.2 - ht ε e.1) * (c.x - e.1.x) =
      (ht ε e.2 - ht ε e.1) * (e.1.x + t * (e.2.x - e.1.x) - c.x) := by ring
  rw [e2, mul_pos_iff_of_pos_left hd, sub_pos]

/-- Two edges with the same upper end. -/
theorem orient_hi {ε : K} {e f : Coords K × Coords K} (he : ht ε e.1 < ht ε e.2) (hf : ht ε f.1 < ht ε f.2)
    (hef : e.2 = f.2) {H : K} (hH : H < ht ε e.2) : 0 < orient e.1 e.2 f.1 ↔ Xh ε f H < Xh ε e H := by
  rw [orient_Xh he]
  have hd : 0 < ht ε f.2 - ht ε f.1 := by linarith
  have hs : ∀ g : Coords K × Coords K, ht ε g.1 < ht ε g.2 → ∀ H, Xh ε g H =
      g.2.x - (ht ε g.2 - H) * ((g.2.x - g.1.x) / (ht ε g.2 - ht ε g.1)) := by
    intro g hg H
    have := Xh_hi hg
    have h2 : Xh ε g H = Xh ε g (ht ε g.2) - (ht ε g.2 - H) * ((g.2.x - g.1.x) / (ht ε g.2 - ht ε g.1)) := by
      unfold Xh; simp only [div_eq_mul_inv]; ring
    rw [h2, this]
  have h1 : f.1.x = Xh ε f (ht ε f.1) := (Xh_lo _ _).symm
  rw [h1, hs e he, hs f hf, hs e he, hs f hf, hef]
  rw [hef] at hH he
  rw [sub_lt_sub_iff_left, sub_lt_sub_iff_left, mul_lt_mul_iff_right₀ hd,
    mul_lt_mul_iff_right₀ (sub_pos.2 hH)]

/-- Two edges with the same lower end. -/
theorem orient_lo {ε : K} {e f : Coords K × Coords K} (he : ht ε e.1 < ht ε e.2) (hf : ht ε f.1 < ht ε f.2)
    (hef : e.1 = f.1) {H : K} (hH : ht ε e.1 < H) : 0 < orient e.1 e.2 f.2 ↔ Xh ε f H < Xh ε e H := by
  rw [orient_Xh he]
  have hd : 0 < ht ε f.2 - ht ε f.1 := by linarith
  have hs : ∀ g : Coords K × Coords K, ∀ H, Xh ε g H =
      g.1.x + (H - ht ε g.1) * ((g.2.x - g.1.x) / (ht ε g.2 - ht ε g.1)) := by
    intro g H
    unfold Xh; simp only [div_eq_mul_inv]; ring
  have h1 : f.2.x = Xh ε f (ht ε f.2) := (Xh_hi hf).symm
  rw [h1, hs e, hs f, hs e, hs f, hef]
  rw [hef] at hH he
  rw [add_lt_add_iff_left, add_lt_add_iff_left, mul_lt_mul_iff_right₀ hd,
    mul_lt_mul_iff_right₀ (sub_pos.2 hH)]

/-- Edges on one horizontal line with a common end overlap. -/
theorem flat_overlap {e f : Coords K × Coords K} (he : below e.1 e.2) (hf : below f.1 f.2)
    (h1 : e.1.y = e.2.y) (h2 : f.1.y = f.2.y) (h3 : e.1.y = f.1.y) (h : e.2.x = f.2.x ∨ e.1.x = f.1.x)
    (hm : ∀ q, OnSeg e q → OnSeg f q → (q = e.1 ∨ q = e.2) ∧ (q = f.1 ∨ q = f.2)) : e = f := by
  have hex : e.1.x < e.2.x := by
    rcases he with h' | h'
    · exact absurd h1 h'.ne
    · exact h'.2
  have hfx : f.1.x < f.2.x := by
    rcases hf with h' | h'
    · exact absurd h2 h'.ne
    · exact h'.2
  have on : ∀ g : Coords K × Coords K, g.1.y = g.2.y → ∀ q : Coords K, g.1.x < g.2.x → g.1.x ≤ q.x → q.x ≤ g.2.x → q.y = g.1.y →
      OnSeg g q := by
    intro g hg q hx h1 h2 h3
    have hd : 0 < g.2.x - g.1.x := by linarith
    refine ⟨(q.x - g.1.x) / (g.2.x - g.1.x), div_nonneg (by linarith) hd.le, (div_le_one hd).2 (by linarith), ?_, ?_⟩
    · rw [div_mul_cancel₀ _ hd.ne']; ring
    · rw [← hg, h3]; ring
  have ends : ∀ {g : Coords K × Coords K}, ∀ {q : Coords K}, q = g.1 ∨ q = g.2 → q.x = g.1.x ∨ q.x = g.2.x := by
    rintro g q (h | h) <;> simp [h]
  have key : e.1.x = f.1.x ∧ e.2.x = f.2.x := by
    rcases h with h | h
    · refine ⟨?_, h⟩
      rcases lt_trichotomy e.1.x f.1.x with hl | hl | hl
      · have := hm f.1 (on e h1 f.1 hex hl.le (by linarith) h3.symm) (on f h2 f.1 hfx le_rfl hfx.le rfl)
        rcases ends this.1 with h' | h' <;> linarith
      · exact hl
      · have := hm e.1 (on e h1 e.1 hex le_rfl hex.le rfl) (on f h2 e.1 hfx hl.le (by linarith) h3)
        rcases ends this.2 with h' | h' <;> linarith
    · refine ⟨h, ?_⟩
      rcases lt_trichotomy e.2.x f.2.x with hl | hl | hl
      · have := hm e.2 (on e h1 e.2 hex hex.le le_rfl h1.symm) (on f h2 e.2 hfx (by linarith) hl.le (h1.symm.trans h3))
        rcases ends this.2 with h' | h' <;> linarith
      · exact hl
      · have := hm f.2 (on e h1 f.2 hex (by linarith) hl.le (h2.symm.trans h3.symm)) (on f h2 f.2 hfx hfx.le le_rfl h2.symm)
        rcases ends this.1 with h' | h' <;> linarith
  exact Prod.ext (coords_ext key.1 h3) (coords_ext key.2 (by rw [← h1, h3, h2]))

/-- The plane of a drawing. -/
theorem exists_plane {pts : List (Coords K)} {es : List (Coords K × Coords K)} (hD : Drawn pts es) :
    ∃ P : Plane K, (∀ v, P.U v ↔ v ∈ pts) ∧ (∀ e, P.E e ↔ e ∈ es) ∧
      ∃ ε > 0, P.h = ht ε ∧ P.X = fun e v => Xh ε e (ht ε v) := by
  obtain ⟨ε, hε, hsh⟩ := exists_shear (pts.flatMap fun u => pts.map fun v => (u, v))
  have hlt : ∀ {u v}, u ∈ pts → v ∈ pts → below u v → ht ε u < ht ε v := by
    intro u v hu hv hb
    exact hsh (u, v) (List.mem_flatMap.2 ⟨u, hu, List.mem_map.2 ⟨v, hv, rfl⟩⟩) hb
  have hinj : ∀ {u v}, u ∈ pts → v ∈ pts → ht ε u = ht ε v → u = v := by
    intro u v hu hv h
    by_contra hne
    rcases below_total hne with h' | h'
    · exact (hlt hu hv h').ne h
    · exact (hlt hv hu h').ne h.symm
  have hE : ∀ {e}, e ∈ es → ht ε e.1 < ht ε e.2 := fun he => hlt (hD.lo _ he) (hD.hi _ he) (hD.lt _ he)
  have htq : ∀ x H : K, ht ε ⟨x, H - ε * x⟩ = H := by intro x H; unfold ht; ring
  have heta : ∀ v : Coords K, (⟨v.x, ht ε v - ε * v.x⟩ : Coords K) = v := fun v =>
    coords_ext rfl (by simp only [ht]; ring)
  have hon : ∀ {e : Coords K × Coords K} {v : Coords K}, OnSeg e v → e ∈ es → Xh ε e (ht ε v) = v.x := by
    rintro e v ⟨t, -, -, hx, hy⟩ he
    have hd : 0 < ht ε e.2 - ht ε e.1 := by linarith [hE he]
    have e1 : ht ε v - ht ε e.1 = t * (ht ε e.2 - ht ε e.1) := by unfold ht; rw [hx, hy]; ring
    unfold Xh
    rw [e1, mul_div_cancel_right₀ _ hd.ne', hx]
  refine ⟨{ U := (· ∈ pts), E := (· ∈ es), h := ht ε, X := fun e v => Xh ε e (ht ε v)
            h_lt := ?_, h_inj := fun hu hv => hinj hu hv, lo_U := fun he => hD.lo _ he, hi_U := fun he => hD.hi _ he
            E_lt := hE, X_lo := fun _ => Xh_lo _ _, X_hi := fun he => Xh_hi (hE he)
            X_ne := ?_, nc := ?_, nc_eq := ?_, left_iff := ?_, left_hi := ?_, left_lo := ?_
            deg := fun he hf hg => hD.deg _ he _ hf _ hg _ },
    fun _ => Iff.rfl, fun _ => Iff.rfl, ε, hε, rfl, rfl⟩
  · intro u v hu hv
    refine ⟨hlt hu hv, fun h => ?_⟩
    by_contra hb
    have hne : u ≠ v := by rintro rfl; exact lt_irrefl _ h
    exact lt_asymm h (hlt hv hu ((below_total hne).resolve_left hb))
  · intro e v he hv h1 h2 hx
    have h3 := onSeg_at (hE he) h1.le h2.le
    rw [hx, heta] at h3
    rcases hD.off v hv e he h3 with h | h
    · rw [h] at h1; exact lt_irrefl _ h1
    · rw [h] at h2; exact lt_irrefl _ h2
  · intro e f u v he hf hne hu hv a1 a2 a3 a4 b1 b2 b3 b4 hx
    by_contra hc
    have hc := not_le.1 hc
    have hd : 0 < (Xh ε f (ht ε u) - Xh ε e (ht ε u)) - (Xh ε f (ht ε v) - Xh ε e (ht ε v)) := by linarith
    obtain ⟨s, hs⟩ : ∃ s, s = (Xh ε f (ht ε u) - Xh ε e (ht ε u)) /
      ((Xh ε f (ht ε u) - Xh ε e (ht ε u)) - (Xh ε f (ht ε v) - Xh ε e (ht ε v))) := ⟨_, rfl⟩
    have hs0 : 0 < s := by rw [hs]; exact div_pos (by linarith) hd
    have hs1 : s < 1 := by rw [hs, div_lt_one hd]; linarith
    have hseq : s * ((Xh ε f (ht ε u) - Xh ε e (ht ε u)) - (Xh ε f (ht ε v) - Xh ε e (ht ε v))) =
        Xh ε f (ht ε u) - Xh ε e (ht ε u) := by rw [hs, div_mul_cancel₀ _ hd.ne']
    have hX : Xh ε e ((1 - s) * ht ε u + s * ht ε v) = Xh ε f ((1 - s) * ht ε u + s * ht ε v) := by
      rw [Xh_affine, Xh_affine]; linarith
    have hs2 : 0 < 1 - s := by linarith
    have lo : ∀ {c : K}, c ≤ ht ε u → c ≤ ht ε v → c ≤ (1 - s) * ht ε u + s * ht ε v := by
      intro c h1 h2; nlinarith
    have up : ∀ {c : K}, ht ε u ≤ c → ht ε v ≤ c → (1 - s) * ht ε u + s * ht ε v ≤ c := by
      intro c h1 h2; nlinarith
    have o1 := onSeg_at (hE he) (lo a1 b1) (up a2 b2)
    have o2 := onSeg_at (hE hf) (lo a3 b3) (up a4 b4)
    rw [← hX] at o2
    have huv : ht ε u ≠ ht ε v := by
      intro h; rw [h] at hx; exact lt_asymm hx hc
    rcases (hD.meet e he f hf hne _ o1 o2).1 with h | h
    · have := congrArg (ht ε) h
      rw [htq] at this
      apply huv
      have h5 : ht ε u = ht ε e.1 := by nlinarith
      have h6 : ht ε v = ht ε e.1 := by nlinarith
      rw [h5, h6]
    · have := congrArg (ht ε) h
      rw [htq] at this
      apply huv
      have h5 : ht ε u = ht ε e.2 := by nlinarith
      have h6 : ht ε v = ht ε e.2 := by nlinarith
      rw [h5, h6]
  · intro e f v he hf hne hv a1 a2 a3 a4 hx
    have o1 := onSeg_at (hE he) a1 a2
    have o2 := onSeg_at (hE hf) a3 a4
    rw [← hx] at o2
    have hm := hD.meet e he f hf hne _ o1 o2
    have tr : ∀ {w : Coords K}, w ∈ pts → (⟨Xh ε e (ht ε v), ht ε v - ε * Xh ε e (ht ε v)⟩ : Coords K) = w → v = w := by
      intro w hw h
      have := congrArg (ht ε) h
      rw [htq] at this
      exact hinj hv hw this
    exact ⟨hm.1.imp (tr (hD.lo _ he)) (tr (hD.hi _ he)), hm.2.imp (tr (hD.lo _ hf)) (tr (hD.hi _ hf))⟩
  · intro e v he hv h1 h2
    rw [isLeft_orient (hD.lt _ he), orient_Xh (hE he)]
    rintro ⟨hy1, hy2⟩
    have hx1 : e.1.x < v.x := by
      have : ε * e.1.x < ε * v.x := by unfold ht at h1; linarith
      exact lt_of_mul_lt_mul_left this hε.le
    have hx2 : v.x < e.2.x := by
      have : ε * v.x < ε * e.2.x := by unfold ht at h2; linarith
      exact lt_of_mul_lt_mul_left this hε.le
    have hd : 0 < e.2.x - e.1.x := by linarith
    have : OnSeg e v := by
      refine ⟨(v.x - e.1.x) / (e.2.x - e.1.x), div_nonneg (by linarith) hd.le, (div_le_one hd).2 (by linarith), ?_, ?_⟩
      · rw [div_mul_cancel₀ _ hd.ne']; ring
      · rw [hy1, hy2]; ring
    rcases hD.off v hv e he this with h | h
    · rw [h] at h1; exact lt_irrefl _ h1
    · rw [h] at h2; exact lt_irrefl _ h2
  · intro e f m he hf hne hef hm h1 h2 h3
    rw [isLeft_orient (hD.lt _ he), orient_hi (hE he) (hE hf) hef h3]
    rintro ⟨hy1, hy2⟩
    exact hne (flat_overlap (hD.lt _ he) (hD.lt _ hf) hy1 (by rw [hy2, hef]) (by rw [hy1, hy2])
      (.inl (by rw [hef])) (hD.meet e he f hf hne))
  · intro e f m he hf hne hef hm h1 h2 h3
    rw [isLeft_orient (hD.lt _ he), orient_lo (hE he) (hE hf) hef h3]
    rintro ⟨hy1, hy2⟩
    exact hne (flat_overlap (hD.lt _ he) (hD.lt _ hf) hy1 (by rw [hy2, ← hy1, hef]) (by rw [hef])
      (.inr (by rw [hef])) (hD.meet e he f hf hne))

end Tri
