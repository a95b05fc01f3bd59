import Verif.Proof.Cover
import Verif.Proof.ValidCheck
import Verif.Proof.Boundary

/-!
# Walking from one point to another without meeting an edge
-/

set_option linter.unusedSectionVars false

namespace Tri

variable {K : Type} [Field K] [LinearOrder K] [IsStrictOrderedRing K]

/-- Abscissa of the line through `a` and `b` at height `y`. -/
def lineX (a b : Coords K) (y : K) : K := a.x + (y - a.y) / (b.y - a.y) * (b.x - a.x)

theorem lineX_onSeg {a b : Coords K} (h : a.y < b.y) {y : K} (h1 : a.y ≤ y) (h2 : y ≤ b.y) :
    OnSeg (a, b) ⟨lineX a b y, y⟩ := by
  have hd : 0 < b.y - a.y := by linarith
  refine ⟨(y - a.y) / (b.y - a.y), div_nonneg (by linarith) hd.le, (div_le_one hd).2 (by linarith), rfl, ?_⟩
  simp only
  rw [div_mul_cancel₀ _ hd.ne']; ring

theorem lineX_orient {a b : Coords K} (h : a.y < b.y) (q : Coords K) :
    orient a b q = (b.y - a.y) * (lineX a b q.y - q.x) := by
  have hd : b.y - a.y ≠ 0 := by linarith
  unfold lineX orient
  have : (b.y - a.y) * (a.x + (q.y - a.y) / (b.y - a.y) * (b.x - a.x) - q.x) =
      (b.y - a.y) * (a.x - q.x) + ((q.y - a.y) / (b.y - a.y) * (b.y - a.y)) * (b.x - a.x) := by ring
  rw [this, div_mul_cancel₀ _ hd]; ring

theorem lineX_lo (a b : Coords K) : lineX a b a.y = a.x := by simp [lineX]

theorem lineX_hi {a b : Coords K} (h : a.y < b.y) : lineX a b b.y = b.x := by
  unfold lineX; rw [div_self (by linarith [sub_pos.2 h] : b.y - a.y ≠ 0)]; ring

theorem lineX_affine (a b : Coords K) (s y y' : K) :
    lineX a b (y + s * (y' - y)) = lineX a b y + s * (lineX a b y' - lineX a b y) := by
  unfold lineX; simp only [div_eq_mul_inv]; ring

/-- Two segments without a common point keep their order over the heights they share. -/
theorem apart {a b p q : Coords K} (hab : a.y < b.y) (hpq : p.y < q.y) (hd : ∀ z, OnSeg (a, b) z → ¬ OnSeg (p, q) z)
    {y y' : K} (h1 : a.y ≤ y) (h2 : y ≤ b.y) (h3 : p.y ≤ y) (h4 : y ≤ q.y) (h1' : a.y ≤ y') (h2' : y' ≤ b.y) (h3' : p.y ≤ y')
    (h4' : y' ≤ q.y) : lineX a b y < lineX p q y ↔ lineX a b y' < lineX p q y' := by
  have key : ∀ {y y' : K}, a.y ≤ y → y ≤ b.y → p.y ≤ y → y ≤ q.y → a.y ≤ y' → y' ≤ b.y → p.y ≤ y' → y' ≤ q.y →
      lineX a b y < lineX p q y → lineX a b y' < lineX p q y' := by
    intro y y' h1 h2 h3 h4 h1' h2' h3' h4' h
    by_contra hn
    have hn := not_lt.1 hn
    set d := lineX p q y - lineX a b y with hdd
    set d' := lineX a b y' - lineX p q y' with hdd'
    have p0 : 0 < d := by linarith
    have p1 : 0 ≤ d' := by linarith
    have p2 : 0 < d + d' := by linarith
    set s := d / (d + d') with hs
    have s0 : 0 ≤ s := div_nonneg p0.le p2.le
    have s1 : s ≤ 1 := (div_le_one p2).2 (by linarith)
    have e1 : s * (d + d') = d := div_mul_cancel₀ _ p2.ne'
    have b1 : a.y ≤ y + s * (y' - y) := by nlinarith
    have b2 : y + s * (y' - y) ≤ b.y := by nlinarith
    have b3 : p.y ≤ y + s * (y' - y) := by nlinarith
    have b4 : y + s * (y' - y) ≤ q.y := by nlinarith
    refine hd _ (lineX_onSeg hab b1 b2) ?_
    have : lineX a b (y + s * (y' - y)) = lineX p q (y + s * (y' - y)) := by
      rw [lineX_affine, lineX_affine]
      nlinarith
    rw [this]
    exact lineX_onSeg hpq b3 b4
  exact ⟨key h1 h2 h3 h4 h1' h2' h3' h4', key h1' h2' h3' h4' h1 h2 h3 h4⟩

theorem apart_ne {a b p q : Coords K} (hab : a.y < b.y) (hpq : p.y < q.y) (hd : ∀ z, OnSeg (a, b) z → ¬ OnSeg (p, q) z)
    {y : K} (h1 : a.y ≤ y) (h2 : y ≤ b.y) (h3 : p.y ≤ y) (h4 : y ≤ q.y) : lineX a b y ≠ lineX p q y := by
  intro h
  refine hd _ (lineX_onSeg hab h1 h2) ?_
  rw [h]
  exact lineX_onSeg hpq h3 h4

/-- The points at heights of the segment from `p` up to `q`, left of it. -/
def strip (p q w : Coords K) : Int := if p.y < w.y ∧ w.y ≤ q.y ∧ 0 < orient p q w then 1 else 0

theorem fy_lt {q a b : Coords K} (hab : a.y < b.y) :
    fy q a b = if a.y ≤ q.y ∧ q.y < b.y ∧ lineX a b q.y < q.x then -1 else 0 := by
  have h1 : ¬ UpLeft q b a := fun h => absurd (lt_of_le_of_lt h.1 h.2.1) (not_lt.2 hab.le)
  have h2 : UpLeft q a b ↔ a.y ≤ q.y ∧ q.y < b.y ∧ lineX a b q.y < q.x := by
    unfold UpLeft
    rw [lineX_orient hab]
    have : (b.y - a.y) * (lineX a b q.y - q.x) < 0 ↔ lineX a b q.y < q.x := by
      rw [mul_neg_iff]
      constructor
      · rintro (h | h) <;> linarith [h.1, h.2]
      · intro h; exact .inl ⟨by linarith, by linarith⟩
    rw [this]
  unfold fy
  simp only [h1, h2, if_false]
  split <;> rfl

theorem strip_eq {p q w : Coords K} (hpq : p.y < q.y) :
    strip p q w = if p.y < w.y ∧ w.y ≤ q.y ∧ w.x < lineX p q w.y then 1 else 0 := by
  unfold strip
  have : 0 < orient p q w ↔ w.x < lineX p q w.y := by
    rw [lineX_orient hpq, mul_pos_iff]
    constructor
    · rintro (h | h) <;> linarith [h.1, h.2]
    · intro h; exact .inl ⟨by linarith, by linarith⟩
  simp only [this]

theorem pass_up {a b p q : Coords K} (hab : a.y < b.y) (hpq : p.y < q.y) (hd : ∀ z, OnSeg (a, b) z → ¬ OnSeg (p, q) z) :
    fy p a b - fy q a b = strip p q a - strip p q b := by
  rw [fy_lt hab, fy_lt hab, strip_eq hpq, strip_eq hpq]
  have la := lineX_lo a b
  have lb := lineX_hi hab
  have lp := lineX_lo p q
  have lq := lineX_hi hpq
  rcases lt_or_ge p.y a.y with h1 | h1
  · rw [if_neg (c := a.y ≤ p.y ∧ _) fun h => absurd h.1 (not_le.2 h1)]
    rcases lt_or_ge q.y a.y with h2 | h2
    · rw [if_neg (c := a.y ≤ q.y ∧ _) fun h => absurd h.1 (not_le.2 h2),
        if_neg (c := p.y < a.y ∧ _) fun h => absurd h.2.1 (not_le.2 h2),
        if_neg (c := p.y < b.y ∧ _) fun h => absurd h.2.1 (not_le.2 (h2.trans hab))]
    · rcases lt_or_ge q.y b.y with h3 | h3
      · have hA := apart hab hpq hd (y := a.y) (y' := q.y) le_rfl hab.le h1.le h2 h2 h3.le hpq.le le_rfl
        rw [la, lq] at hA
        rw [if_neg (c := p.y < b.y ∧ _) fun h => absurd h.2.1 (not_le.2 h3)]
        simp only [h1, h2, h3, hA, true_and]
        split <;> rfl
      · have hA := apart hab hpq hd (y := a.y) (y' := b.y) le_rfl hab.le h1.le h2 hab.le le_rfl (h1.trans hab).le h3
        rw [la, lb] at hA
        rw [if_neg (c := a.y ≤ q.y ∧ _) fun h => absurd h.2.1 (not_lt.2 h3)]
        simp only [h1, h2, h3, h1.trans hab, hA, true_and, sub_self]
  · rw [if_neg (c := p.y < a.y ∧ _) fun h => absurd h.1 (not_lt.2 h1)]
    rcases lt_or_ge p.y b.y with h2 | h2
    · rcases lt_or_ge q.y b.y with h3 | h3
      · have hA := apart hab hpq hd (y := p.y) (y' := q.y) h1 h2.le le_rfl hpq.le (h1.trans hpq.le) h3.le hpq.le le_rfl
        rw [lp, lq] at hA
        rw [if_neg (c := p.y < b.y ∧ _) fun h => absurd h.2.1 (not_le.2 h3)]
        simp only [h1, h2, h3, h1.trans hpq.le, hA, true_and, sub_self]
      · have hA := apart hab hpq hd (y := p.y) (y' := b.y) h1 h2.le le_rfl hpq.le hab.le le_rfl h2.le h3
        rw [lp, lb] at hA
        rw [if_neg (c := a.y ≤ q.y ∧ _) fun h => absurd h.2.1 (not_lt.2 h3)]
        simp only [h1, h2, h3, hA, true_and]
        split <;> rfl
    · rw [if_neg (c := a.y ≤ p.y ∧ _) fun h => absurd h.2.1 (not_lt.2 h2),
        if_neg (c := a.y ≤ q.y ∧ _) fun h => absurd h.2.1 (not_lt.2 (h2.trans hpq.le)),
        if_neg (c := p.y < b.y ∧ _) fun h => absurd h.1 (not_lt.2 h2)]

theorem pass_level {a b p q : Coords K} (hab : a.y < b.y) (hpq : p.y = q.y) (hd : ∀ z, OnSeg (a, b) z → ¬ OnSeg (p, q) z) :
    fy p a b = fy q a b := by
  rw [fy_lt hab, fy_lt hab, ← hpq]
  by_cases h1 : a.y ≤ p.y
  · by_cases h2 : p.y < b.y
    · have hon := lineX_onSeg hab h1 h2.le
      have hn := hd _ hon
      have : lineX a b p.y < p.x ↔ lineX a b p.y < q.x := by
        constructor
        · intro h
          by_contra k
          refine hn (onSeg_rev ?_)
          rcases eq_or_lt_of_le (not_lt.1 k) with k | k
          · refine ⟨0, le_rfl, zero_le_one, ?_, ?_⟩
            · simp [k]
            · simp [hpq]
          · exact onSeg_flat hpq.symm rfl k h
        · intro h
          by_contra k
          refine hn ?_
          rcases eq_or_lt_of_le (not_lt.1 k) with k | k
          · refine ⟨0, le_rfl, zero_le_one, ?_, ?_⟩
            · simp [k]
            · simp
          · exact onSeg_flat rfl hpq.symm k h
      simp only [this]
    · simp only [h2, false_and, and_false]
  · simp only [h1, false_and]

/-- Walking from `p` to `q` without meeting an edge changes its crossings by a potential. -/
theorem pass_by (p q : Coords K) : ∃ g : Coords K → Int, ∀ a b : Coords K, (∀ z, OnSeg (a, b) z → ¬ OnSeg (p, q) z) →
    fy p a b - fy q a b = g b - g a := by
  -- edges that go up, and edges on a level
  have flat : ∃ g : Coords K → Int, (∀ a b : Coords K, a.y < b.y → (∀ z, OnSeg (a, b) z → ¬ OnSeg (p, q) z) →
      fy p a b - fy q a b = g b - g a) ∧ ∀ a b : Coords K, a.y = b.y → (∀ z, OnSeg (a, b) z → ¬ OnSeg (p, q) z) → g a = g b := by
    have strip_level : ∀ {p q a b : Coords K}, p.y < q.y → a.y = b.y → (∀ z, OnSeg (a, b) z → ¬ OnSeg (p, q) z) →
        strip p q a = strip p q b := by
      intro p q a b hpq hab hd
      rw [strip_eq hpq, strip_eq hpq, ← hab]
      by_cases h1 : p.y < a.y
      · by_cases h2 : a.y ≤ q.y
        · have hon := lineX_onSeg hpq h1.le h2
          have hn := fun k => hd _ k hon
          have : a.x < lineX p q a.y ↔ b.x < lineX p q a.y := by
            constructor
            · intro h
              by_contra k
              refine hn ?_
              rcases eq_or_lt_of_le (not_lt.1 k) with k | k
              · exact ⟨1, zero_le_one, le_rfl, by simp [k], by simp [hab]⟩
              · exact onSeg_flat rfl hab.symm h k
            · intro h
              by_contra k
              refine hn ?_
              rcases eq_or_lt_of_le (not_lt.1 k) with k | k
              · exact ⟨0, le_rfl, zero_le_one, by simp [k], by simp⟩
              · exact onSeg_rev (onSeg_flat hab.symm rfl h k)
          simp only [this]
        · simp only [h2, false_and, and_false]
      · simp only [h1, false_and]
    rcases lt_trichotomy p.y q.y with h | h | h
    · refine ⟨fun w => - strip p q w, fun a b hab hd => ?_, fun a b hab hd => ?_⟩
      · rw [pass_up hab h hd]; simp only []; omega
      · simp only []; rw [strip_level h hab hd]
    · exact ⟨fun _ => 0, fun a b hab hd => by rw [pass_level hab h hd]; simp only []; omega, fun _ _ _ _ => rfl⟩
    · refine ⟨fun w => strip q p w, fun a b hab hd => ?_, fun a b hab hd => ?_⟩
      · have := pass_up hab h fun z h1 h2 => hd z h1 (onSeg_rev h2)
        simp only []
        omega
      · exact strip_level h hab fun z h1 h2 => hd z h1 (onSeg_rev h2)
  obtain ⟨g, h1, h2⟩ := flat
  refine ⟨g, fun a b hd => ?_⟩
  rcases lt_trichotomy a.y b.y with h | h | h
  · exact h1 a b h hd
  · have e : ∀ q : Coords K, fy q a b = 0 := by
      intro q
      rcases lt_or_ge q.y a.y with k | k
      · exact fy_above k (h ▸ k)
      · exact fy_beneath k (h ▸ k)
    rw [e, e, h2 a b h hd]; omega
  · have := h1 b a h fun z k1 k2 => hd z (onSeg_rev k1) k2
    rw [fy_anti p, fy_anti q]; omega

/-! ## Closed polygons -/

theorem esum_potential {α : Type} (g : α → Int) (gs : List (List α)) :
    esum (fun a b => g b - g a) (gs.flatMap cycleEdges) = 0 := by
  have h : ∀ es : List (α × α), esum (fun a b => g b - g a) es = ((es.map Prod.snd).map g).sum - ((es.map Prod.fst).map g).sum := by
    intro es
    induction es with
    | nil => rfl
    | cons e es ih =>
      have : esum (fun a b => g b - g a) (e :: es) = g e.2 - g e.1 + esum (fun a b => g b - g a) es := by simp [esum]
      rw [this, ih]
      simp only [List.map_cons, List.sum_cons]; omega
  rw [h, flatMap_fst', ((flatMap_snd' gs).map g).sum_eq, sub_self]

/-- **The even-odd rule is sound**: it does not change along a way that meets no edge. -/
theorem inside_walk {gs : List (List (Coords K))} {p q : Coords K}
    (h : ∀ e ∈ gs.flatMap cycleEdges, ∀ z, OnSeg e z → ¬ OnSeg (p, q) z) : Inside gs p ↔ Inside gs q := by
  obtain ⟨g, hg⟩ := pass_by p q
  have h1 : esum (fy p) (gs.flatMap cycleEdges) = esum (fy q) (gs.flatMap cycleEdges) := by
    have e : ∀ es : List (Coords K × Coords K), (∀ e ∈ es, fy p e.1 e.2 - fy q e.1 e.2 = g e.2 - g e.1) →
        esum (fy p) es - esum (fy q) es = esum (fun a b => g b - g a) es := by
      intro es hes
      induction es with
      | nil => rfl
      | cons e es ih =>
        have k : ∀ f : Coords K → Coords K → Int, esum f (e :: es) = f e.1 e.2 + esum f es := fun f => by simp [esum]
        have := hes e (by simp)
        have := ih fun x hx => hes x (by simp [hx])
        rw [k, k, k]; omega
    have := e _ fun e he => hg e.1 e.2 (h e he)
    rw [esum_potential] at this
    omega
  have h2 := esum_fy_parity p (gs.flatMap cycleEdges)
  have h3 := esum_fy_parity q (gs.flatMap cycleEdges)
  rw [h1] at h2
  unfold Inside
  omega

end Tri
