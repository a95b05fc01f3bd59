import Verif.Proof.OpExtend

/-!
# Where a segment goes
-/

set_option linter.unusedSectionVars false

namespace Tri

attribute [local instance] exact

variable {K : Type} [Field K] [LinearOrder K] [IsStrictOrderedRing K] {P : Plane K} {A : Abs K}

/-- Edge `e` fits between the sides of trapezoid `t`. -/
structure Fits (P : Plane K) (A : Abs K) (e : Coords K × Coords K) (t : Nat) : Prop where
  ltL : ∀ l, (A.T t).left = some l → P.Lt (A.sg l) e
  ltR : ∀ r, (A.T t).right = some r → P.Lt e (A.sg r)

/-- An edge that fits into a trapezoid and ends below its top reaches its bottom. -/
theorem Fits.down {e : Coords K × Coords K} {t u b : Nat} (hI : Inv P A) (he : P.E e) (ht : t < A.M)
    (hf : Fits P A e t) (hu : (A.T t).up = some u) (h1 : P.h e.1 < P.h (A.c u)) (h2 : P.h (A.c u) ≤ P.h e.2)
    (hb : b < A.N) (hcb : A.c b = e.1) : ∃ n, (A.T t).down = some n ∧ P.h e.1 ≤ P.h (A.c n) := by
  by_contra hcon
  refine hI.empty b hb t ht ?_
  rw [hcb]
  have hlt : ∀ n, (A.T t).down = some n → P.h (A.c n) < P.h e.1 := by
    intro n hn
    by_contra h'
    exact hcon ⟨n, hn, not_lt.1 h'⟩
  rcases hd : (A.T t).down with _ | n
  · have hL : (A.T t).left = none := by
      by_contra h'
      exact (hI.bnd t ht (.inl h')).2 hd
    have hR : (A.T t).right = none := by
      by_contra h'
      exact (hI.bnd t ht (.inr h')).2 hd
    refine ⟨?_, ?_, ?_, ?_⟩
    · rw [hd]; intro d h; cases h
    · rw [hu]; intro u' h; cases h; exact h1
    · rw [hL]; intro d h; cases h
    · rw [hR]; intro d h; cases h
  · have hn := hlt n hd
    refine ⟨fun d h => hlt d h, ?_, ?_, ?_⟩
    · rw [hu]; intro u' h; cases h; exact h1
    · intro l hl
      have hS := hI.leftS t ht l hl
      have hsp := hI.left_span ht hl hu hd
      have hm := hI.mnN l hS
      have h3 : P.h (A.sg l).1 < P.h e.1 := by linarith [hm.2.1]
      have h4 : P.h e.1 < P.h (A.sg l).2 := by linarith
      have := (hf.ltL l hl).lt (hI.sE l hS) he (P.lo_U he) ⟨h3.le, h4.le⟩ (Plane.In.lo he)
        (.inl ⟨Plane.ne_of_h' h3, Plane.ne_of_h h4⟩)
      rwa [P.X_lo he] at this
    · intro l hl
      have hS := hI.rightS t ht l hl
      have hsp := hI.right_span ht hl hu hd
      have hm := hI.mnN l hS
      have h3 : P.h (A.sg l).1 < P.h e.1 := by linarith [hm.2.1]
      have h4 : P.h e.1 < P.h (A.sg l).2 := by linarith
      have := (hf.ltR l hl).lt he (hI.sE l hS) (P.lo_U he) (Plane.In.lo he) ⟨h3.le, h4.le⟩
        (.inr ⟨Plane.ne_of_h' h3, Plane.ne_of_h h4⟩)
      rwa [P.X_lo he] at this

/-- The same upwards. -/
theorem Fits.up {e : Coords K × Coords K} {t d b : Nat} (hI : Inv P A) (he : P.E e) (ht : t < A.M)
    (hf : Fits P A e t) (hd : (A.T t).down = some d) (h1 : P.h (A.c d) < P.h e.2) (h2 : P.h e.1 ≤ P.h (A.c d))
    (hb : b < A.N) (hcb : A.c b = e.2) : ∃ n, (A.T t).up = some n ∧ P.h (A.c n) ≤ P.h e.2 := by
  by_contra hcon
  refine hI.empty b hb t ht ?_
  rw [hcb]
  have hlt : ∀ n, (A.T t).up = some n → P.h e.2 < P.h (A.c n) := by
    intro n hn
    by_contra h'
    exact hcon ⟨n, hn, not_lt.1 h'⟩
  rcases hu : (A.T t).up with _ | n
  · have hL : (A.T t).left = none := by
      by_contra h'
      exact (hI.bnd t ht (.inl h')).1 hu
    have hR : (A.T t).right = none := by
      by_contra h'
      exact (hI.bnd t ht (.inr h')).1 hu
    refine ⟨?_, ?_, ?_, ?_⟩
    · rw [hd]; intro u' h; cases h; exact h1
    · rw [hu]; intro d h; cases h
    · rw [hL]; intro d h; cases h
    · rw [hR]; intro d h; cases h
  · have hn := hlt n hu
    refine ⟨?_, fun d h => hlt d h, ?_, ?_⟩
    · rw [hd]; intro u' h; cases h; exact h1
    · intro l hl
      have hS := hI.leftS t ht l hl
      have hsp := hI.left_span ht hl hu hd
      have hm := hI.mnN l hS
      have h3 : P.h (A.sg l).1 < P.h e.2 := by linarith [hm.2.1]
      have h4 : P.h e.2 < P.h (A.sg l).2 := by linarith
      have := (hf.ltL l hl).lt (hI.sE l hS) he (P.hi_U he) ⟨h3.le, h4.le⟩ (Plane.In.hi he)
        (.inl ⟨Plane.ne_of_h' h3, Plane.ne_of_h h4⟩)
      rwa [P.X_hi he] at this
    · intro l hl
      have hS := hI.rightS t ht l hl
      have hsp := hI.right_span ht hl hu hd
      have hm := hI.mnN l hS
      have h3 : P.h (A.sg l).1 < P.h e.2 := by linarith [hm.2.1]
      have h4 : P.h e.2 < P.h (A.sg l).2 := by linarith
      have := (hf.ltR l hl).lt he (hI.sE l hS) (P.hi_U he) (Plane.In.hi he) ⟨h3.le, h4.le⟩
        (.inr ⟨Plane.ne_of_h' h3, Plane.ne_of_h h4⟩)
      rwa [P.X_hi he] at this

/-- The heights of the segments that start or end at a vertex, or pass it. -/
theorem Inv.mx_h (hI : Inv P A) {i : Nat} (hi : i < A.S) : P.h (A.c (A.mx i)) = P.h (A.sg i).2 := by
  rw [(hI.mxN i hi).2]

/-- Left boundary of a vertex: the sides in its rows. -/
theorem Nex.left_down {n : Nat} {L R : Option Nat} (hx : Nex P A n L R) (hI : Inv P A) (hn : n < A.N)
    {i l : Nat} (hi : i ∈ A.downs n) (hl : (A.T i).left = some l) :
    l < A.S ∧ P.In (A.sg l) (A.c n) ∧ P.X (A.sg l) (A.c n) ≤ (A.c n).x := by
  have hS := hI.leftS i (hI.rowD n hn i hi).1 l hl
  refine ⟨hS, ?_⟩
  have hm := hI.mnN l hS
  rcases hI.left_up (hI.rowD n hn i hi).1 hl (hI.rowD n hn i hi).2 with h | h
  · have := (hI.mxN l hS).2
    rw [h] at this
    rw [this]
    exact ⟨Plane.In.hi (hI.sE l hS), (P.X_hi (hI.sE l hS)).le⟩
  · exact ⟨⟨by linarith [hm.2.1, h.1], h.2.1.le⟩, h.2.2.le⟩

theorem Nex.right_down {n : Nat} {L R : Option Nat} (hx : Nex P A n L R) (hI : Inv P A) (hn : n < A.N)
    {i l : Nat} (hi : i ∈ A.downs n) (hl : (A.T i).right = some l) :
    l < A.S ∧ P.In (A.sg l) (A.c n) ∧ (i ∈ A.downs n → (A.c n).x ≤ P.X (A.sg l) (A.c n)) := by
  have hS := hI.rightS i (hI.rowD n hn i hi).1 l hl
  refine ⟨hS, ?_⟩
  have hm := hI.mnN l hS
  rcases hI.right_up (hI.rowD n hn i hi).1 hl (hI.rowD n hn i hi).2 with h | h
  · have := (hI.mxN l hS).2
    rw [h] at this
    rw [this]
    exact ⟨Plane.In.hi (hI.sE l hS), fun _ => (P.X_hi (hI.sE l hS)).ge⟩
  · exact ⟨⟨by linarith [hm.2.1, h.1], h.2.1.le⟩, fun _ => h.2.2.le⟩

/-- The abstract state while segment `s` is being inserted: it has reached vertex `n`. -/
structure Reach (P : Plane K) (A : Abs K) (s n tl tr : Nat) (pre post : List Nat) : Prop where
  inv : Inv P A
  sS : s < A.S
  mn : A.mn s = n
  ups : A.ups n = pre ++ tl :: tr :: post
  trL : (A.T tr).left = some s
  ltL : ∀ l, (A.T tl).left = some l → P.Lt (A.sg l) (A.sg s)
  ltR : ∀ r, (A.T tr).right = some r → P.Lt (A.sg s) (A.sg r)
  real : Real A (· = s)

namespace Reach
variable {s n tl tr : Nat} {pre post : List Nat}

theorem nN (h : Reach P A s n tl tr pre post) : n < A.N := by
  have := (h.inv.mnN s h.sS).1; rwa [h.mn] at this

theorem tlM (h : Reach P A s n tl tr pre post) : tl < A.M ∧ (A.T tl).down = some n :=
  h.inv.rowU n h.nN tl (by rw [h.ups]; simp)

theorem trM (h : Reach P A s n tl tr pre post) : tr < A.M ∧ (A.T tr).down = some n :=
  h.inv.rowU n h.nN tr (by rw [h.ups]; simp)

theorem tlR (h : Reach P A s n tl tr pre post) : (A.T tl).right = some s := by
  obtain ⟨L, R, hx⟩ := h.inv.nex n h.nN
  have := hx.pathU
  rw [h.ups, path_append] at this
  obtain ⟨m, -, -, h1, -⟩ := this
  rw [← h1, h.trL]

theorem hn (h : Reach P A s n tl tr pre post) :
    P.h (A.sg s).1 ≤ P.h (A.c n) ∧ P.h (A.c n) < P.h (A.sg s).2 := by
  have := (h.inv.mnN s h.sS).2; rwa [h.mn] at this

/-- A vertex left of `s` has no segment ending right of `s`. -/
theorem post_nil (h : Reach P A s n tl tr pre post) (hside : (A.c n).x < P.X (A.sg s) (A.c n)) : post = [] := by
  rcases hp : post with _ | ⟨y, ys⟩
  · rfl
  exfalso
  obtain ⟨L, R, hx⟩ := h.inv.nex n h.nN
  have hups := h.ups
  rw [hp] at hups
  have hpath := hx.pathU
  rw [hups, path_append] at hpath
  obtain ⟨m, -, -, -, hy, -⟩ := hpath
  obtain ⟨r, hr, h1, h2⟩ := hx.sepU y (by rw [hups]; cases pre <;> simp)
  rw [hy] at h1
  have hlt := h.ltR r h1
  have hrs : r ≠ s := by rintro rfl; exact hlt.ne rfl
  have hreal := h.real r hr hrs
  rw [h2] at hreal
  have hE := h.inv.sE r hr
  have := hlt.le (h.inv.sE s h.sS) hE (h.inv.cU n h.nN) ⟨h.hn.1, h.hn.2.le⟩ (by rw [hreal]; exact Plane.In.lo hE)
  have hX := P.X_lo hE
  rw [← hreal] at hX
  rw [hX] at this
  exact absurd (lt_of_lt_of_le hside this) (lt_irrefl _)

/-- A vertex right of `s` has no segment ending left of `s`. -/
theorem pre_nil (h : Reach P A s n tl tr pre post) (hside : P.X (A.sg s) (A.c n) < (A.c n).x) : pre = [] := by
  rcases List.eq_nil_or_concat' pre with hp | ⟨ys, y, hp⟩
  · exact hp
  exfalso
  obtain ⟨L, R, hx⟩ := h.inv.nex n h.nN
  have hups := h.ups
  rw [hp] at hups
  obtain ⟨r, hr, h1, h2⟩ := hx.sepU tl (by rw [hups]; cases ys <;> simp)
  have hlt := h.ltL r h1
  have hrs : r ≠ s := by rintro rfl; exact hlt.ne rfl
  have hreal := h.real r hr hrs
  rw [h2] at hreal
  have hE := h.inv.sE r hr
  have := hlt.le hE (h.inv.sE s h.sS) (h.inv.cU n h.nN) (by rw [hreal]; exact Plane.In.lo hE) ⟨h.hn.1, h.hn.2.le⟩
  have hX := P.X_lo hE
  rw [← hreal] at hX
  rw [hX] at this
  exact absurd (lt_of_lt_of_le hside this) (lt_irrefl _)

/-- The side of a vertex that is not the end of `s`. -/
theorem side (h : Reach P A s n tl tr pre post) (hne : A.c n ≠ (A.sg s).1) :
    ((A.c n).x < P.X (A.sg s) (A.c n) ↔ isLeftOfLine (A.sg s).1 (A.sg s).2 (A.c n) = true) ∧
    (P.X (A.sg s) (A.c n) < (A.c n).x ∨ (A.c n).x < P.X (A.sg s) (A.c n)) ∧ P.h (A.sg s).1 < P.h (A.c n) := by
  have hE := h.inv.sE s h.sS
  have hU := h.inv.cU n h.nN
  have hlt : P.h (A.sg s).1 < P.h (A.c n) :=
    lt_of_le_of_ne h.hn.1 fun e => hne (P.h_inj hU (P.lo_U hE) e.symm)
  exact ⟨(P.left_iff hE hU hlt h.hn.2).symm, lt_or_gt_of_ne (P.X_ne hE hU hlt h.hn.2), hlt⟩

/-- The trapezoid below a vertex left of `s` into which `s` continues. -/
theorem contR (h : Reach P A s n tl tr pre post) (hside : (A.c n).x < P.X (A.sg s) (A.c n))
    (hlt : P.h (A.sg s).1 < P.h (A.c n)) {b : Nat} (hb : b < A.N) (hcb : A.c b = (A.sg s).1) {dpre : List Nat} {ti : Nat}
    (hd : A.downs n = dpre ++ [ti]) :
    (A.T ti).right = (A.T tr).right ∧ ∃ n', ExtROk P A s n n' ti tl tr pre dpre := by
  have hI := h.inv
  obtain ⟨L, R, hx⟩ := hI.nex n h.nN
  have hpost := h.post_nil hside
  have hups := h.ups
  rw [hpost] at hups
  have hR1 : (A.T ti).right = R := by
    have := hx.pathD; rw [hd, path_append] at this
    obtain ⟨m, -, -, h2⟩ := this; exact h2
  have hR2 : (A.T tr).right = R := by
    have := hx.pathU; rw [hups, path_append] at this
    obtain ⟨m, -, -, -, h2⟩ := this; exact h2
  have hti : ti ∈ A.downs n := by rw [hd]; simp
  have hfit : Fits P A (A.sg s) ti := by
    refine ⟨fun l hl => ?_, fun r hr => h.ltR r (by rw [hR2, ← hR1, hr])⟩
    obtain ⟨hS, hin, hle⟩ := hx.left_down hI h.nN hti hl
    exact ⟨A.c n, hI.cU n h.nN, hin, ⟨h.hn.1, h.hn.2.le⟩, lt_of_le_of_lt hle hside⟩
  have htiM := hI.rowD n h.nN ti hti
  obtain ⟨n', hn', hlow⟩ := hfit.down hI (hI.sE s h.sS) htiM.1 htiM.2 hlt h.hn.2.le hb hcb
  exact ⟨by rw [hR1, hR2], n', h.sS, h.mn, hups, hd, h.trL, hn', hlow, hside, hfit.ltL, hfit.ltR⟩

/-- The trapezoid below a vertex right of `s` into which `s` continues. -/
theorem contL (h : Reach P A s n tl tr pre post) (hside : P.X (A.sg s) (A.c n) < (A.c n).x)
    (hlt : P.h (A.sg s).1 < P.h (A.c n)) {b : Nat} (hb : b < A.N) (hcb : A.c b = (A.sg s).1) {dpost : List Nat} {ti : Nat}
    (hd : A.downs n = ti :: dpost) :
    (A.T ti).left = (A.T tl).left ∧ (∃ n', ExtLOk P A s n n' ti tl tr post dpost) ∧
      ((A.T ti).right = (A.T tr).right → dpost = [] ∧ post = []) := by
  have hI := h.inv
  obtain ⟨L, R, hx⟩ := hI.nex n h.nN
  have hpre := h.pre_nil hside
  have hups := h.ups
  rw [hpre] at hups
  simp only [List.nil_append] at hups
  have hR1 : (A.T ti).left = L := by
    have := hx.pathD; rw [hd] at this; exact this.1
  have hR2 : (A.T tl).left = L := by
    have := hx.pathU; rw [hups] at this; exact this.1
  have hti : ti ∈ A.downs n := by rw [hd]; simp
  have hfit : Fits P A (A.sg s) ti := by
    refine ⟨fun r hr => h.ltL r (by rw [hR2, ← hR1, hr]), fun l hl => ?_⟩
    obtain ⟨hS, hin, hle⟩ := hx.right_down hI h.nN hti hl
    exact ⟨A.c n, hI.cU n h.nN, ⟨h.hn.1, h.hn.2.le⟩, hin, lt_of_lt_of_le hside (hle hti)⟩
  have htiM := hI.rowD n h.nN ti hti
  obtain ⟨n', hn', hlow⟩ := hfit.down hI (hI.sE s h.sS) htiM.1 htiM.2 hlt h.hn.2.le hb hcb
  refine ⟨by rw [hR1, hR2], ⟨n', h.sS, h.mn, hups, hd, h.tlR, hn', hlow, hside, hfit.ltL, hfit.ltR⟩, ?_⟩
  intro heq
  have hpU := hx.pathU
  have hpD := hx.pathD
  rw [hups] at hpU
  rw [hd] at hpD
  have hDS : ∀ y ys, dpost = y :: ys → ∃ q, q < A.S ∧ (A.T ti).right = some q ∧ A.mx q = n := by
    intro y ys hy
    subst hy
    obtain ⟨q, hq, h1, h2⟩ := hx.sepD y (by rw [hd]; simp)
    exact ⟨q, hq, by rw [← hpD.2.1, h1], h2⟩
  have hUS : ∀ y ys, post = y :: ys → ∃ q, q < A.S ∧ (A.T tr).right = some q ∧ A.mn q = n := by
    intro y ys hy
    subst hy
    obtain ⟨q, hq, h1, h2⟩ := hx.sepU y (by rw [hups]; simp)
    exact ⟨q, hq, by rw [← hpU.2.2.1, h1], h2⟩
  rcases hdp : dpost with _ | ⟨y, ys⟩ <;> rcases hpo : post with _ | ⟨z, zs⟩
  · exact ⟨rfl, rfl⟩
  · exfalso
    obtain ⟨q, hq, h1, h2⟩ := hUS z zs hpo
    rw [hdp] at hpD
    have : (A.T ti).right = R := hpD.2
    have := (hx.passR q (by rw [← this, heq, h1])).1
    rw [h2] at this
    exact lt_irrefl _ this
  · exfalso
    obtain ⟨q, hq, h1, h2⟩ := hDS y ys hdp
    rw [hpo] at hpU
    have : (A.T tr).right = R := hpU.2.2
    have := (hx.passR q (by rw [← this, ← heq, h1])).2.1
    rw [← (hI.mxN q hq).2, h2] at this
    exact lt_irrefl _ this
  · exfalso
    obtain ⟨q, hq, h1, h2⟩ := hUS z zs hpo
    obtain ⟨q', hq', h1', h2'⟩ := hDS y ys hdp
    rw [h1', h1] at heq
    cases heq
    have := (hI.mnN q hq).2.2
    rw [← (hI.mxN q hq).2, h2, h2'] at this
    exact lt_irrefl _ this

end Reach

end Tri
