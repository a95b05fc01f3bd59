import Mathlib.Algebra.BigOperators.Group.List.Basic
import Verif.Proof.Sweep

/-!
# Inside and outside at a level

The side of a segment on which the inside lies, and the segments left of a point.
-/

set_option linter.unusedSectionVars false

namespace Tri

variable {K : Type} [Field K] [LinearOrder K] [IsStrictOrderedRing K] {P : Plane K} {A : Abs K} {lab : Nat → Bool}

theorem Lab.at_A (h : Lab A lab) {n u dl dc dr s0 s1 : Nat} (hn : n < A.N) (k : KA P A n u dl dc dr s0 s1) :
    lab dl = lab u ∧ (lab dc = !lab u) ∧ lab dr = lab u := by
  obtain ⟨b, c, h1, h2⟩ := h.at_ n hn
  rw [k.ups] at h1; rw [k.downs] at h2
  simp only [Alt, Bool.not_not] at h1 h2
  obtain ⟨h1, -⟩ := h1
  rw [h1, h2.1, h2.2.1, h2.2.2.1]; simp

theorem Lab.at_I (h : Lab A lab) {n ul ur dl dr s0 s1 : Nat} (hn : n < A.N) (k : KI P A n ul ur dl dr s0 s1) :
    (lab ur = !lab ul) ∧ lab dl = lab ul ∧ lab dr = !lab ul := by
  obtain ⟨b, c, h1, h2⟩ := h.at_ n hn
  rw [k.ups] at h1; rw [k.downs] at h2
  simp only [Alt, Bool.not_not] at h1 h2
  rw [h1.1, h1.2.1, h2.1, h2.2.1]; simp

theorem Lab.at_V (h : Lab A lab) {n ul uc ur d s0 s1 : Nat} (hn : n < A.N) (k : KV P A n ul uc ur d s0 s1) :
    (lab uc = !lab ul) ∧ lab ur = lab ul ∧ lab d = lab ul := by
  obtain ⟨b, c, h1, h2⟩ := h.at_ n hn
  rw [k.ups] at h1; rw [k.downs] at h2
  simp only [Alt, Bool.not_not] at h1 h2
  rw [h1.1, h1.2.1, h1.2.2.1, h2.1]; simp

/-- Trapezoids below the same vertex differ in their left sides. -/
theorem Whole.downs_left_inj (W : Whole P A) {n s : Nat} (hs : A.mx s = n) (hn : n < A.N) {i j : Nat} (hi : i ∈ A.downs n)
    (hj : j ∈ A.downs n) (ei : (A.T i).left = some s) (ej : (A.T j).left = some s) : i = j := by
  have hI := W.inv
  obtain ⟨L, R, hX⟩ := hI.nex n hn
  have hp := hX.pathD
  have hfirst : ∀ a, (A.T a).left = L → (A.T a).left ≠ some s := by
    intro a ha h'
    rw [ha] at h'
    subst h'
    have h1 := hX.passL s rfl
    have hsS := hI.leftS i (hI.rowD n hn i hi).1 s ei
    have h2 := (hI.mxN s hsS).2
    rw [hs] at h2
    have := h1.2.1
    rw [h2] at this
    exact lt_irrefl _ this
  rcases W.kind n hn with ⟨u, dl, dc, dr, s0, s1, k⟩ | ⟨ul, ur, dl, dr, s0, s1, k⟩ | ⟨ul, uc, ur, d, s0, s1, k⟩
  · rw [k.downs] at hi hj hp
    have hdc := hI.rowD n hn dc (by rw [k.downs]; simp)
    have h01 : s0 ≠ s1 := fun h => hI.ne dc hdc.1 s0 k.c0 (by rw [k.c1, h])
    have hdl := hfirst dl hp.1
    simp only [List.mem_cons, List.not_mem_nil, or_false] at hi hj
    rcases hi with rfl | rfl | rfl <;> rcases hj with rfl | rfl | rfl <;> first | rfl | exact absurd ei hdl | exact absurd ej hdl | skip
    · rw [k.c0] at ei; rw [k.r1] at ej; cases ei; cases ej; exact absurd rfl h01
    · rw [k.c0] at ej; rw [k.r1] at ei; cases ei; cases ej; exact absurd rfl h01
  · rw [k.downs] at hi hj hp
    have hdl := hfirst dl hp.1
    simp only [List.mem_cons, List.not_mem_nil, or_false] at hi hj
    rcases hi with rfl | rfl <;> rcases hj with rfl | rfl <;> first | rfl | exact absurd ei hdl | exact absurd ej hdl
  · rw [k.downs] at hi hj
    simp only [List.mem_singleton] at hi hj
    rw [hi, hj]

/-- `sgn s`: the inside is on the right of segment `s`. -/
structure Sgn (A : Abs K) (lab sgn : Nat → Bool) : Prop where
  left : ∀ i < A.M, ∀ s, (A.T i).left = some s → lab i = sgn s
  right : ∀ i < A.M, ∀ s, (A.T i).right = some s → lab i = !sgn s

theorem exists_sgn (W : Whole P A) (hlab : Lab A lab) : ∃ sgn, Sgn A lab sgn := by
  classical
  have hI := W.inv
  let f : Nat → Nat := fun s => if h : s < A.S then (W.sepD s h).choose else 0
  let sgn : Nat → Bool := fun s => lab (f s)
  have hsgn : ∀ s < A.S, ∀ b ∈ A.downs (A.mx s), (A.T b).left = some s → sgn s = lab b := by
    intro s hs b hb hbl
    have h1 := (W.sepD s hs).choose_spec
    have : f s = b := by
      simp only [f, dif_pos hs]
      exact W.downs_left_inj rfl (hI.mxN s hs).1 (List.mem_of_mem_tail h1.1) hb h1.2 hbl
    simp only [sgn, this]
  have key : ∀ n < A.N, ∀ i ∈ A.downs n, ∀ s, ((A.T i).left = some s → lab i = sgn s) ∧
      ((A.T i).right = some s → lab i = !sgn s) := by
    refine height_ind hI fun n hn ih => ?_
    have ihu : ∀ j ∈ A.ups n, ∀ s, ((A.T j).left = some s → lab j = sgn s) ∧ ((A.T j).right = some s → lab j = !sgn s) := by
      intro j hj s
      obtain ⟨h1, h2⟩ := hI.rowU n hn j hj
      rcases hu : (A.T j).up with _ | m
      · obtain ⟨e1, e2⟩ := W.up_none h1 hu
        simp [e1, e2]
      · obtain ⟨hm, hjm⟩ := hI.upM j h1 m hu
        exact ih m hm (hI.ht j h1 m n hu h2) j hjm s
    rcases W.kind n hn with ⟨u, dl, dc, dr, s0, s1, k⟩ | ⟨ul, ur, dl, dr, s0, s1, k⟩ | ⟨ul, uc, ur, d, s0, s1, k⟩
    · have hl := hlab.at_A hn k
      have e0 := hsgn s0 k.S0 dc (by rw [k.mx0, k.downs]; simp) k.c0
      have e1 := hsgn s1 k.S1 dr (by rw [k.mx1, k.downs]; simp) k.r1
      intro i hi s
      have hu := ihu u (by rw [k.ups]; simp) s
      rw [k.downs] at hi
      simp only [List.mem_cons, List.not_mem_nil, or_false] at hi
      rcases hi with rfl | rfl | rfl
      · rw [k.lL, k.l0, hl.1]
        refine ⟨hu.1, fun h => ?_⟩
        cases h; rw [e0, hl.2.1]; simp
      · rw [k.c0, k.c1]
        refine ⟨fun h => ?_, fun h => ?_⟩
        · cases h; rw [e0]
        · cases h; rw [e1, hl.2.1, hl.2.2]
      · rw [k.rR, k.r1]
        refine ⟨fun h => ?_, ?_⟩
        · cases h; rw [e1]
        · rw [hl.2.2]; exact hu.2
    · have hl := hlab.at_I hn k
      have e1 := hsgn s1 k.S1 dr (by rw [k.mx1, k.downs]; simp) k.dr1
      intro i hi s
      have hul := ihu ul (by rw [k.ups]; simp) s
      have hur := ihu ur (by rw [k.ups]; simp) s
      rw [k.downs] at hi
      simp only [List.mem_cons, List.not_mem_nil, or_false] at hi
      rcases hi with rfl | rfl
      · rw [k.lL, k.dl1, hl.2.1]
        refine ⟨hul.1, fun h => ?_⟩
        cases h; rw [e1, hl.2.2]; simp
      · rw [k.rR, k.dr1]
        refine ⟨fun h => ?_, ?_⟩
        · cases h; rw [e1]
        · rw [hl.2.2, ← hl.1]; exact hur.2
    · have hl := hlab.at_V hn k
      intro i hi s
      have hul := ihu ul (by rw [k.ups]; simp) s
      have hur := ihu ur (by rw [k.ups]; simp) s
      rw [k.downs] at hi
      simp only [List.mem_singleton] at hi
      subst hi
      rw [k.lL, k.rR]
      refine ⟨?_, ?_⟩
      · rw [hl.2.2]; exact hul.1
      · rw [hl.2.2, ← hl.2.1]; exact hur.2
  have key' : ∀ i < A.M, ∀ s, ((A.T i).left = some s → lab i = sgn s) ∧ ((A.T i).right = some s → lab i = !sgn s) := by
    intro i hi s
    rcases hu : (A.T i).up with _ | m
    · obtain ⟨e1, e2⟩ := W.up_none hi hu
      simp [e1, e2]
    · obtain ⟨hm, hjm⟩ := hI.upM i hi m hu
      exact key m hm i hjm s
  exact ⟨sgn, fun i hi s => (key' i hi s).1, fun i hi s => (key' i hi s).2⟩

/-- Segment `s` crosses the height of `q`, left of `q`. -/
def CrossL (P : Plane K) (A : Abs K) (q : Coords K) (s : Nat) : Prop :=
  P.h (A.sg s).1 < P.h q ∧ P.h q < P.h (A.sg s).2 ∧ P.X (A.sg s) q < q.x

/-- `+1` for segments with the inside on their right, `-1` for the others. -/
def sig (b : Bool) : Int := if b then 1 else -1

/-- `1` or `0`. -/
def ind (b : Bool) : Int := if b then 1 else 0

theorem alt_sum {b c : Bool} {Z : List Nat} (h : Alt lab b Z c) : (Z.map fun i => sig (lab i)).sum = ind b - ind c := by
  induction Z generalizing b with
  | nil => have : b = c := h; subst this; simp
  | cons a Z ih =>
    rw [List.map_cons, List.sum_cons, ih h.2, h.1]
    cases b <;> cases c <;> simp [sig, ind]

theorem lev_tail_some {zs : List Nat} {a : Nat} {F : List Nat} (hL : Lev A zs (a :: F)) {i : Nat} (hi : i ∈ F) :
    (A.T i).left ≠ none := by
  intro h
  have h0 : (A.T a).left = none := hL.path.1
  have := hL.inj
  rw [List.map_cons, List.nodup_cons, h0] at this
  exact this.1 (List.mem_map.2 ⟨i, hi, h⟩)

/-- The segments left of a point. -/
theorem level_sum (W : Whole P A) (hsky : Sky P A) {sgn : Nat → Bool} (hlab : Lab A lab) (hsgn : Sgn A lab sgn) {q : Coords K}
    (hq : P.U q) (hf : ∀ n < A.N, A.c n ≠ q) {t : Nat} (ht : t < A.M) (hr : Region P A t q) [DecidablePred (CrossL P A q)] :
    (((List.range A.S).filter fun s => CrossL P A q s).map fun s => sig (sgn s)).sum = ind (lab t) := by
  have hI := W.inv
  obtain ⟨zs, F, hz, hL, ha⟩ := exists_lev W hsky hlab (P.h q)
  have htF : t ∈ F := by
    refine (hL.mem t).2 ⟨ht, fun u hu => (hz u).2 ⟨(hI.upM t ht u hu).1, hr.up u hu⟩, fun d hd h => ?_⟩
    exact lt_asymm (hr.down d hd) ((hz d).1 h).2
  obtain ⟨X, Y, rfl⟩ := List.append_of_mem htF
  -- crossing segments
  have hcr : ∀ i ∈ X ++ t :: Y, ∀ s, (A.T i).left = some s → s < A.S ∧ P.h (A.sg s).1 < P.h q ∧ P.h q < P.h (A.sg s).2 := by
    intro i hi s hs
    obtain ⟨h1, h2, h3⟩ := (hL.mem i).1 hi
    have hsS := hI.leftS i h1 s hs
    refine ⟨hsS, ?_, ?_⟩
    · have h4 := W.left_mn hz h1 h3 hs
      have h5 : ¬ P.h q < P.h (A.c (A.mn s)) := fun h => h4 ((hz _).2 ⟨(hI.mnN s hsS).1, h⟩)
      rw [← W.mnC s hsS]
      refine lt_of_le_of_ne (not_lt.1 h5) fun h => ?_
      exact hf _ (hI.mnN s hsS).1 (P.h_inj (hI.cU _ (hI.mnN s hsS).1) hq h)
    · rw [← (hI.mxN s hsS).2]
      exact ((hz _).1 (W.left_mx hz h1 h2 hs)).2
  have hlt : ∀ i ∈ X ++ t :: Y, ∀ l r, (A.T i).left = some l → (A.T i).right = some r → P.h (A.sg r).1 < P.h q → P.h q < P.h (A.sg r).2 →
      P.X (A.sg l) q < P.X (A.sg r) q := by
    intro i hi l r hl hr' h4 h5
    obtain ⟨h1, -, -⟩ := (hL.mem i).1 hi
    obtain ⟨lS, h2, h3⟩ := hcr i hi l hl
    have rS := hI.rightS i h1 r hr'
    exact (hI.lr i h1 l r hl hr').lt (hI.sE l lS) (hI.sE r rS) hq ⟨h2.le, h3.le⟩ ⟨h4.le, h5.le⟩
      (.inl ⟨fun h => by rw [h] at h2; exact lt_irrefl _ h2, fun h => by rw [h] at h3; exact lt_irrefl _ h3⟩)
  -- to the right
  have hY : ∀ i ∈ Y, ∀ s, (A.T i).left = some s → q.x < P.X (A.sg s) q := by
    have hne : ∀ i ∈ Y, (A.T i).left ≠ none := by
      intro i hi
      cases X with
      | nil => exact lev_tail_some hL hi
      | cons x X => exact lev_tail_some hL (i := i) (by simp [hi])
    have hpY : Path A.T (A.T t).right Y none := by
      obtain ⟨m, -, h⟩ := path_append.1 hL.path
      exact h.2
    have hsub : ∀ i ∈ Y, i ∈ X ++ t :: Y := fun i hi => by simp [hi]
    have : ∀ (Z : List Nat) (R : Option Nat), (∀ i ∈ Z, i ∈ X ++ t :: Y) → (∀ i ∈ Z, (A.T i).left ≠ none) → Path A.T R Z none →
        (∀ r, R = some r → P.h (A.sg r).1 < P.h q → P.h q < P.h (A.sg r).2 → q.x < P.X (A.sg r) q) →
        ∀ i ∈ Z, ∀ s, (A.T i).left = some s → q.x < P.X (A.sg s) q := by
      intro Z
      induction Z with
      | nil => intro R _ _ _ _ i hi; simp at hi
      | cons y Z ih =>
        intro R h1 h2 h3 h4
        have hy : ∀ s, (A.T y).left = some s → q.x < P.X (A.sg s) q := by
          intro s hs
          obtain ⟨-, h6, h7⟩ := hcr y (h1 y (by simp)) s hs
          exact h4 s (by rw [← h3.1, hs]) h6 h7
        have hZ := ih (A.T y).right (fun i hi => h1 i (by simp [hi])) (fun i hi => h2 i (by simp [hi])) h3.2 (by
          intro r hr' h5 h6
          obtain ⟨l, hl⟩ := Option.ne_none_iff_exists'.1 (h2 y (by simp))
          exact (hy l hl).trans (hlt y (h1 y (by simp)) l r hl hr' h5 h6))
        intro i hi
        rcases List.mem_cons.1 hi with rfl | hi
        · exact hy
        · exact hZ i hi
    exact this Y _ hsub hne hpY fun r hr' _ _ => hr.right r hr'
  -- to the left
  have hXt : ∀ i ∈ X ++ [t], ∀ s, (A.T i).left = some s → P.X (A.sg s) q < q.x := by
    have : ∀ (Z Z' : List Nat), X = Z ++ Z' → ∀ i ∈ Z' ++ [t], ∀ s, (A.T i).left = some s → P.X (A.sg s) q < q.x := by
      intro Z Z'
      induction Z' generalizing Z with
      | nil =>
        intro _ i hi s hs
        have : i = t := by simpa using hi
        subst this; exact hr.left s hs
      | cons x Z' ih =>
        intro hX
        have ih := ih (Z ++ [x]) (by rw [hX]; simp)
        intro i hi s hs
        rw [List.cons_append] at hi
        rcases List.mem_cons.1 hi with rfl | hi
        · -- the next trapezoid
          obtain ⟨y, Z'', hy⟩ : ∃ y Z'', Z' ++ [t] = y :: Z'' := by
            cases Z' with
            | nil => exact ⟨t, [], rfl⟩
            | cons y Z' => exact ⟨y, Z' ++ [t], rfl⟩
          have hF : X ++ t :: Y = Z ++ i :: y :: (Z'' ++ Y) := by
            rw [hX, List.append_assoc, List.cons_append, show Z' ++ t :: Y = (Z' ++ [t]) ++ Y by simp, hy]; simp
          have hyl : (A.T y).left ≠ none := by
            have hL' := hL
            rw [hF] at hL'
            cases Z with
            | nil => exact lev_tail_some hL' (by simp)
            | cons z Z => exact lev_tail_some hL' (by simp)
          have hri : (A.T y).left = (A.T i).right := by
            have hp := hL.path
            rw [hF] at hp
            obtain ⟨m, -, h⟩ := path_append.1 hp
            exact h.2.1
          obtain ⟨r, hr'⟩ := Option.ne_none_iff_exists'.1 hyl
          obtain ⟨-, h6, h7⟩ := hcr y (by rw [hF]; simp) r hr'
          exact (hlt i (by rw [hF]; simp) s r hs (by rw [← hri, hr']) h6 h7).trans (ih y (by rw [hy]; simp) r hr')
        · exact ih i hi s hs
    exact this [] X rfl
  -- the segments are the left sides
  have hperm : ((List.range A.S).filter fun s => CrossL P A q s).Perm ((X ++ [t]).filterMap fun i => (A.T i).left) := by
    refine (List.perm_ext_iff_of_nodup (List.nodup_range.filter _) ?_).2 fun s => ?_
    · have h1 : ((X ++ [t]).map fun i => (A.T i).left).Nodup := by
        refine hL.inj.sublist (List.Sublist.map _ ?_)
        exact List.Sublist.append (List.Sublist.refl _) (by simp)
      have h2 := h1.filterMap (f := id) (by intro a a' b h h'; simp only [id, Option.mem_def] at h h'; rw [h, h'])
      rwa [List.filterMap_map] at h2
    · simp only [List.mem_filter, List.mem_range, decide_eq_true_eq, List.mem_filterMap]
      constructor
      · rintro ⟨hs, h1, h2, h3⟩
        have hmx : A.mx s ∈ zs := (hz _).2 ⟨(hI.mxN s hs).1, by rw [(hI.mxN s hs).2]; exact h2⟩
        have hmn : A.mn s ∉ zs := fun h => by
          have := ((hz _).1 h).2
          rw [W.mnC s hs] at this
          exact lt_asymm h1 this
        obtain ⟨i, hi, hil⟩ := List.mem_map.1 (hL.all s hs hmx hmn)
        refine ⟨i, ?_, hil⟩
        rcases List.mem_append.1 hi with h | h
        · simp [h]
        · rcases List.mem_cons.1 h with rfl | h
          · simp
          · exact absurd (hY i h s hil) (not_lt.2 h3.le)
      · rintro ⟨i, hi, hil⟩
        have hiF : i ∈ X ++ t :: Y := by simp at hi ⊢; tauto
        obtain ⟨h1, h2, h3⟩ := hcr i hiF s hil
        exact ⟨h1, h2, h3, hXt i hi s hil⟩
  rw [(hperm.map _).sum_eq]
  -- the alternating sum
  obtain ⟨m, h1, h2⟩ := alt_append.1 ha
  have h3 : Alt lab false (X ++ [t]) (!lab t) := alt_append.2 ⟨m, h1, h2.1, by rw [h2.1]; rfl⟩
  obtain ⟨y, Z, hy⟩ : ∃ y Z, X ++ [t] = y :: Z := by
    cases X with
    | nil => exact ⟨t, [], rfl⟩
    | cons y Z => exact ⟨y, Z ++ [t], rfl⟩
  have hF : X ++ t :: Y = y :: (Z ++ Y) := by
    rw [show X ++ t :: Y = (X ++ [t]) ++ Y by simp, hy]; simp
  have hy0 : (A.T y).left = none := by
    have := hL.path; rw [hF] at this; exact this.1
  rw [hy] at h3 ⊢
  rw [List.filterMap_cons_none (f := fun i => (A.T i).left) hy0]
  have hZ : ∀ i ∈ Z, (A.T i).left ≠ none ∧ i < A.M := by
    intro i hi
    refine ⟨?_, ((hL.mem i).1 (by rw [hF]; simp [hi])).1⟩
    rw [hF] at hL
    exact lev_tail_some hL (by simp [hi])
  have hmap : (Z.filterMap fun i => (A.T i).left).map (fun s => sig (sgn s)) = Z.map fun i => sig (lab i) := by
    clear * - hZ hsgn
    induction Z with
    | nil => rfl
    | cons i Z ih =>
      obtain ⟨s, hs⟩ := Option.ne_none_iff_exists'.1 (hZ i (by simp)).1
      rw [List.filterMap_cons_some (f := fun i => (A.T i).left) hs, List.map_cons, List.map_cons, ih fun j hj => hZ j (by simp [hj]),
        hsgn.left i (hZ i (by simp)).2 s hs]
  rw [hmap, alt_sum h3.2]
  cases lab t <;> simp [ind]

end Tri
