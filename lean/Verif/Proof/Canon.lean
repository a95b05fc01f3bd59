import Verif.Proof.Level
import Verif.Proof.Sim2

/-!
# There is only one trapezoidation

Two complete trapezoidations of the same vertices and edges are the same, apart from the numbering: going down with a
sweep line, the rows of trapezoids correspond to each other.
-/

set_option linter.unusedSectionVars false

namespace Tri

variable {K : Type} [Field K] [LinearOrder K] [IsStrictOrderedRing K]

attribute [local instance] exact

variable {P : Plane K} {A A' : Abs K}

/-- The same vertex. -/
structure VN (A A' : Abs K) (n n' : Nat) : Prop where
  lt : n < A.N
  lt' : n' < A'.N
  c : A.c n = A'.c n'

/-- The same segment. -/
structure SG (A A' : Abs K) (s s' : Nat) : Prop where
  lt : s < A.S
  lt' : s' < A'.S
  sg : A.sg s = A'.sg s'

/-- Optional values that correspond. -/
def ORel {α β : Type} (R : α → β → Prop) : Option α → Option β → Prop
  | none, none => True
  | some a, some b => R a b
  | _, _ => False

/-- Trapezoids with the same upper vertex and the same sides. -/
structure TR (A A' : Abs K) (i i' : Nat) : Prop where
  lt : i < A.M
  lt' : i' < A'.M
  up : ORel (VN A A') (A.T i).up (A'.T i').up
  left : ORel (SG A A') (A.T i).left (A'.T i').left
  right : ORel (SG A A') (A.T i).right (A'.T i').right

theorem ORel.some_left {α β : Type} {R : α → β → Prop} {a : Option α} {b : Option β} (h : ORel R a b) {x : α}
    (hx : a = some x) : ∃ y, b = some y ∧ R x y := by
  subst hx
  cases b with
  | none => exact h.elim
  | some y => exact ⟨y, rfl, h⟩

theorem ORel.some_right {α β : Type} {R : α → β → Prop} {a : Option α} {b : Option β} (h : ORel R a b) {y : β}
    (hy : b = some y) : ∃ x, a = some x ∧ R x y := by
  subst hy
  cases a with
  | none => exact h.elim
  | some x => exact ⟨x, rfl, h⟩

theorem ORel.none_left {α β : Type} {R : α → β → Prop} {a : Option α} {b : Option β} (h : ORel R a b)
    (hx : a = none) : b = none := by
  subst hx
  cases b with
  | none => rfl
  | some y => exact h.elim

theorem ORel.symm {α β : Type} {R : α → β → Prop} {S : β → α → Prop} (hRS : ∀ a b, R a b → S b a) {a : Option α}
    {b : Option β} (h : ORel R a b) : ORel S b a := by
  cases a <;> cases b
  · trivial
  · exact h.elim
  · exact h.elim
  · exact hRS _ _ h

theorem VN.symm {n n' : Nat} (h : VN A A' n n') : VN A' A n' n := ⟨h.lt', h.lt, h.c.symm⟩

theorem SG.symm {n n' : Nat} (h : SG A A' n n') : SG A' A n' n := ⟨h.lt', h.lt, h.sg.symm⟩

theorem TR.symm {i i' : Nat} (h : TR A A' i i') : TR A' A i' i :=
  ⟨h.lt', h.lt, h.up.symm fun _ _ h => h.symm, h.left.symm fun _ _ h => h.symm, h.right.symm fun _ _ h => h.symm⟩

theorem VN.uniq (hI : Inv P A') {n a b : Nat} (h : VN A A' n a) (h' : VN A A' n b) : a = b :=
  hI.cinj a h.lt' b h'.lt' (by rw [← h.c, ← h'.c])

theorem SG.uniq (hI : Inv P A') {n a b : Nat} (h : SG A A' n a) (h' : SG A A' n b) : a = b :=
  hI.sinj a h.lt' b h'.lt' (by rw [← h.sg, ← h'.sg])

theorem VN.eq_iff (hI : Inv P A) (hI' : Inv P A') {n n' m m' : Nat} (h : VN A A' n n') (h' : VN A A' m m') : n = m ↔ n' = m' := by
  constructor
  · rintro rfl; exact h.uniq hI' h'
  · rintro rfl; exact h.symm.uniq hI h'.symm

theorem SG.mx (W : Whole P A) (W' : Whole P A') {s s' : Nat} (h : SG A A' s s') : VN A A' (A.mx s) (A'.mx s') := by
  have h1 := W.inv.mxN s h.lt
  have h2 := W'.inv.mxN s' h.lt'
  exact ⟨h1.1, h2.1, by rw [h1.2, h2.2, h.sg]⟩

theorem SG.mn (W : Whole P A) (W' : Whole P A') {s s' : Nat} (h : SG A A' s s') : VN A A' (A.mn s) (A'.mn s') :=
  ⟨(W.inv.mnN s h.lt).1, (W'.inv.mnN s' h.lt').1, by rw [W.mnC s h.lt, W'.mnC s' h.lt', h.sg]⟩

/-- The same vertices and segments. -/
structure Twin (P : Plane K) (A A' : Abs K) : Prop where
  W : Whole P A
  W' : Whole P A'
  sky : Sky P A
  vs : ∀ n < A.N, ∃ n', VN A A' n n'
  vs' : ∀ n' < A'.N, ∃ n, VN A A' n n'
  ss : ∀ s < A.S, ∃ s', SG A A' s s'
  ss' : ∀ s' < A'.S, ∃ s, SG A A' s s'

namespace Twin

variable (T : Twin P A A')
include T

theorem sky' : Sky P A' := by
  obtain ⟨w, hw, h⟩ := T.sky
  refine ⟨w, hw, fun n' hn' => ?_⟩
  obtain ⟨n, hn⟩ := T.vs' n' hn'
  rw [← hn.c]
  exact h n hn.lt

theorem symm : Twin P A' A where
  W := T.W'
  W' := T.W
  sky := T.sky'
  vs n hn := (T.vs' n hn).imp fun _ h => h.symm
  vs' n hn := (T.vs n hn).imp fun _ h => h.symm
  ss n hn := (T.ss' n hn).imp fun _ h => h.symm
  ss' n hn := (T.ss n hn).imp fun _ h => h.symm

/-- A trapezoid is known by its upper vertex and its sides. -/
theorem uniq {i a b : Nat} (h : TR A A' i a) (h' : TR A A' i b) : a = b := by
  obtain ⟨w, hw, hh⟩ := T.sky'
  have hI := T.W'.inv
  rcases hu : (A.T i).up with _ | u
  · exact T.W'.top_unique hw hh h.lt' h'.lt' (h.up.none_left hu) (h'.up.none_left hu)
  · obtain ⟨u1, e1, v1⟩ := h.up.some_left hu
    obtain ⟨u2, e2, v2⟩ := h'.up.some_left hu
    obtain rfl := v1.uniq hI v2
    have m1 := (hI.upM a h.lt' u1 e1).2
    have m2 := (hI.upM b h'.lt' u1 e2).2
    obtain ⟨L, R, hX⟩ := hI.nex u1 v1.lt'
    have tail : ∀ {x y : Nat}, TR A A' i x → TR A A' i y → x ∈ A'.downs u1 → y ∈ A'.downs u1 → x ∈ (A'.downs u1).tail → x = y := by
      intro x y hx hy mx my hm
      obtain ⟨s, hs, hl, hmx⟩ := hX.sepD x hm
      obtain ⟨s0, h0, g0⟩ := hx.left.some_right hl
      obtain ⟨s', h1, g1⟩ := hy.left.some_left h0
      obtain rfl := g0.uniq hI g1
      exact T.W'.downs_left_inj hmx v1.lt' mx my hl h1
    rcases path_left hX.pathD m1 with ⟨h1, -⟩ | h1
    · rcases path_left hX.pathD m2 with ⟨h2, -⟩ | h2
      · rw [h1] at h2; cases h2; rfl
      · exact (tail h' h m2 m1 h2).symm
    · exact tail h h' m1 m2 h1

/-- Trapezoids of the current rows that end at the next vertex. -/
theorem ends {zs' F' : List Nat} {n n' : Nat} (hn : VN A A' n n') (hz' : Above P A' (P.h (A'.c n')) zs') (hL' : Lev A' zs' F')
    {i i' : Nat} (h : TR A A' i i') (hi' : i' ∈ F') (hd : (A.T i).down = some n) : (A'.T i').down = some n' := by
  have hI := T.W.inv
  have hI' := T.W'.inv
  obtain ⟨-, hup, hdn⟩ := (hL'.mem i').1 hi'
  by_contra hne
  have hlow : ∀ d, (A'.T i').down = some d → P.h (A'.c d) < P.h (A'.c n') := by
    intro d hd'
    have hdN := (hI'.downM i' h.lt' d hd').1
    have h1 : ¬ P.h (A'.c n') < P.h (A'.c d) := fun hlt => hdn d hd' ((hz' d).2 ⟨hdN, hlt⟩)
    rcases lt_or_eq_of_le (not_lt.1 h1) with h2 | h2
    · exact h2
    · have := hI'.cinj d hdN n' hn.lt' (P.h_inj (hI'.cU d hdN) (hI'.cU n' hn.lt') h2)
      exact absurd (this ▸ hd') hne
  have hspan : ∀ s', (A'.T i').left = some s' ∨ (A'.T i').right = some s' → A'.mn s' ≠ n' := by
    intro s' hs' he
    have hb := hI'.bnd i' h.lt' (by rcases hs' with h | h <;> simp [h])
    obtain ⟨u, hu⟩ := Option.ne_none_iff_exists'.1 hb.1
    obtain ⟨d, hd⟩ := Option.ne_none_iff_exists'.1 hb.2
    have : P.h (A'.c (A'.mn s')) ≤ P.h (A'.c d) := by
      rcases hs' with h1 | h1
      · exact (hI'.left_span h.lt' h1 hu hd).1
      · exact (hI'.right_span h.lt' h1 hu hd).1
    rw [he] at this
    exact absurd (hlow d hd) (not_lt.2 this)
  refine hI'.empty n' hn.lt' i' h.lt' ⟨hlow, fun u hu => ((hz' u).1 (hup u hu)).2, fun l' hl' => ?_, fun r' hr' => ?_⟩
  · obtain ⟨l, hl, g⟩ := h.left.some_right hl'
    rcases hI.left_down h.lt hl hd with h1 | h1
    · exact absurd ((g.mn T.W T.W').uniq hI' (h1 ▸ hn)) (hspan l' (.inl hl'))
    · rw [← g.sg, ← hn.c]; exact h1.2.2
  · obtain ⟨l, hl, g⟩ := h.right.some_right hr'
    rcases hI.right_down h.lt hl hd with h1 | h1
    · exact absurd ((g.mn T.W T.W').uniq hI' (h1 ▸ hn)) (hspan r' (.inr hr'))
    · rw [← g.sg, ← hn.c]; exact h1.2.2

end Twin

/-- Splitting corresponding lists at a marked part. -/
theorem forall₂_split {α β : Type} {R : α → β → Prop} {p : α → Prop} {q : β → Prop} {X U Y : List α} {X' U' Y' : List β}
    (h : List.Forall₂ R (X ++ U ++ Y) (X' ++ U' ++ Y')) (hpq : ∀ a ∈ X ++ U ++ Y, ∀ b ∈ X' ++ U' ++ Y', R a b → (p a ↔ q b))
    (hX : ∀ a ∈ X, ¬ p a) (hY : ∀ a ∈ Y, ¬ p a) (hU : ∀ a ∈ U, p a) (hX' : ∀ a ∈ X', ¬ q a) (hY' : ∀ a ∈ Y', ¬ q a)
    (hU' : ∀ a ∈ U', q a) (hne : U ≠ []) (hne' : U' ≠ []) :
    List.Forall₂ R X X' ∧ List.Forall₂ R U U' ∧ List.Forall₂ R Y Y' := by
  have tail : ∀ {U : List α} {U' : List β}, List.Forall₂ R (U ++ Y) (U' ++ Y') →
      (∀ a ∈ U ++ Y, ∀ b ∈ U' ++ Y', R a b → (p a ↔ q b)) → (∀ a ∈ U, p a) → (∀ a ∈ U', q a) →
      List.Forall₂ R U U' ∧ List.Forall₂ R Y Y' := by
    intro U
    induction U with
    | nil =>
      intro U' h hpq _ hU'
      cases U' with
      | nil => exact ⟨.nil, h⟩
      | cons b U' =>
        cases Y with
        | nil => cases h
        | cons y Y =>
          cases h with
          | cons h1 h2 => exact absurd ((hpq y (by simp) b (by simp) h1).2 (hU' b (by simp))) (hY y (by simp))
    | cons a U ih =>
      intro U' h hpq hU hU'
      cases U' with
      | nil =>
        cases Y' with
        | nil => cases h
        | cons y Y' =>
          cases h with
          | cons h1 h2 => exact absurd ((hpq a (by simp) y (by simp) h1).1 (hU a (by simp))) (hY' y (by simp))
      | cons b U' =>
        cases h with
        | cons h1 h2 =>
          obtain ⟨g1, g2⟩ := ih h2 (fun x hx y hy => hpq x (by simp at hx; simp [hx]) y (by simp at hy; simp [hy]))
            (fun x hx => hU x (by simp [hx])) (fun x hx => hU' x (by simp [hx]))
          exact ⟨.cons h1 g1, g2⟩
  induction X generalizing X' with
  | nil =>
    cases X' with
    | nil =>
      obtain ⟨h1, h2⟩ := tail (by simpa using h) (by simpa using hpq) hU hU'
      exact ⟨.nil, h1, h2⟩
    | cons b X' =>
      obtain ⟨u, U, rfl⟩ := List.exists_cons_of_ne_nil hne
      cases h with
      | cons h1 h2 => exact absurd ((hpq u (by simp) b (by simp) h1).1 (hU u (by simp))) (hX' b (by simp))
  | cons a X ih =>
    cases X' with
    | nil =>
      obtain ⟨u, U', rfl⟩ := List.exists_cons_of_ne_nil hne'
      cases h with
      | cons h1 h2 => exact absurd ((hpq a (by simp) u (by simp) h1).2 (hU' u (by simp))) (hX a (by simp))
    | cons b X' =>
      cases h with
      | cons h1 h2 =>
        obtain ⟨g1, g2, g3⟩ := ih (X' := X') h2
          (fun x hx y hy => hpq x (by simp at hx; simp only [List.cons_append, List.mem_cons, List.append_assoc, List.mem_append]; tauto) y
            (by simp at hy; simp only [List.cons_append, List.mem_cons, List.append_assoc, List.mem_append]; tauto))
          (fun x hx => hX x (by simp [hx])) (fun x hx => hX' x (by simp [hx]))
        exact ⟨.cons h1 g1, g2, g3⟩

namespace Twin

variable (T : Twin P A A')
include T

/-- The rows below a vertex correspond if those above it do. -/
theorem below_rows {n n' : Nat} (hn : VN A A' n n') (h : List.Forall₂ (TR A A') (A.ups n) (A'.ups n')) :
    List.Forall₂ (TR A A') (A.downs n) (A'.downs n') := by
  have hI := T.W.inv
  have hI' := T.W'.inv
  have hlt := fun i hi => (hI.rowD n hn.lt i hi)
  have hlt' := fun i hi => (hI'.rowD n' hn.lt' i hi)
  have up : ∀ {i i'}, i ∈ A.downs n → i' ∈ A'.downs n' → ORel (VN A A') (A.T i).up (A'.T i').up := by
    intro i i' hi hi'
    rw [(hlt i hi).2, (hlt' i' hi').2]
    exact hn
  have mk : ∀ {i i'}, i ∈ A.downs n → i' ∈ A'.downs n' → ORel (SG A A') (A.T i).left (A'.T i').left →
      ORel (SG A A') (A.T i).right (A'.T i').right → TR A A' i i' :=
    fun hi hi' hl hr => ⟨(hlt _ hi).1, (hlt' _ hi').1, up hi hi', hl, hr⟩
  have back : ∀ s' < A'.S, A'.mx s' = n' → ∃ s, SG A A' s s' ∧ A.mx s = n := by
    intro s' hs' hm
    obtain ⟨s, hs⟩ := T.ss' s' hs'
    exact ⟨s, hs, (hs.mx T.W T.W').symm.uniq hI (hm ▸ hn.symm)⟩
  rcases T.W.kind n hn.lt with ⟨u, dl, dc, dr, s0, s1, k⟩ | ⟨ul, ur, dl, dr, s0, s1, k⟩ | ⟨ul, uc, ur, d, s0, s1, k⟩ <;>
    rcases T.W'.kind n' hn.lt' with ⟨u', dl', dc', dr', s0', s1', k'⟩ | ⟨ul', ur', dl', dr', s0', s1', k'⟩ |
      ⟨ul', uc', ur', d', s0', s1', k'⟩ <;>
    rw [k.ups, k'.ups] at h
  · cases h with
    | cons h _ =>
      have m1 : dl ∈ A.downs n ∧ dc ∈ A.downs n ∧ dr ∈ A.downs n := by rw [k.downs]; simp
      have m1' : dl' ∈ A'.downs n' ∧ dc' ∈ A'.downs n' ∧ dr' ∈ A'.downs n' := by rw [k'.downs]; simp
      have only : ∀ s < A.S, A.mx s = n → s = s0 ∨ s = s1 := by
        intro s hs hm
        obtain ⟨a, ha, hl⟩ := T.W.sepD s hs
        rw [hm, k.downs] at ha
        simp only [List.tail_cons, List.mem_cons, List.not_mem_nil, or_false] at ha
        rcases ha with rfl | rfl
        · rw [k.c0] at hl; exact .inl (Option.some.inj hl).symm
        · rw [k.r1] at hl; exact .inr (Option.some.inj hl).symm
      have lt := hI.lr dc (hlt dc m1.2.1).1 s0 s1 k.c0 k.c1
      have lt' := hI'.lr dc' (hlt' dc' m1'.2.1).1 s0' s1' k'.c0 k'.c1
      obtain ⟨a, ga, ma⟩ := back s0' k'.S0 k'.mx0
      obtain ⟨b, gb, mb⟩ := back s1' k'.S1 k'.mx1
      have hne : a ≠ b := by
        rintro rfl
        exact lt'.ne (by rw [← ga.sg, ← gb.sg])
      have hab : a = s0 ∧ b = s1 := by
        rcases only a ga.lt ma with rfl | rfl <;> rcases only b gb.lt mb with rfl | rfl
        · exact absurd rfl hne
        · exact ⟨rfl, rfl⟩
        · exfalso
          rw [← ga.sg, ← gb.sg] at lt'
          obtain ⟨v, hv, i1, i2, hx⟩ := lt
          exact absurd (lt'.le (hI.sE a ga.lt) (hI.sE b gb.lt) hv i2 i1) (not_le.2 hx)
        · exact absurd rfl hne
      obtain ⟨rfl, rfl⟩ := hab
      rw [k.downs, k'.downs]
      refine .cons (mk m1.1 m1'.1 ?_ ?_) (.cons (mk m1.2.1 m1'.2.1 ?_ ?_) (.cons (mk m1.2.2 m1'.2.2 ?_ ?_) .nil))
      · rw [k.lL, k'.lL]; exact h.left
      · rw [k.l0, k'.l0]; exact ga
      · rw [k.c0, k'.c0]; exact ga
      · rw [k.c1, k'.c1]; exact gb
      · rw [k.r1, k'.r1]; exact gb
      · rw [k.rR, k'.rR]; exact h.right
  · cases h with | cons _ h => cases h
  · cases h with | cons _ h => cases h
  · cases h with | cons _ h => cases h
  · cases h with
    | cons h h2 =>
      cases h2 with
      | cons h2 _ =>
        have m1 : dl ∈ A.downs n ∧ dr ∈ A.downs n := by rw [k.downs]; simp
        have m1' : dl' ∈ A'.downs n' ∧ dr' ∈ A'.downs n' := by rw [k'.downs]; simp
        obtain ⟨a, ga, ma⟩ := back s1' k'.S1 k'.mx1
        obtain rfl : a = s1 := by
          obtain ⟨x, hx, hl⟩ := T.W.sepD a ga.lt
          rw [ma, k.downs] at hx
          simp only [List.tail_cons, List.mem_cons, List.not_mem_nil, or_false] at hx
          subst hx
          rw [k.dr1] at hl
          exact (Option.some.inj hl).symm
        rw [k.downs, k'.downs]
        refine .cons (mk m1.1 m1'.1 ?_ ?_) (.cons (mk m1.2 m1'.2 ?_ ?_) .nil)
        · rw [k.lL, k'.lL]; exact h.left
        · rw [k.dl1, k'.dl1]; exact ga
        · rw [k.dr1, k'.dr1]; exact ga
        · rw [k.rR, k'.rR]; exact h2.right
  · cases h with | cons _ h => cases h with | cons _ h => cases h
  · cases h with | cons _ h => cases h
  · cases h with | cons _ h => cases h with | cons _ h => cases h
  · cases h with
    | cons h h2 =>
      cases h2 with
      | cons _ h3 =>
        cases h3 with
        | cons h3 _ =>
          have m1 : d ∈ A.downs n := by rw [k.downs]; simp
          have m1' : d' ∈ A'.downs n' := by rw [k'.downs]; simp
          rw [k.downs, k'.downs]
          refine .cons (mk m1 m1' ?_ ?_) .nil
          · rw [k.lL, k'.lL]; exact h.left
          · rw [k.rR, k'.rR]; exact h3.right

/-- The rows around corresponding vertices correspond. -/
theorem rows {n n' : Nat} (hn : VN A A' n n') :
    List.Forall₂ (TR A A') (A.ups n) (A'.ups n') ∧ List.Forall₂ (TR A A') (A.downs n) (A'.downs n') := by
  have hI := T.W.inv
  have hI' := T.W'.inv
  obtain ⟨t, ht, htu⟩ := T.W.top
  obtain ⟨t', ht', htu'⟩ := T.W'.top
  have key := sweep_rec (P := P) (A := A) (motive := fun zs => ∃ zs' F F', List.Forall₂ (VN A A') zs zs' ∧ Lev A zs F ∧ Lev A' zs' F' ∧
    List.Forall₂ (TR A A') F F' ∧ ∀ n ∈ zs, ∀ n', VN A A' n n' → List.Forall₂ (TR A A') (A.ups n) (A'.ups n'))
    ⟨[], [t], [t'], .nil, lev_init T.W T.sky ht htu, lev_init T.W' T.sky' ht' htu', .cons (by
      obtain ⟨h1, h2⟩ := T.W.up_none ht htu
      obtain ⟨h1', h2'⟩ := T.W'.up_none ht' htu'
      exact ⟨ht, ht', by rw [htu, htu']; trivial, by rw [h1, h1']; trivial, by rw [h2, h2']; trivial⟩) .nil, by simp⟩ ?_ hI
    (P.h (A.c n) - 1)
  · obtain ⟨zs, hz, zs', F, F', -, -, -, -, h⟩ := key
    have := h n ((hz n).2 ⟨hn.lt, by linarith⟩) n' hn
    exact ⟨this, T.below_rows hn this⟩
  · rintro zs n hnN hz ⟨zs', F, F', hzz, hL, hL', hF, hrow⟩
    obtain ⟨n', hn⟩ := T.vs n hnN
    have mem : ∀ m m', VN A A' m m' → (m ∈ zs ↔ m' ∈ zs') := by
      intro m m' hm
      constructor
      · intro h
        obtain ⟨k, hk⟩ := List.mem_iff_getElem?.1 h
        obtain ⟨hkl, rfl⟩ := List.getElem?_eq_some_iff.1 hk
        have := List.forall₂_iff_get.1 hzz
        have h2 := this.2 k hkl (by rw [← this.1]; exact hkl)
        rw [hm.uniq hI' h2]
        exact List.get_mem _ _
      · intro h
        obtain ⟨k, hk⟩ := List.mem_iff_getElem?.1 h
        obtain ⟨hkl, rfl⟩ := List.getElem?_eq_some_iff.1 hk
        have := List.forall₂_iff_get.1 hzz
        have h2 := this.2 k (by rw [this.1]; exact hkl) hkl
        rw [hm.symm.uniq hI h2.symm]
        exact List.get_mem _ _
    have hz' : Above P A' (P.h (A'.c n')) zs' := by
      intro m'
      constructor
      · intro h
        obtain ⟨k, hk⟩ := List.mem_iff_getElem?.1 h
        obtain ⟨hkl, rfl⟩ := List.getElem?_eq_some_iff.1 hk
        have := List.forall₂_iff_get.1 hzz
        have h2 := this.2 k (by rw [this.1]; exact hkl) hkl
        have h3 := (hz _).1 ((mem _ _ h2).2 h)
        refine ⟨h2.lt', ?_⟩
        have := h2.c
        simp only [List.get_eq_getElem] at this h3
        rw [← hn.c, ← this]
        exact h3.2
      · rintro ⟨h1, h2⟩
        obtain ⟨m, hm⟩ := T.vs' m' h1
        refine (mem m m' hm).1 ((hz m).2 ⟨hm.lt, ?_⟩)
        rw [hm.c, hn.c]; exact h2
    obtain ⟨X, Y, hFe, hN⟩ := lev_step T.W hnN hz hL
    obtain ⟨X', Y', hFe', hN'⟩ := lev_step T.W' hn.lt' hz' hL'
    obtain ⟨L, R, hX⟩ := hI.nex n hnN
    obtain ⟨L', R', hX'⟩ := hI'.nex n' hn.lt'
    have part : ∀ {A : Abs K} {F X Y : List Nat} {n : Nat}, Inv P A → n < A.N → Lev A zs F ∨ Lev A zs' F → F = X ++ A.ups n ++ Y →
        ∀ i ∈ X ++ Y, (A.T i).down ≠ some n := by
      intro A F X Y n hI hn hL hF i hi hd
      obtain ⟨hinj, hmem⟩ : (F.map fun i => (A.T i).left).Nodup ∧ (i ∈ F → i < A.M) := by
        rcases hL with hL | hL
        · exact ⟨hL.inj, fun h => ((hL.mem i).1 h).1⟩
        · exact ⟨hL.inj, fun h => ((hL.mem i).1 h).1⟩
      have hFn : F.Nodup := List.Nodup.of_map _ hinj
      have hiM : i < A.M := hmem (by rw [hF]; simp only [List.mem_append] at hi ⊢; tauto)
      have hup := (hI.downM i hiM n hd).2
      rw [hF] at hFn
      have h1 := List.nodup_append.1 hFn
      have h2 := List.nodup_append.1 h1.1
      rcases List.mem_append.1 hi with h | h
      · exact h2.2.2 i h i hup rfl
      · exact h1.2.2 i (by simp [hup]) i h rfl
    have p1 := part hI hnN (.inl hL) hFe
    have p2 := part hI' hn.lt' (.inr hL') hFe'
    subst hFe hFe'
    obtain ⟨g1, g2, g3⟩ := forall₂_split (p := fun i => (A.T i).down = some n) (q := fun i => (A'.T i).down = some n') hF
      (fun a ha b hb hab => ⟨fun h => T.ends hn hz' hL' hab hb h, fun h => T.symm.ends hn.symm hz hL hab.symm ha h⟩)
      (fun a ha => p1 a (by simp [ha])) (fun a ha => p1 a (by simp [ha])) (fun a ha => (hI.rowU n hnN a ha).2)
      (fun a ha => p2 a (by simp [ha])) (fun a ha => p2 a (by simp [ha])) (fun a ha => (hI'.rowU n' hn.lt' a ha).2) hX.neU hX'.neU
    refine ⟨n' :: zs', _, _, .cons hn hzz, hN, hN', forall₂_append (forall₂_append g1 (T.below_rows hn g2)) g3, ?_⟩
    intro m hm m' hmm
    rcases List.mem_cons.1 hm with rfl | hm
    · rw [hmm.uniq hI' hn]; exact g2
    · exact hrow m hm m' hmm

/-- Corresponding trapezoids end at corresponding vertices. -/
theorem down {i i' : Nat} (h : TR A A' i i') : ORel (VN A A') (A.T i).down (A'.T i').down := by
  have go : ∀ {A A' : Abs K}, Twin P A A' → ∀ {i i' d : Nat}, TR A A' i i' → (A.T i).down = some d →
      ∃ d', (A'.T i').down = some d' ∧ VN A A' d d' := by
    intro A A' T i i' d h hd
    obtain ⟨hdN, hm⟩ := T.W.inv.downM i h.lt d hd
    obtain ⟨d', hd'⟩ := T.vs d hdN
    have hr := (T.rows hd').1
    obtain ⟨k, hk⟩ := List.mem_iff_getElem?.1 hm
    obtain ⟨hkl, rfl⟩ := List.getElem?_eq_some_iff.1 hk
    have := List.forall₂_iff_get.1 hr
    have h2 := this.2 k hkl (by rw [← this.1]; exact hkl)
    refine ⟨d', ?_, hd'⟩
    rw [T.uniq h h2]
    exact (T.W'.inv.rowU d' hd'.lt' _ (List.get_mem _ _)).2
  rcases h1 : (A.T i).down with _ | d
  · rcases h2 : (A'.T i').down with _ | d'
    · trivial
    · obtain ⟨d, h3, -⟩ := go T.symm h.symm h2
      rw [h1] at h3; cases h3
  · obtain ⟨d', h2, h3⟩ := go T h h1
    rw [h2]; exact h3

end Twin

end Tri
