import Verif.Proof.Rows

/-!
# Starting a segment keeps the invariant
-/

set_option linter.unusedSectionVars false

namespace Tri

variable {K : Type} [Field K] [LinearOrder K] [IsStrictOrderedRing K]

/-- Puts `y` behind every `x`. -/
def insertAfter (x y : Nat) (l : List Nat) : List Nat := l.flatMap fun z => if z = x then [x, y] else [z]

theorem insertAfter_not_mem {x y : Nat} {l : List Nat} (h : x ∉ l) : insertAfter x y l = l := by
  induction l with
  | nil => rfl
  | cons a l ih =>
    simp only [List.mem_cons, not_or] at h
    simp only [insertAfter, List.flatMap_cons] at ih ⊢
    rw [ih h.2, if_neg (Ne.symm h.1)]; rfl

theorem insertAfter_split {x y : Nat} {a b : List Nat} (ha : x ∉ a) (hb : x ∉ b) :
    insertAfter x y (a ++ x :: b) = a ++ x :: y :: b := by
  have h1 := insertAfter_not_mem (y := y) ha
  have h2 := insertAfter_not_mem (y := y) hb
  simp only [insertAfter] at h1 h2 ⊢
  rw [List.flatMap_append, List.flatMap_cons, h1, h2, if_pos rfl]; rfl

/-- A row around one of its trapezoids. -/
theorem split_at {l : List Nat} {t : Nat} (h : t ∈ l) (hn : l.Nodup) :
    ∃ a b, l = a ++ t :: b ∧ t ∉ a ∧ t ∉ b := by
  obtain ⟨a, b, rfl⟩ := List.append_of_mem h
  refine ⟨a, b, rfl, ?_, ?_⟩
  · intro ha
    have := (List.nodup_append.1 hn).2.2 t ha t (by simp)
    exact this rfl
  · have := (List.nodup_append.1 hn).2.1
    exact (List.nodup_cons.1 this).1

theorem path_insert {T T' : Nat → Trz} {a b : List Nat} {t y s : Nat} {L R : Option Nat}
    (h : Path T L (a ++ t :: b) R)
    (ha : ∀ x ∈ a, (T' x).left = (T x).left ∧ (T' x).right = (T x).right)
    (hb : ∀ x ∈ b, (T' x).left = (T x).left ∧ (T' x).right = (T x).right)
    (h1 : (T' t).left = (T t).left) (h2 : (T' t).right = some s) (h3 : (T' y).left = some s)
    (h4 : (T' y).right = (T t).right) : Path T' L (a ++ t :: y :: b) R := by
  rw [path_append] at h ⊢
  obtain ⟨m, p1, p2, p3⟩ := h
  exact ⟨m, (path_congr ha).2 p1, h1.trans p2, h3.trans h2.symm, by rw [h4]; exact (path_congr hb).2 p3⟩

/-- Start of segment `e` below vertex `a`, splitting trapezoid `t`, which ends at vertex `n`. -/
def Abs.openS (A : Abs K) (e : Coords K × Coords K) (a n t : Nat) : Abs K where
  N := A.N
  c := A.c
  S := A.S + 1
  sg := Function.update A.sg A.S e
  mn := Function.update A.mn A.S n
  mx := Function.update A.mx A.S a
  M := A.M + 1
  T := Function.update (Function.update A.T t { A.T t with right := some A.S }) A.M
    { A.T t with left := some A.S }
  ups := Function.update A.ups n (insertAfter t A.M (A.ups n))
  downs := Function.update A.downs a (insertAfter t A.M (A.downs a))

namespace Abs
variable {A : Abs K} {e : Coords K × Coords K} {a n t : Nat}

theorem openS_T_new : (A.openS e a n t).T A.M = { A.T t with left := some A.S } := Function.update_self _ _ _

theorem openS_T_t (h : t < A.M) : (A.openS e a n t).T t = { A.T t with right := some A.S } := by
  show Function.update _ _ _ _ = _
  rw [Function.update_of_ne (Nat.ne_of_lt h), Function.update_self]

theorem openS_T_old {i : Nat} (h : i < A.M) (hi : i ≠ t) : (A.openS e a n t).T i = A.T i := by
  show Function.update _ _ _ _ = _
  rw [Function.update_of_ne (Nat.ne_of_lt h), Function.update_of_ne hi]

theorem openS_cases {i : Nat} (hi : i < (A.openS e a n t).M) :
    i = A.M ∨ (i < A.M ∧ i = t) ∨ (i < A.M ∧ i ≠ t) := by
  have : i < A.M + 1 := hi
  rcases Nat.lt_succ_iff_lt_or_eq.1 this with h | h
  · by_cases h' : i = t
    · exact .inr (.inl ⟨h, h'⟩)
    · exact .inr (.inr ⟨h, h'⟩)
  · exact .inl h

theorem openS_sg_old {i : Nat} (h : i < A.S) : (A.openS e a n t).sg i = A.sg i :=
  Function.update_of_ne (Nat.ne_of_lt h) _ _

theorem openS_sg_new : (A.openS e a n t).sg A.S = e := Function.update_self _ _ _

theorem openS_mn_old {i : Nat} (h : i < A.S) : (A.openS e a n t).mn i = A.mn i :=
  Function.update_of_ne (Nat.ne_of_lt h) _ _

theorem openS_mn_new : (A.openS e a n t).mn A.S = n := Function.update_self _ _ _

theorem openS_mx_old {i : Nat} (h : i < A.S) : (A.openS e a n t).mx i = A.mx i :=
  Function.update_of_ne (Nat.ne_of_lt h) _ _

theorem openS_mx_new : (A.openS e a n t).mx A.S = a := Function.update_self _ _ _

end Abs

open Abs

/-- The conditions under which trapezoid `t` can be split by segment `e`. -/
structure OpenOk (P : Plane K) (A : Abs K) (e : Coords K × Coords K) (a n t : Nat) : Prop where
  E : P.E e
  new : ∀ i < A.S, A.sg i ≠ e
  ca : A.c a = e.2
  tM : t < A.M
  up : (A.T t).up = some a
  down : (A.T t).down = some n
  low : P.h e.1 ≤ P.h (A.c n)
  ltL : ∀ l, (A.T t).left = some l → P.Lt (A.sg l) e
  ltR : ∀ r, (A.T t).right = some r → P.Lt e (A.sg r)

section
variable {P : Plane K} {A : Abs K} {e : Coords K × Coords K} {a n t : Nat}

/-- Between the ends of a trapezoid that `e` passes through, its sides are beside `e`. -/
theorem Inv.beside (hI : Inv P A) {i u d : Nat} (hi : i < A.M) (hu : (A.T i).up = some u)
    (hd : (A.T i).down = some d) (he : P.E e) (h1 : P.h e.1 ≤ P.h (A.c d)) (h2 : P.h (A.c u) ≤ P.h e.2)
    {w : Coords K} (hw : P.U w) (w1 : P.h (A.c d) ≤ P.h w) (w2 : P.h w ≤ P.h (A.c u)) :
    (∀ l, (A.T i).left = some l → P.Lt (A.sg l) e → P.X (A.sg l) w ≤ P.X e w) ∧
    (∀ r, (A.T i).right = some r → P.Lt e (A.sg r) → P.X e w ≤ P.X (A.sg r) w) := by
  constructor
  · intro l hl hlt
    have hS := hI.leftS i hi l hl
    have hsp := hI.left_span hi hl hu hd
    have hm := hI.mnN l hS
    exact hlt.le (hI.sE l hS) he hw ⟨by linarith [hm.2.1], by linarith⟩ ⟨by linarith, by linarith⟩
  · intro l hl hlt
    have hS := hI.rightS i hi l hl
    have hsp := hI.right_span hi hl hu hd
    have hm := hI.mnN l hS
    exact hlt.le he (hI.sE l hS) hw ⟨by linarith, by linarith⟩ ⟨by linarith [hm.2.1], by linarith⟩

theorem openS_region (hI : Inv P A) (h : OpenOk P A e a n t) {w : Coords K} (hw : P.U w) :
    (Region P (A.openS e a n t) t w ↔ Region P A t w ∧ w.x < P.X e w) ∧
    (Region P (A.openS e a n t) A.M w ↔ Region P A t w ∧ P.X e w < w.x) ∧
    (∀ i < A.M, i ≠ t → (Region P (A.openS e a n t) i w ↔ Region P A i w)) := by
  have hca : P.h (A.c a) ≤ P.h e.2 := by rw [h.ca]
  refine ⟨⟨fun hr => ?_, fun ⟨hr, hx⟩ => ?_⟩, ⟨fun hr => ?_, fun ⟨hr, hx⟩ => ?_⟩, fun i hi hit => ⟨fun hr => ?_, fun hr => ?_⟩⟩
  · have h1 : w.x < P.X e w := by
      have := hr.right A.S (by rw [openS_T_t h.tM])
      rwa [openS_sg_new] at this
    have hd : P.h (A.c n) < P.h w := hr.down n (by rw [openS_T_t h.tM]; exact h.down)
    have hu : P.h w < P.h (A.c a) := hr.up a (by rw [openS_T_t h.tM]; exact h.up)
    have hb := hI.beside h.tM h.up h.down h.E h.low hca hw hd.le hu.le
    refine ⟨⟨fun d hd' => ?_, fun u hu' => ?_, fun l hl => ?_, fun r hr' => ?_⟩, h1⟩
    · rw [h.down] at hd'; cases hd'; exact hd
    · rw [h.up] at hu'; cases hu'; exact hu
    · have := hr.left l (by rw [openS_T_t h.tM]; exact hl)
      rwa [openS_sg_old (hI.leftS t h.tM l hl)] at this
    · exact lt_of_lt_of_le h1 (hb.2 r hr' (h.ltR r hr'))
  · refine ⟨fun d hd => ?_, fun u hu => ?_, fun l hl => ?_, fun r hr' => ?_⟩
    · rw [openS_T_t h.tM] at hd; exact hr.down d hd
    · rw [openS_T_t h.tM] at hu; exact hr.up u hu
    · rw [openS_T_t h.tM] at hl
      have hl' : (A.T t).left = some l := hl
      rw [openS_sg_old (hI.leftS t h.tM l hl')]
      exact hr.left l hl'
    · rw [openS_T_t h.tM] at hr'
      cases hr'
      rw [openS_sg_new]; exact hx
  · have h1 : P.X e w < w.x := by
      have := hr.left A.S (by rw [openS_T_new])
      rwa [openS_sg_new] at this
    have hd : P.h (A.c n) < P.h w := hr.down n (by rw [openS_T_new]; exact h.down)
    have hu : P.h w < P.h (A.c a) := hr.up a (by rw [openS_T_new]; exact h.up)
    have hb := hI.beside h.tM h.up h.down h.E h.low hca hw hd.le hu.le
    refine ⟨⟨fun d hd' => ?_, fun u hu' => ?_, fun l hl => ?_, fun r hr' => ?_⟩, h1⟩
    · rw [h.down] at hd'; cases hd'; exact hd
    · rw [h.up] at hu'; cases hu'; exact hu
    · exact lt_of_le_of_lt (hb.1 l hl (h.ltL l hl)) h1
    · have := hr.right r (by rw [openS_T_new]; exact hr')
      rwa [openS_sg_old (hI.rightS t h.tM r hr')] at this
  · refine ⟨fun d hd => ?_, fun u hu => ?_, fun l hl => ?_, fun r hr' => ?_⟩
    · rw [openS_T_new] at hd; exact hr.down d hd
    · rw [openS_T_new] at hu; exact hr.up u hu
    · rw [openS_T_new] at hl
      cases hl
      rw [openS_sg_new]; exact hx
    · rw [openS_T_new] at hr'
      have hl' : (A.T t).right = some r := hr'
      rw [openS_sg_old (hI.rightS t h.tM r hl')]
      exact hr.right r hl'
  · refine ⟨fun d hd => ?_, fun u hu => ?_, fun l hl => ?_, fun r hr' => ?_⟩
    · exact hr.down d (by rw [openS_T_old hi hit]; exact hd)
    · exact hr.up u (by rw [openS_T_old hi hit]; exact hu)
    · have := hr.left l (by rw [openS_T_old hi hit]; exact hl)
      rwa [openS_sg_old (hI.leftS i hi l hl)] at this
    · have := hr.right r (by rw [openS_T_old hi hit]; exact hr')
      rwa [openS_sg_old (hI.rightS i hi r hr')] at this
  · refine ⟨fun d hd => ?_, fun u hu => ?_, fun l hl => ?_, fun r hr' => ?_⟩
    · rw [openS_T_old hi hit] at hd; exact hr.down d hd
    · rw [openS_T_old hi hit] at hu; exact hr.up u hu
    · rw [openS_T_old hi hit] at hl
      rw [openS_sg_old (hI.leftS i hi l hl)]; exact hr.left l hl
    · rw [openS_T_old hi hit] at hr'
      rw [openS_sg_old (hI.rightS i hi r hr')]; exact hr.right r hr'

theorem openS_inv (hI : Inv P A) (h : OpenOk P A e a n t) : Inv P (A.openS e a n t) := by
  have ht := h.tM
  obtain ⟨haN, hta⟩ := hI.upM t ht a h.up
  obtain ⟨hnN, htn⟩ := hI.downM t ht n h.down
  have hlow := hI.ht t ht a n h.up h.down
  have han : a ≠ n := by rintro rfl; exact lt_irrefl _ hlow
  have hS1 : ∀ {n}, n < A.S → n < (A.openS e a n t).S := fun h => Nat.lt_succ_of_lt h
  have hSS : ∀ {i}, i < (A.openS e a n t).S → i < A.S ∨ i = A.S := fun h => Nat.lt_succ_iff_lt_or_eq.1 h
  have hM1 : ∀ {i}, i < A.M → i < (A.openS e a n t).M := fun h => Nat.lt_succ_of_lt h
  -- sides
  have hUD : ∀ i < A.M, ((A.openS e a n t).T i).up = (A.T i).up ∧
      ((A.openS e a n t).T i).down = (A.T i).down ∧ ((A.openS e a n t).T i).left = (A.T i).left := by
    intro i hi
    by_cases h : i = t
    · subst h; rw [openS_T_t ht]; exact ⟨rfl, rfl, rfl⟩
    · rw [openS_T_old hi h]; exact ⟨rfl, rfl, rfl⟩
  have hups : ∀ m, (A.openS e a n t).ups m = if m = n then insertAfter t A.M (A.ups n) else A.ups m := by
    intro m
    simp only [openS, Function.update_apply]
  have hdowns : ∀ m, (A.openS e a n t).downs m =
      if m = a then insertAfter t A.M (A.downs a) else A.downs m := by
    intro m
    simp only [openS, Function.update_apply]
  obtain ⟨La, Ra, hxa⟩ := hI.nex a haN
  obtain ⟨Ln, Rn, hxn⟩ := hI.nex n hnN
  obtain ⟨a1, a2, ha12, hna1, hna2⟩ := split_at hta hxa.nodupD
  obtain ⟨n1, n2, hn12, hnn1, hnn2⟩ := split_at htn hxn.nodupU
  have hdownsa : (A.openS e a n t).downs a = a1 ++ t :: A.M :: a2 := by
    rw [hdowns, if_pos rfl, ha12, insertAfter_split hna1 hna2]
  have hupsn : (A.openS e a n t).ups n = n1 ++ t :: A.M :: n2 := by
    rw [hups, if_pos rfl, hn12, insertAfter_split hnn1 hnn2]
  have hmemU : ∀ m i, i ∈ A.ups m → i ∈ (A.openS e a n t).ups m := by
    intro m i hi
    by_cases hm : m = n
    · subst hm; rw [hupsn]; rw [hn12] at hi; simp at hi ⊢; tauto
    · rw [hups, if_neg hm]; exact hi
  have hmemD : ∀ m i, i ∈ A.downs m → i ∈ (A.openS e a n t).downs m := by
    intro m i hi
    by_cases hm : m = a
    · subst hm; rw [hdownsa]; rw [ha12] at hi; simp at hi ⊢; tauto
    · rw [hdowns, if_neg hm]; exact hi
  have hmemU' : ∀ m i, i ∈ (A.openS e a n t).ups m → i ∈ A.ups m ∨ (m = n ∧ i = A.M) := by
    intro m i hi
    by_cases hm : m = n
    · subst hm; rw [hupsn] at hi; rw [hn12]; simp at hi ⊢; tauto
    · rw [hups, if_neg hm] at hi; exact .inl hi
  have hmemD' : ∀ m i, i ∈ (A.openS e a n t).downs m → i ∈ A.downs m ∨ (m = a ∧ i = A.M) := by
    intro m i hi
    by_cases hm : m = a
    · subst hm; rw [hdownsa] at hi; rw [ha12]; simp at hi ⊢; tauto
    · rw [hdowns, if_neg hm] at hi; exact .inl hi
  refine ⟨hI.cU, hI.cinj, ?_, ?_, ?_, ?_, ?_, ?_, ?_, ?_, ?_, ?_, ?_, ?_, ?_, ?_, ?_, ?_, ?_, ?_⟩
  · intro i hi
    rcases hSS hi with h' | rfl
    · rw [openS_sg_old h']; exact hI.sE i h'
    · rw [openS_sg_new]; exact h.E
  · intro i hi j hj
    rcases hSS hi with h1 | rfl <;> rcases hSS hj with h2 | rfl
    · rw [openS_sg_old h1, openS_sg_old h2]; exact hI.sinj i h1 j h2
    · rw [openS_sg_old h1, openS_sg_new]; exact fun he => absurd he (h.new i h1)
    · rw [openS_sg_old h2, openS_sg_new]; exact fun he => absurd he.symm (h.new j h2)
    · intro; rfl
  · intro i hi
    rcases hSS hi with h1 | rfl
    · rw [openS_sg_old h1, openS_mx_old h1]; exact hI.mxN i h1
    · rw [openS_sg_new, openS_mx_new]; exact ⟨haN, h.ca⟩
  · intro i hi
    rcases hSS hi with h1 | rfl
    · rw [openS_sg_old h1, openS_mn_old h1]; exact hI.mnN i h1
    · rw [openS_sg_new, openS_mn_new]
      exact ⟨hnN, h.low, by rw [← h.ca]; exact hlow⟩
  · intro i hi l hl
    rcases openS_cases hi with rfl | ⟨h1, -⟩ | ⟨h1, -⟩
    · rw [openS_T_new] at hl; cases hl; exact Nat.lt_succ_self _
    all_goals rw [(hUD i h1).2.2] at hl; exact Nat.lt_succ_of_lt (hI.leftS i h1 l hl)
  · intro i hi l hl
    rcases openS_cases hi with rfl | ⟨h1, rfl⟩ | ⟨h1, h2⟩
    · rw [openS_T_new] at hl; exact Nat.lt_succ_of_lt (hI.rightS t ht l hl)
    · rw [openS_T_t ht] at hl; cases hl; exact Nat.lt_succ_self _
    · rw [openS_T_old h1 h2] at hl; exact Nat.lt_succ_of_lt (hI.rightS i h1 l hl)
  · intro i hi u hu
    rcases openS_cases hi with rfl | ⟨h1, -⟩ | ⟨h1, -⟩
    · rw [openS_T_new] at hu
      have hu' : (A.T t).up = some u := hu
      rw [h.up] at hu'; cases hu'
      exact ⟨haN, by rw [hdownsa]; simp⟩
    all_goals
      rw [(hUD i h1).1] at hu
      exact ⟨(hI.upM i h1 u hu).1, hmemD _ _ (hI.upM i h1 u hu).2⟩
  · intro i hi u hu
    rcases openS_cases hi with rfl | ⟨h1, -⟩ | ⟨h1, -⟩
    · rw [openS_T_new] at hu
      have hu' : (A.T t).down = some u := hu
      rw [h.down] at hu'; cases hu'
      exact ⟨hnN, by rw [hupsn]; simp⟩
    all_goals
      rw [(hUD i h1).2.1] at hu
      exact ⟨(hI.downM i h1 u hu).1, hmemU _ _ (hI.downM i h1 u hu).2⟩
  · intro m hm i hi
    rcases hmemD' m i hi with h1 | ⟨rfl, rfl⟩
    · have := hI.rowD m hm i h1
      exact ⟨hM1 this.1, by rw [(hUD i this.1).1]; exact this.2⟩
    · exact ⟨Nat.lt_succ_self _, by rw [openS_T_new]; exact h.up⟩
  · intro m hm i hi
    rcases hmemU' m i hi with h1 | ⟨rfl, rfl⟩
    · have := hI.rowU m hm i h1
      exact ⟨hM1 this.1, by rw [(hUD i this.1).2.1]; exact this.2⟩
    · exact ⟨Nat.lt_succ_self _, by rw [openS_T_new]; exact h.down⟩
  · intro i hi u d hu hd
    rcases openS_cases hi with rfl | ⟨h1, -⟩ | ⟨h1, -⟩
    · rw [openS_T_new] at hu hd; exact hI.ht t ht u d hu hd
    all_goals rw [(hUD i h1).1] at hu; rw [(hUD i h1).2.1] at hd; exact hI.ht i h1 u d hu hd
  · intro i hi hs
    rcases openS_cases hi with rfl | ⟨h1, rfl⟩ | ⟨h1, h2⟩
    · rw [openS_T_new]; exact ⟨by simp [h.up], by simp [h.down]⟩
    · rw [openS_T_t ht]; exact ⟨by simp [h.up], by simp [h.down]⟩
    · rw [openS_T_old h1 h2] at hs ⊢; exact hI.bnd i h1 hs
  · intro i hi l r hl hr
    rcases openS_cases hi with rfl | ⟨h1, rfl⟩ | ⟨h1, h2⟩
    · rw [openS_T_new] at hl hr
      cases hl
      rw [openS_sg_new, openS_sg_old (hI.rightS t ht _ hr)]
      exact h.ltR r hr
    · rw [openS_T_t ht] at hl hr
      cases hr
      rw [openS_sg_new, openS_sg_old (hI.leftS i ht _ hl)]
      exact h.ltL l hl
    · rw [openS_T_old h1 h2] at hl hr
      rw [openS_sg_old (hI.leftS i h1 _ hl), openS_sg_old (hI.rightS i h1 _ hr)]
      exact hI.lr i h1 l r hl hr
  · intro i hi j hj s e1 e2 e3
    have key : ∀ k < A.M, ((A.openS e a n t).T k).left ≠ some A.S := by
      intro k hk he
      rw [(hUD k hk).2.2] at he
      exact absurd (hI.leftS k hk _ he) (Nat.lt_irrefl _)
    rcases Nat.lt_succ_iff_lt_or_eq.1 hi with hi | rfl <;> rcases Nat.lt_succ_iff_lt_or_eq.1 hj with hj | rfl
    · rw [(hUD i hi).2.2] at e1; rw [(hUD j hj).2.2] at e2
      rw [(hUD i hi).2.1, (hUD j hj).2.1] at e3
      exact hI.uniqL i hi j hj s e1 e2 e3
    · rw [openS_T_new] at e2; cases e2; exact absurd e1 (key i hi)
    · rw [openS_T_new] at e1; cases e1; exact absurd e2 (key j hj)
    · rfl
  · intro i hi j hj s e1 e2 e3
    have key : ∀ k < (A.openS e a n t).M, ((A.openS e a n t).T k).right = some A.S → k = t := by
      intro k hk he
      rcases openS_cases hk with rfl | ⟨h1, rfl⟩ | ⟨h1, h2⟩
      · rw [openS_T_new] at he; exact absurd (hI.rightS t ht _ he) (Nat.lt_irrefl _)
      · rfl
      · rw [openS_T_old h1 h2] at he; exact absurd (hI.rightS k h1 _ he) (Nat.lt_irrefl _)
    by_cases hs : s = A.S
    · subst hs; rw [key i hi e1, key j hj e2]
    · have src : ∀ k < (A.openS e a n t).M, ((A.openS e a n t).T k).right = some s →
          ∃ k' < A.M, (A.T k').right = some s ∧ (A.T k').down = ((A.openS e a n t).T k).down ∧
            (k' = t ∧ k = A.M ∨ k' ≠ t ∧ k' = k) := by
        intro k hk he
        rcases openS_cases hk with rfl | ⟨h1, rfl⟩ | ⟨h1, h2⟩
        · rw [openS_T_new] at he ⊢; exact ⟨t, ht, he, rfl, .inl ⟨rfl, rfl⟩⟩
        · rw [openS_T_t ht] at he; cases he; exact absurd rfl hs
        · rw [openS_T_old h1 h2] at he ⊢; exact ⟨k, h1, he, rfl, .inr ⟨h2, rfl⟩⟩
      obtain ⟨i', hi', f1, f2, f3⟩ := src i hi e1
      obtain ⟨j', hj', g1, g2, g3⟩ := src j hj e2
      have := hI.uniqR i' hi' j' hj' s f1 g1 (by rw [f2, g2, e3])
      subst this
      rcases f3 with ⟨f3, rfl⟩ | ⟨f3, rfl⟩ <;> rcases g3 with ⟨g3, rfl⟩ | ⟨g3, rfl⟩
      · rfl
      · exact absurd f3 g3
      · exact absurd g3 f3
      · rfl
  · intro m hm
    obtain ⟨L, R, hx⟩ := hI.nex m hm
    have hsame : ∀ i < A.M, i ≠ t → ((A.openS e a n t).T i).left = (A.T i).left ∧
        ((A.openS e a n t).T i).right = (A.T i).right := by
      intro i hi hit; rw [openS_T_old hi hit]; exact ⟨rfl, rfl⟩
    have hLS : ∀ l, L = some l → l < A.S := by
      intro l hl
      rcases hu : A.ups m with _ | ⟨x, xs⟩
      · exact absurd hu hx.neU
      · have := hx.pathU
        rw [hu] at this
        exact hI.leftS x (hI.rowU m hm x (by rw [hu]; simp)).1 l (by rw [this.1, hl])
    have hRS : ∀ l, R = some l → l < A.S := by
      intro l hl
      obtain ⟨xs, x, hu⟩ := (List.eq_nil_or_concat' (A.ups m)).resolve_left hx.neU
      have := hx.pathU
      rw [hu, path_append] at this
      obtain ⟨q, -, h1, h2⟩ := this
      exact hI.rightS x (hI.rowU m hm x (by rw [hu]; simp)).1 l (h2.trans hl)
    refine ⟨L, R, ⟨?_, ?_, ?_, ?_, ?_, ?_, ?_, ?_, ?_, ?_⟩⟩
    · by_cases hmn : m = n
      · subst hmn; rw [hupsn]; simp
      · rw [hups, if_neg hmn]; exact hx.neU
    · by_cases hmn : m = a
      · subst hmn; rw [hdownsa]; simp
      · rw [hdowns, if_neg hmn]; exact hx.neD
    · by_cases hmn : m = n
      · subst hmn
        rw [hupsn]
        have hp := hx.pathU
        rw [hn12] at hp
        refine path_insert (s := A.S) hp ?_ ?_ (hUD t ht).2.2 (by rw [openS_T_t ht]) (by rw [openS_T_new])
          (by rw [openS_T_new])
        · intro x hx'; exact hsame x (hI.rowU m hm x (by rw [hn12]; simp [hx'])).1 (fun h' => hnn1 (h' ▸ hx'))
        · intro x hx'; exact hsame x (hI.rowU m hm x (by rw [hn12]; simp [hx'])).1 (fun h' => hnn2 (h' ▸ hx'))
      · rw [hups, if_neg hmn]
        refine (path_congr fun x hx' => hsame x (hI.rowU m hm x hx').1 ?_).2 hx.pathU
        rintro rfl
        have := (hI.rowU m hm _ hx').2
        rw [h.down] at this; cases this; exact hmn rfl
    · by_cases hmn : m = a
      · subst hmn
        rw [hdownsa]
        have hp := hx.pathD
        rw [ha12] at hp
        refine path_insert (s := A.S) hp ?_ ?_ (hUD t ht).2.2 (by rw [openS_T_t ht]) (by rw [openS_T_new])
          (by rw [openS_T_new])
        · intro x hx'; exact hsame x (hI.rowD m hm x (by rw [ha12]; simp [hx'])).1 (fun h' => hna1 (h' ▸ hx'))
        · intro x hx'; exact hsame x (hI.rowD m hm x (by rw [ha12]; simp [hx'])).1 (fun h' => hna2 (h' ▸ hx'))
      · rw [hdowns, if_neg hmn]
        refine (path_congr fun x hx' => hsame x (hI.rowD m hm x hx').1 ?_).2 hx.pathD
        rintro rfl
        have := (hI.rowD m hm _ hx').2
        rw [h.up] at this; cases this; exact hmn rfl
    · intro x hx'
      have hx2 : x ∈ (A.ups m).tail ∨ (m = n ∧ x = A.M) := by
        by_cases hmn : m = n
        · subst hmn
          rw [hupsn] at hx'; rw [hn12]
          cases n1 <;> simp at hx' ⊢ <;> tauto
        · rw [hups, if_neg hmn] at hx'; exact .inl hx'
      rcases hx2 with hx2 | ⟨rfl, rfl⟩
      · obtain ⟨s, hs, h1, h2⟩ := hx.sepU x hx2
        refine ⟨s, Nat.lt_succ_of_lt hs, ?_, ?_⟩
        · rw [(hUD x (hI.rowU m hm x (List.mem_of_mem_tail hx2)).1).2.2]; exact h1
        · rw [openS_mn_old hs]; exact h2
      · exact ⟨A.S, Nat.lt_succ_self _, by rw [openS_T_new], openS_mn_new⟩
    · intro x hx'
      have hx2 : x ∈ (A.downs m).tail ∨ (m = a ∧ x = A.M) := by
        by_cases hmn : m = a
        · subst hmn
          rw [hdownsa] at hx'; rw [ha12]
          cases a1 <;> simp at hx' ⊢ <;> tauto
        · rw [hdowns, if_neg hmn] at hx'; exact .inl hx'
      rcases hx2 with hx2 | ⟨rfl, rfl⟩
      · obtain ⟨s, hs, h1, h2⟩ := hx.sepD x hx2
        refine ⟨s, Nat.lt_succ_of_lt hs, ?_, ?_⟩
        · rw [(hUD x (hI.rowD m hm x (List.mem_of_mem_tail hx2)).1).2.2]; exact h1
        · rw [openS_mx_old hs]; exact h2
      · exact ⟨A.S, Nat.lt_succ_self _, by rw [openS_T_new], openS_mx_new⟩
    · intro l hl
      unfold PassL
      rw [openS_mn_old (hLS l hl), openS_sg_old (hLS l hl)]
      exact hx.passL l hl
    · intro l hl
      unfold PassR
      rw [openS_mn_old (hRS l hl), openS_sg_old (hRS l hl)]
      exact hx.passR l hl
    · by_cases hmn : m = n
      · subst hmn
        rw [hupsn]
        have hnd := hx.nodupU
        have hM : A.M ∉ A.ups m := fun h' => absurd (hI.rowU m hm _ h').1 (Nat.lt_irrefl _)
        rw [hn12] at hnd hM
        simp only [List.nodup_append, List.nodup_cons, List.mem_append, List.mem_cons, not_or] at hnd hM ⊢
        refine ⟨hnd.1, ⟨⟨Ne.symm hM.2.1, hnd.2.1.1⟩, hM.2.2, hnd.2.1.2⟩, ?_⟩
        intro x hx1 y hy
        rcases hy with rfl | rfl | hy
        · exact hnd.2.2 x hx1 _ (.inl rfl)
        · rintro rfl; exact hM.1 hx1
        · exact hnd.2.2 x hx1 y (.inr hy)
      · rw [hups, if_neg hmn]; exact hx.nodupU
    · by_cases hmn : m = a
      · subst hmn
        rw [hdownsa]
        have hnd := hx.nodupD
        have hM : A.M ∉ A.downs m := fun h' => absurd (hI.rowD m hm _ h').1 (Nat.lt_irrefl _)
        rw [ha12] at hnd hM
        simp only [List.nodup_append, List.nodup_cons, List.mem_append, List.mem_cons, not_or] at hnd hM ⊢
        refine ⟨hnd.1, ⟨⟨Ne.symm hM.2.1, hnd.2.1.1⟩, hM.2.2, hnd.2.1.2⟩, ?_⟩
        intro x hx1 y hy
        rcases hy with rfl | rfl | hy
        · exact hnd.2.2 x hx1 _ (.inl rfl)
        · rintro rfl; exact hM.1 hx1
        · exact hnd.2.2 x hx1 y (.inr hy)
      · rw [hdowns, if_neg hmn]; exact hx.nodupD
  · intro w hw i hi j hj h1 h2
    obtain ⟨r1, r2, r3⟩ := openS_region hI h hw
    have key : ∀ k < (A.openS e a n t).M, Region P (A.openS e a n t) k w →
        (k = A.M ∧ Region P A t w ∧ P.X e w < w.x) ∨ (k = t ∧ Region P A t w ∧ w.x < P.X e w) ∨
          (k < A.M ∧ k ≠ t ∧ Region P A k w) := by
      intro k hk hr
      rcases openS_cases hk with rfl | ⟨h', rfl⟩ | ⟨h', hne⟩
      · exact .inl ⟨rfl, r2.1 hr⟩
      · exact .inr (.inl ⟨rfl, r1.1 hr⟩)
      · exact .inr (.inr ⟨h', hne, (r3 k h' hne).1 hr⟩)
    rcases key i hi h1 with ⟨rfl, a1, a2⟩ | ⟨rfl, a1, a2⟩ | ⟨a0, a1, a2⟩ <;>
      rcases key j hj h2 with ⟨rfl, b1, b2⟩ | ⟨rfl, b1, b2⟩ | ⟨b0, b1, b2⟩
    · rfl
    · exact absurd (a2.trans b2) (lt_irrefl _)
    · exact absurd (hI.disj w hw j b0 t ht b2 a1) b1
    · exact absurd (a2.trans b2) (lt_irrefl _)
    · rfl
    · exact absurd (hI.disj w hw j b0 i ht b2 a1) b1
    · exact absurd (hI.disj w hw i a0 t ht a2 b1) a1
    · exact absurd (hI.disj w hw i a0 j ht a2 b1) a1
    · exact hI.disj w hw i a0 j b0 a2 b2
  · intro m hm i hi hr
    obtain ⟨r1, r2, r3⟩ := openS_region hI h (hI.cU m hm)
    have hr' : Region P (A.openS e a n t) i (A.c m) := hr
    rcases openS_cases hi with rfl | ⟨h', rfl⟩ | ⟨h', hne⟩
    · exact hI.empty m hm t ht (r2.1 hr').1
    · exact hI.empty m hm i ht (r1.1 hr').1
    · exact hI.empty m hm i h' ((r3 i h' hne).1 hr')

end

end Tri
