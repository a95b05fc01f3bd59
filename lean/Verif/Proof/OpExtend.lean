import Verif.Proof.OpOpen

/-!
# Extending the segment under construction past a vertex keeps the invariant
-/

set_option linter.unusedSectionVars false

namespace Tri

variable {K : Type} [Field K] [LinearOrder K] [IsStrictOrderedRing K]

/-- Puts `y` before every `x`. -/
def insertBefore (x y : Nat) (l : List Nat) : List Nat := l.flatMap fun z => if z = x then [y, x] else [z]

theorem insertBefore_not_mem {x y : Nat} {l : List Nat} (h : x ∉ l) : insertBefore x y l = l := by
  induction l with
  | nil => rfl
  | cons a l ih =>
    simp only [List.mem_cons, not_or] at h
    simp only [insertBefore, List.flatMap_cons] at ih ⊢
    rw [ih h.2, if_neg (Ne.symm h.1)]; rfl

theorem insertBefore_split {x y : Nat} {a b : List Nat} (ha : x ∉ a) (hb : x ∉ b) :
    insertBefore x y (a ++ x :: b) = a ++ y :: x :: b := by
  have h1 := insertBefore_not_mem (y := y) ha
  have h2 := insertBefore_not_mem (y := y) hb
  simp only [insertBefore] at h1 h2 ⊢
  rw [List.flatMap_append, List.flatMap_cons, h1, h2, if_pos rfl]; rfl

theorem path_insert_before {T T' : Nat → Trz} {a b : List Nat} {t y s : Nat} {L R : Option Nat}
    (h : Path T L (a ++ t :: b) R)
    (ha : ∀ x ∈ a, (T' x).left = (T x).left ∧ (T' x).right = (T x).right)
    (hb : ∀ x ∈ b, (T' x).left = (T x).left ∧ (T' x).right = (T x).right)
    (h1 : (T' y).left = (T t).left) (h2 : (T' y).right = some s) (h3 : (T' t).left = some s)
    (h4 : (T' t).right = (T t).right) : Path T' L (a ++ y :: t :: b) R := by
  rw [path_append] at h ⊢
  obtain ⟨m, p1, p2, p3⟩ := h
  exact ⟨m, (path_congr ha).2 p1, h1.trans p2, h3.trans h2.symm, by rw [h4]; exact (path_congr hb).2 p3⟩

theorem nodup_insert {a b : List Nat} {t y : Nat} (h : (a ++ t :: b).Nodup) (hy : y ∉ a ++ t :: b) :
    (a ++ t :: y :: b).Nodup ∧ (a ++ y :: t :: b).Nodup := by
  simp only [List.nodup_append, List.nodup_cons, List.mem_append, List.mem_cons, not_or] at h hy ⊢
  refine ⟨⟨h.1, ⟨⟨Ne.symm hy.2.1, h.2.1.1⟩, hy.2.2, h.2.1.2⟩, ?_⟩,
    ⟨h.1, ⟨⟨hy.2.1, hy.2.2⟩, h.2.1.1, h.2.1.2⟩, ?_⟩⟩
  · intro x hx1 z hz
    rcases hz with rfl | rfl | hz
    · exact h.2.2 x hx1 _ (.inl rfl)
    · rintro rfl; exact hy.1 hx1
    · exact h.2.2 x hx1 z (.inr hz)
  · intro x hx1 z hz
    rcases hz with rfl | rfl | hz
    · rintro rfl; exact hy.1 hx1
    · exact h.2.2 x hx1 _ (.inl rfl)
    · exact h.2.2 x hx1 z (.inr hz)

/-- Segment `s`, which reaches down to vertex `n` and passes right of it, continues through trapezoid `ti`
to vertex `n'`; `tr` is the trapezoid right of `s`. -/
def Abs.extR (A : Abs K) (s n n' ti tr : Nat) (ups : List Nat) : Abs K where
  N := A.N
  c := A.c
  S := A.S
  sg := A.sg
  mn := Function.update A.mn s n'
  mx := A.mx
  M := A.M
  T := Function.update (Function.update A.T ti { A.T ti with right := some s }) tr
    { A.T tr with down := some n' }
  ups := Function.update (Function.update A.ups n ups) n' (insertAfter ti tr (A.ups n'))
  downs := A.downs

/-- The same for a segment passing left of `n`; `tl` is the trapezoid left of `s`. -/
def Abs.extL (A : Abs K) (s n n' ti tl : Nat) (ups : List Nat) : Abs K where
  N := A.N
  c := A.c
  S := A.S
  sg := A.sg
  mn := Function.update A.mn s n'
  mx := A.mx
  M := A.M
  T := Function.update (Function.update A.T ti { A.T ti with left := some s }) tl
    { A.T tl with down := some n' }
  ups := Function.update (Function.update A.ups n ups) n' (insertBefore ti tl (A.ups n'))
  downs := A.downs

/-- When the segment under construction can be extended right of `n`. -/
structure ExtROk (P : Plane K) (A : Abs K) (s n n' ti tl tr : Nat) (pre dpre : List Nat) : Prop where
  sS : s < A.S
  mn : A.mn s = n
  ups : A.ups n = pre ++ [tl, tr]
  downs : A.downs n = dpre ++ [ti]
  trL : (A.T tr).left = some s
  tiD : (A.T ti).down = some n'
  low : P.h (A.sg s).1 ≤ P.h (A.c n')
  side : (A.c n).x < P.X (A.sg s) (A.c n)
  ltL : ∀ l, (A.T ti).left = some l → P.Lt (A.sg l) (A.sg s)
  ltR : ∀ r, (A.T ti).right = some r → P.Lt (A.sg s) (A.sg r)

/-- When the segment under construction can be extended left of `n`. -/
structure ExtLOk (P : Plane K) (A : Abs K) (s n n' ti tl tr : Nat) (post dpost : List Nat) : Prop where
  sS : s < A.S
  mn : A.mn s = n
  ups : A.ups n = tl :: tr :: post
  downs : A.downs n = ti :: dpost
  tlR : (A.T tl).right = some s
  tiD : (A.T ti).down = some n'
  low : P.h (A.sg s).1 ≤ P.h (A.c n')
  side : P.X (A.sg s) (A.c n) < (A.c n).x
  ltL : ∀ l, (A.T ti).left = some l → P.Lt (A.sg l) (A.sg s)
  ltR : ∀ r, (A.T ti).right = some r → P.Lt (A.sg s) (A.sg r)

open Abs

section
variable {P : Plane K} {A : Abs K} {s n n' ti tl tr : Nat} {pre dpre : List Nat}

theorem extR_region (hI : Inv P A) (hn : n < A.N) (h : ExtROk P A s n n' ti tl tr pre dpre) {w : Coords K}
    (hw : P.U w) :
    let A' := A.extR s n n' ti tr (pre ++ [tl])
    (Region P A' ti w ↔ Region P A ti w ∧ w.x < P.X (A.sg s) w) ∧
    (Region P A' tr w ↔ Region P A tr w ∨ Region P A ti w ∧ P.X (A.sg s) w < w.x) ∧
    (∀ i, i ≠ ti → i ≠ tr → (Region P A' i w ↔ Region P A i w)) := by
  intro A'
  obtain ⟨hti, htiU⟩ := hI.rowD n hn ti (by rw [h.downs]; simp)
  obtain ⟨htr, htrD⟩ := hI.rowU n hn tr (by rw [h.ups]; simp)
  have hlow := hI.ht ti hti n n' htiU h.tiD
  have hne : ti ≠ tr := by
    rintro rfl
    rw [h.tiD] at htrD; cases htrD; exact lt_irrefl _ hlow
  have hT1 : A'.T ti = { A.T ti with right := some s } := by
    show Function.update _ _ _ _ = _
    rw [Function.update_of_ne hne, Function.update_self]
  have hT2 : A'.T tr = { A.T tr with down := some n' } := Function.update_self _ _ _
  have hsm := hI.mnN s h.sS
  rw [h.mn] at hsm
  obtain ⟨L, R, hx⟩ := hI.nex n hn
  have hR1 : (A.T ti).right = R := by
    have := hx.pathD; rw [h.downs, path_append] at this
    obtain ⟨m, -, -, h2⟩ := this; exact h2
  have hR2 : (A.T tr).right = R := by
    have := hx.pathU; rw [h.ups, path_append] at this
    obtain ⟨m, -, -, -, h2⟩ := this; exact h2
  obtain ⟨u, hu⟩ := Option.ne_none_iff_exists'.1 (hI.bnd tr htr (.inl (by rw [h.trL]; simp))).1
  have hun := hI.ht tr htr u n hu htrD
  refine ⟨⟨fun hr => ?_, fun ⟨hr, hx⟩ => ?_⟩, ⟨fun hr => ?_, fun hr => ?_⟩, fun i hi hit => ?_⟩
  · have h1 : w.x < P.X (A.sg s) w := hr.right s (by rw [hT1])
    have hd : P.h (A.c n') < P.h w := hr.down n' (by rw [hT1]; exact h.tiD)
    have hu : P.h w < P.h (A.c n) := hr.up n (by rw [hT1]; exact htiU)
    have hb := hI.beside hti htiU h.tiD (hI.sE s h.sS) h.low hsm.2.2.le hw hd.le hu.le
    refine ⟨⟨fun d hd' => ?_, fun u hu' => ?_, fun l hl => ?_, fun r hr' => ?_⟩, h1⟩
    · rw [h.tiD] at hd'; cases hd'; exact hd
    · rw [htiU] at hu'; cases hu'; exact hu
    · exact hr.left l (by rw [hT1]; exact hl)
    · exact lt_of_lt_of_le h1 (hb.2 r hr' (h.ltR r hr'))
  · refine ⟨fun d hd => ?_, fun u hu => ?_, fun l hl => ?_, fun r hr' => ?_⟩
    · rw [hT1] at hd; exact hr.down d hd
    · rw [hT1] at hu; exact hr.up u hu
    · rw [hT1] at hl; exact hr.left l hl
    · rw [hT1] at hr'; cases hr'; exact hx
  · have h1 : P.X (A.sg s) w < w.x := hr.left s (by rw [hT2]; exact h.trL)
    have hd : P.h (A.c n') < P.h w := hr.down n' (by rw [hT2])
    have hu' : P.h w < P.h (A.c u) := hr.up u (by rw [hT2]; exact hu)
    rcases lt_trichotomy (P.h w) (P.h (A.c n)) with hlt | heq | hgt
    · right
      refine ⟨?_, h1⟩
      have hb := hI.beside hti htiU h.tiD (hI.sE s h.sS) h.low hsm.2.2.le hw hd.le hlt.le
      refine ⟨fun d hd' => ?_, fun u hu' => ?_, fun l hl => ?_, fun r hr' => ?_⟩
      · rw [h.tiD] at hd'; cases hd'; exact hd
      · rw [htiU] at hu'; cases hu'; exact hlt
      · exact lt_of_le_of_lt (hb.1 l hl (h.ltL l hl)) h1
      · exact hr.right r (by rw [hT2]; show (A.T tr).right = _; rw [hR2, ← hR1, hr'])
    · have := P.h_inj hw (hI.cU n hn) heq
      subst this
      exact absurd (h1.trans h.side) (lt_irrefl _)
    · left
      refine ⟨fun d hd' => ?_, fun u' hu'' => ?_, fun l hl => ?_, fun r hr' => ?_⟩
      · rw [htrD] at hd'; cases hd'; exact hgt
      · rw [hu] at hu''; cases hu''; exact hu'
      · exact hr.left l (by rw [hT2]; exact hl)
      · exact hr.right r (by rw [hT2]; exact hr')
  · rcases hr with hr | ⟨hr, hx⟩
    · refine ⟨fun d hd => ?_, fun u hu => ?_, fun l hl => ?_, fun r hr' => ?_⟩
      · rw [hT2] at hd; cases hd; exact hlow.trans (hr.down n htrD)
      · rw [hT2] at hu; exact hr.up u hu
      · rw [hT2] at hl; exact hr.left l hl
      · rw [hT2] at hr'; exact hr.right r hr'
    · refine ⟨fun d hd => ?_, fun u' hu' => ?_, fun l hl => ?_, fun r hr' => ?_⟩
      · rw [hT2] at hd; cases hd; exact hr.down n' h.tiD
      · rw [hT2] at hu'
        have hu'' : (A.T tr).up = some u' := hu'
        rw [hu] at hu''; cases hu''
        exact (hr.up n htiU).trans hun
      · rw [hT2] at hl
        have hl' : (A.T tr).left = some l := hl
        rw [h.trL] at hl'; cases hl'; exact hx
      · rw [hT2] at hr'
        have hl' : (A.T tr).right = some r := hr'
        exact hr.right r (by rw [hR1, ← hR2, hl'])
  · have : A'.T i = A.T i := by
      show Function.update _ _ _ _ = _
      rw [Function.update_of_ne hit, Function.update_of_ne hi]
    constructor
    · intro hr
      exact ⟨fun d hd => hr.down d (by rw [this]; exact hd), fun d hd => hr.up d (by rw [this]; exact hd),
        fun d hd => hr.left d (by rw [this]; exact hd), fun d hd => hr.right d (by rw [this]; exact hd)⟩
    · intro hr
      exact ⟨fun d hd => hr.down d (by rw [← this]; exact hd), fun d hd => hr.up d (by rw [← this]; exact hd),
        fun d hd => hr.left d (by rw [← this]; exact hd), fun d hd => hr.right d (by rw [← this]; exact hd)⟩

theorem extR_inv (hI : Inv P A) (hn : n < A.N) (h : ExtROk P A s n n' ti tl tr pre dpre) :
    Inv P (A.extR s n n' ti tr (pre ++ [tl])) := by
  obtain ⟨hti, htiU⟩ := hI.rowD n hn ti (by rw [h.downs]; simp)
  obtain ⟨htr, htrD⟩ := hI.rowU n hn tr (by rw [h.ups]; simp)
  obtain ⟨htl, htlD⟩ := hI.rowU n hn tl (by rw [h.ups]; simp)
  have hlow := hI.ht ti hti n n' htiU h.tiD
  obtain ⟨hn'N, hmem⟩ := hI.downM ti hti n' h.tiD
  have hnn : n ≠ n' := by rintro rfl; exact lt_irrefl _ hlow
  have hne : ti ≠ tr := by
    rintro rfl
    rw [h.tiD] at htrD; cases htrD; exact hnn rfl
  have hnetl : tl ≠ ti := by
    rintro rfl
    rw [h.tiD] at htlD; cases htlD; exact hnn rfl
  obtain ⟨Ln, Rn, hxn⟩ := hI.nex n hn
  have hnd := hxn.nodupU
  have hntlr : tl ≠ tr := by
    rw [h.ups] at hnd
    have := (List.nodup_append.1 hnd).2.1
    simp at this; exact this
  have htrpre : tr ∉ pre := by
    rw [h.ups] at hnd
    intro h'
    exact (List.nodup_append.1 hnd).2.2 tr h' tr (by simp) rfl
  have hR1 : (A.T ti).right = Rn := by
    have := hxn.pathD; rw [h.downs, path_append] at this
    obtain ⟨m, -, -, h2⟩ := this; exact h2
  have hR2 : (A.T tr).right = Rn := by
    have := hxn.pathU; rw [h.ups, path_append] at this
    obtain ⟨m, -, -, -, h2⟩ := this; exact h2
  have htlR : (A.T tl).right = some s := by
    have := hxn.pathU; rw [h.ups, path_append] at this
    obtain ⟨m, -, -, h1, -⟩ := this
    rw [← h1, h.trL]
  have hreg := fun {w : Coords K} (hw : P.U w) => extR_region hI hn h hw
  set A' := A.extR s n n' ti tr (pre ++ [tl]) with hA'
  have hT1 : A'.T ti = { A.T ti with right := some s } := by
    show Function.update _ _ _ _ = _
    rw [Function.update_of_ne hne, Function.update_self]
  have hT2 : A'.T tr = { A.T tr with down := some n' } := Function.update_self _ _ _
  have hT3 : ∀ i, i ≠ ti → i ≠ tr → A'.T i = A.T i := by
    intro i h1 h2
    show Function.update _ _ _ _ = _
    rw [Function.update_of_ne h2, Function.update_of_ne h1]
  have hUL : ∀ i, (A'.T i).up = (A.T i).up ∧ (A'.T i).left = (A.T i).left := by
    intro i
    by_cases h2 : i = tr
    · subst h2; rw [hT2]; exact ⟨rfl, rfl⟩
    · by_cases h1 : i = ti
      · subst h1; rw [hT1]; exact ⟨rfl, rfl⟩
      · rw [hT3 i h1 h2]; exact ⟨rfl, rfl⟩
  have hD : ∀ i, i ≠ tr → (A'.T i).down = (A.T i).down := by
    intro i h2
    by_cases h1 : i = ti
    · subst h1; rw [hT1]
    · rw [hT3 i h1 h2]
  have hRt : ∀ i, i ≠ ti → (A'.T i).right = (A.T i).right := by
    intro i h1
    by_cases h2 : i = tr
    · subst h2; rw [hT2]
    · rw [hT3 i h1 h2]
  have hmn1 : A'.mn s = n' := Function.update_self _ _ _
  have hmn2 : ∀ i, i ≠ s → A'.mn i = A.mn i := fun i hi => Function.update_of_ne hi _ _
  have hsm := hI.mnN s h.sS
  rw [h.mn] at hsm
  obtain ⟨Ln', Rn', hxn'⟩ := hI.nex n' hn'N
  obtain ⟨u1, u2, hu12, hnu1, hnu2⟩ := split_at hmem hxn'.nodupU
  have hupsn' : A'.ups n' = u1 ++ ti :: tr :: u2 := by
    show Function.update _ _ _ _ = _
    rw [Function.update_self, hu12, insertAfter_split hnu1 hnu2]
  have hupsn : A'.ups n = pre ++ [tl] := by
    show Function.update _ _ _ _ = _
    rw [Function.update_of_ne hnn, Function.update_self]
  have hups : ∀ m, m ≠ n → m ≠ n' → A'.ups m = A.ups m := by
    intro m h1 h2
    show Function.update _ _ _ _ = _
    rw [Function.update_of_ne h2, Function.update_of_ne h1]
  have noS' : ∀ i < A.M, (A.T i).down = some n' → (A.T i).left ≠ some s ∧ (A.T i).right ≠ some s := by
    intro i hi hd
    constructor
    · intro hl
      rcases hI.left_down hi hl hd with h' | h'
      · rw [h.mn] at h'; exact hnn h'
      · rw [PassL, h.mn] at h'; exact absurd (h'.1.trans hlow) (lt_irrefl _)
    · intro hl
      rcases hI.right_down hi hl hd with h' | h'
      · rw [h.mn] at h'; exact hnn h'
      · rw [PassR, h.mn] at h'; exact absurd (h'.1.trans hlow) (lt_irrefl _)
  have htrn' : tr ∉ A.ups n' := by
    intro h'
    have := (hI.rowU n' hn'N tr h').2
    rw [htrD] at this; cases this; exact hnn rfl
  refine ⟨hI.cU, hI.cinj, hI.sE, hI.sinj, hI.mxN, ?_, ?_, ?_, ?_, ?_, ?_, ?_, ?_, ?_, ?_, ?_, ?_, ?_, ?_, ?_⟩
  · intro i hi
    by_cases his : i = s
    · subst his; rw [hmn1]; exact ⟨hn'N, h.low, hlow.trans hsm.2.2⟩
    · rw [hmn2 i his]; exact hI.mnN i hi
  · intro i hi l hl
    rw [(hUL i).2] at hl; exact hI.leftS i hi l hl
  · intro i hi l hl
    by_cases h1 : i = ti
    · subst h1; rw [hT1] at hl; cases hl; exact h.sS
    · rw [hRt i h1] at hl; exact hI.rightS i hi l hl
  · intro i hi u hu
    rw [(hUL i).1] at hu; exact hI.upM i hi u hu
  · intro i hi u hu
    by_cases h1 : i = tr
    · subst h1; rw [hT2] at hu; cases hu
      exact ⟨hn'N, by rw [hupsn']; simp⟩
    · rw [hD i h1] at hu
      have := hI.downM i hi u hu
      refine ⟨this.1, ?_⟩
      by_cases hun' : u = n'
      · subst hun'
        have := this.2
        rw [hu12] at this; rw [hupsn']; simp at this ⊢; tauto
      · by_cases hun : u = n
        · subst hun
          have := this.2
          rw [h.ups] at this; rw [hupsn]; simp at this ⊢; tauto
        · rw [hups u hun hun']; exact this.2
  · intro m hm i hi
    have := hI.rowD m hm i hi
    exact ⟨this.1, by rw [(hUL i).1]; exact this.2⟩
  · intro m hm i hi
    by_cases hmn' : m = n'
    · subst hmn'
      by_cases h1 : i = tr
      · subst h1; rw [hT2]; exact ⟨htr, rfl⟩
      · have : i ∈ A.ups m := by
          rw [hupsn'] at hi; rw [hu12]; simp at hi ⊢; tauto
        rw [hD i h1]; exact hI.rowU m hm i this
    · by_cases hmn : m = n
      · subst hmn
        rw [hupsn] at hi
        have h1 : i ≠ tr := by
          rintro rfl
          simp at hi
          rcases hi with hi | hi
          · exact htrpre hi
          · exact hntlr hi.symm
        rw [hD i h1]
        exact hI.rowU m hm i (by rw [h.ups]; simp at hi ⊢; tauto)
      · rw [hups m hmn hmn'] at hi
        have := hI.rowU m hm i hi
        have h1 : i ≠ tr := by
          rintro rfl
          rw [htrD] at this; exact hmn (Option.some.inj this.2).symm
        rw [hD i h1]; exact this
  · intro i hi u d hu hd
    rw [(hUL i).1] at hu
    by_cases h1 : i = tr
    · subst h1; rw [hT2] at hd; cases hd
      exact hlow.trans (hI.ht i hi u n hu htrD)
    · rw [hD i h1] at hd; exact hI.ht i hi u d hu hd
  · intro i hi hs
    by_cases h1 : i = ti
    · subst h1; rw [hT1]; exact ⟨by simp [htiU], by simp [h.tiD]⟩
    · by_cases h2 : i = tr
      · subst h2
        rw [hT2] at hs ⊢
        exact ⟨(hI.bnd i hi hs).1, by simp⟩
      · rw [hT3 i h1 h2] at hs ⊢; exact hI.bnd i hi hs
  · intro i hi l r hl hr
    rw [(hUL i).2] at hl
    by_cases h1 : i = ti
    · subst h1; rw [hT1] at hr
      cases hr
      exact h.ltL l hl
    · rw [hRt i h1] at hr; exact hI.lr i hi l r hl hr
  · intro i hi j hj q e1 e2 e3
    rw [(hUL i).2] at e1; rw [(hUL j).2] at e2
    by_cases h1 : i = tr <;> by_cases h2 : j = tr
    · rw [h1, h2]
    · subst h1
      rw [h.trL] at e1; cases e1
      rw [hT2, hD j h2] at e3
      exact absurd e2 (noS' j hj e3.symm).1
    · subst h2
      rw [h.trL] at e2; cases e2
      rw [hT2, hD i h1] at e3
      exact absurd e1 (noS' i hi e3).1
    · rw [hD i h1, hD j h2] at e3
      exact hI.uniqL i hi j hj q e1 e2 e3
  · have key : ∀ j < A.M, j ≠ ti → j ≠ tr → ∀ q, (A.T j).right = some q → (A.T j).down = some n' →
        (A.T tr).right = some q → False := by
      intro j hj j1 j2 q e1 e2 e3
      exact j1 (hI.uniqR j hj ti hti q e1 (by rw [hR1, ← hR2, e3]) (by rw [e2, h.tiD]))
    have hTI : ∀ j < A.M, j ≠ ti → (A'.T j).right = some s → (A'.T j).down ≠ some n' := by
      intro j hj j1 e1 e2
      rw [hRt j j1] at e1
      by_cases j2 : j = tr
      · subst j2
        exact hI.ne _ htr s h.trL e1
      · rw [hD j j2] at e2
        exact (noS' j hj e2).2 e1
    intro i hi j hj q e1 e2 e3
    by_cases h1 : i = ti <;> by_cases h2 : j = ti
    · rw [h1, h2]
    · subst h1
      rw [hT1] at e1; cases e1
      rw [hT1] at e3
      exact absurd (e3.symm.trans h.tiD) (hTI j hj h2 e2)
    · subst h2
      rw [hT1] at e2; cases e2
      rw [hT1] at e3
      exact absurd (e3.trans h.tiD) (hTI i hi h1 e1)
    · rw [hRt i h1] at e1; rw [hRt j h2] at e2
      by_cases h3 : i = tr <;> by_cases h4 : j = tr
      · rw [h3, h4]
      · subst h3
        rw [hT2, hD j h4] at e3
        exact absurd (key j hj h2 h4 q e2 e3.symm e1) id
      · subst h4
        rw [hT2, hD i h3] at e3
        exact absurd (key i hi h1 h3 q e1 e3 e2) id
      · rw [hD i h3, hD j h4] at e3
        exact hI.uniqR i hi j hj q e1 e2 e3
  · intro m hm
    have hpassL : ∀ l, PassL P A m l → PassL P A' m l := by
      intro l hl
      by_cases hls : l = s
      · subst hls
        have := hl.1; rw [h.mn] at this
        exact ⟨by rw [hmn1]; exact hlow.trans this, hl.2⟩
      · exact ⟨by rw [hmn2 l hls]; exact hl.1, hl.2⟩
    have hpassR : ∀ l, PassR P A m l → PassR P A' m l := by
      intro l hl
      by_cases hls : l = s
      · subst hls
        have := hl.1; rw [h.mn] at this
        exact ⟨by rw [hmn1]; exact hlow.trans this, hl.2⟩
      · exact ⟨by rw [hmn2 l hls]; exact hl.1, hl.2⟩
    have hsame : ∀ x, x ≠ ti → (A'.T x).left = (A.T x).left ∧ (A'.T x).right = (A.T x).right :=
      fun x hx => ⟨(hUL x).2, hRt x hx⟩
    have htiD : m ≠ n → ti ∉ A.downs m := by
      intro hmn h'
      have := (hI.rowD m hm ti h').2
      rw [htiU] at this; exact hmn (Option.some.inj this).symm
    have htiUp : m ≠ n' → ti ∉ A.ups m := by
      intro hmn h'
      have := (hI.rowU m hm ti h').2
      rw [h.tiD] at this; exact hmn (Option.some.inj this).symm
    by_cases hmn : m = n
    · subst hmn
      refine ⟨Ln, some s, ⟨by rw [hupsn]; simp, hxn.neD, ?_, ?_, ?_, ?_, fun l hl => hpassL l (hxn.passL l hl),
        ?_, ?_, hxn.nodupD⟩⟩
      · rw [hupsn, path_append]
        have hp := hxn.pathU
        rw [h.ups, path_append] at hp
        obtain ⟨q, p1, p2, -⟩ := hp
        refine ⟨q, (path_congr fun x hx => hsame x ?_).2 p1, ?_, ?_⟩
        · rintro rfl
          exact htiUp hnn (by rw [h.ups]; simp [hx])
        · rw [(hUL tl).2]; exact p2
        · show (A'.T tl).right = some s
          rw [hRt tl hnetl, htlR]
      · show Path A'.T Ln (A.downs m) (some s)
        have hp := hxn.pathD
        have hnd := hxn.nodupD
        rw [h.downs] at hp hnd ⊢
        rw [path_append] at hp ⊢
        obtain ⟨q, p1, p2, -⟩ := hp
        refine ⟨q, (path_congr fun x hx => hsame x ?_).2 p1, ?_, ?_⟩
        · rintro rfl
          exact (List.nodup_append.1 hnd).2.2 _ hx _ (by simp) rfl
        · rw [(hUL ti).2]; exact p2
        · show (A'.T ti).right = some s
          rw [hT1]
      · intro x hx
        rw [hupsn] at hx
        have hx2 : x ∈ (A.ups m).tail := by
          rw [h.ups]
          cases pre <;> simp at hx ⊢
          tauto
        have hx3 : x ≠ tr := by
          rintro rfl
          have := List.mem_of_mem_tail hx
          simp at this
          rcases this with h' | h'
          · exact htrpre h'
          · exact hntlr h'.symm
        obtain ⟨q, hq, h1, h2⟩ := hxn.sepU x hx2
        have hxr := hI.rowU m hm x (List.mem_of_mem_tail hx2)
        have hqs : q ≠ s := by
          rintro rfl
          exact hx3 (hI.uniqL x hxr.1 tr htr q h1 h.trL (by rw [hxr.2, htrD]))
        exact ⟨q, hq, by rw [(hUL x).2]; exact h1, by rw [hmn2 q hqs]; exact h2⟩
      · intro x hx
        obtain ⟨q, hq, h1, h2⟩ := hxn.sepD x hx
        exact ⟨q, hq, by rw [(hUL x).2]; exact h1, h2⟩
      · intro r hr
        cases hr
        exact ⟨by rw [hmn1]; exact hlow, hsm.2.2, h.side⟩
      · rw [hupsn]
        have := hnd
        rw [h.ups] at this
        have e : pre ++ [tl, tr] = (pre ++ [tl]) ++ [tr] := by simp
        rw [e] at this
        exact (List.nodup_append.1 this).1
    · by_cases hmn' : m = n'
      · subst hmn'
        refine ⟨Ln', Rn', ⟨by rw [hupsn']; simp, hxn'.neD, ?_, ?_, ?_, ?_,
          fun l hl => hpassL l (hxn'.passL l hl), fun l hl => hpassR l (hxn'.passR l hl), ?_, hxn'.nodupD⟩⟩
        · rw [hupsn']
          have hp := hxn'.pathU
          rw [hu12] at hp
          refine path_insert (s := s) hp (fun x hx => hsame x ?_) (fun x hx => hsame x ?_) (hUL ti).2
            (by rw [hT1]) (by rw [(hUL tr).2]; exact h.trL) (by rw [hRt tr hne.symm, hR2, hR1])
          · rintro rfl; exact hnu1 hx
          · rintro rfl; exact hnu2 hx
        · refine (path_congr fun x hx => hsame x ?_).2 hxn'.pathD
          rintro rfl; exact htiD hmn hx
        · intro x hx
          rw [hupsn'] at hx
          have hx2 : x ∈ (A.ups m).tail ∨ x = tr := by
            rw [hu12]
            cases u1 <;> simp at hx ⊢ <;> tauto
          rcases hx2 with hx2 | rfl
          · obtain ⟨q, hq, h1, h2⟩ := hxn'.sepU x hx2
            have hqs : q ≠ s := by
              rintro rfl
              rw [h.mn] at h2; exact hnn h2
            exact ⟨q, hq, by rw [(hUL x).2]; exact h1, by rw [hmn2 q hqs]; exact h2⟩
          · exact ⟨s, h.sS, by rw [(hUL x).2]; exact h.trL, hmn1⟩
        · intro x hx
          obtain ⟨q, hq, h1, h2⟩ := hxn'.sepD x hx
          exact ⟨q, hq, by rw [(hUL x).2]; exact h1, h2⟩
        · rw [hupsn']
          have := hxn'.nodupU
          rw [hu12] at this htrn'
          exact (nodup_insert this htrn').1
      · obtain ⟨L, R, hx⟩ := hI.nex m hm
        have hum := hups m hmn hmn'
        refine ⟨L, R, ⟨by rw [hum]; exact hx.neU, hx.neD, ?_, ?_, ?_, ?_, fun l hl => hpassL l (hx.passL l hl),
          fun l hl => hpassR l (hx.passR l hl), by rw [hum]; exact hx.nodupU, hx.nodupD⟩⟩
        · rw [hum]
          refine (path_congr fun x hx => hsame x ?_).2 hx.pathU
          rintro rfl; exact htiUp hmn' hx
        · refine (path_congr fun x hx => hsame x ?_).2 hx.pathD
          rintro rfl; exact htiD hmn hx
        · intro x hx'
          rw [hum] at hx'
          obtain ⟨q, hq, h1, h2⟩ := hx.sepU x hx'
          have hqs : q ≠ s := by
            rintro rfl
            rw [h.mn] at h2; exact hmn h2.symm
          exact ⟨q, hq, by rw [(hUL x).2]; exact h1, by rw [hmn2 q hqs]; exact h2⟩
        · intro x hx'
          obtain ⟨q, hq, h1, h2⟩ := hx.sepD x hx'
          exact ⟨q, hq, by rw [(hUL x).2]; exact h1, h2⟩
  · intro w hw i hi j hj h1 h2
    obtain ⟨r1, r2, r3⟩ := hreg hw
    have key : ∀ k < A.M, Region P A' k w →
        (k = tr ∧ Region P A ti w ∧ P.X (A.sg s) w < w.x) ∨ (k = ti ∧ Region P A ti w ∧ w.x < P.X (A.sg s) w) ∨
          (k ≠ ti ∧ Region P A k w) := by
      intro k hk hr
      by_cases k1 : k = tr
      · subst k1
        rcases r2.1 hr with h' | h'
        · exact .inr (.inr ⟨hne.symm, h'⟩)
        · exact .inl ⟨rfl, h'⟩
      · by_cases k2 : k = ti
        · subst k2; exact .inr (.inl ⟨rfl, r1.1 hr⟩)
        · exact .inr (.inr ⟨k2, (r3 k k2 k1).1 hr⟩)
    rcases key i hi h1 with ⟨rfl, a1, a2⟩ | ⟨rfl, a1, a2⟩ | ⟨a1, a2⟩ <;>
      rcases key j hj h2 with ⟨rfl, b1, b2⟩ | ⟨rfl, b1, b2⟩ | ⟨b1, b2⟩
    · rfl
    · exact absurd (a2.trans b2) (lt_irrefl _)
    · exact absurd (hI.disj w hw j hj ti hti b2 a1) b1
    · exact absurd (a2.trans b2) (lt_irrefl _)
    · rfl
    · exact absurd (hI.disj w hw j hj i hti b2 a1) b1
    · exact absurd (hI.disj w hw i hi ti hti a2 b1) a1
    · exact absurd (hI.disj w hw i hi j hti a2 b1) a1
    · exact hI.disj w hw i hi j hj a2 b2
  · intro m hm i hi hr
    obtain ⟨r1, r2, r3⟩ := hreg (hI.cU m hm)
    have hr' : Region P A' i (A.c m) := hr
    by_cases k1 : i = tr
    · subst k1
      rcases r2.1 hr' with h' | h'
      · exact hI.empty m hm _ hi h'
      · exact hI.empty m hm _ hti h'.1
    · by_cases k2 : i = ti
      · subst k2; exact hI.empty m hm _ hi (r1.1 hr').1
      · exact hI.empty m hm _ hi ((r3 i k2 k1).1 hr')

end

section
variable {P : Plane K} {A : Abs K} {s n n' ti tl tr : Nat} {post dpost : List Nat}

theorem extL_region (hI : Inv P A) (hn : n < A.N) (h : ExtLOk P A s n n' ti tl tr post dpost) {w : Coords K}
    (hw : P.U w) :
    let A' := A.extL s n n' ti tl (tr :: post)
    (Region P A' ti w ↔ Region P A ti w ∧ P.X (A.sg s) w < w.x) ∧
    (Region P A' tl w ↔ Region P A tl w ∨ Region P A ti w ∧ w.x < P.X (A.sg s) w) ∧
    (∀ i, i ≠ ti → i ≠ tl → (Region P A' i w ↔ Region P A i w)) := by
  intro A'
  obtain ⟨hti, htiU⟩ := hI.rowD n hn ti (by rw [h.downs]; simp)
  obtain ⟨htr, htrD⟩ := hI.rowU n hn tl (by rw [h.ups]; simp)
  have hlow := hI.ht ti hti n n' htiU h.tiD
  have hne : ti ≠ tl := by
    rintro rfl
    rw [h.tiD] at htrD; cases htrD; exact lt_irrefl _ hlow
  have hT1 : A'.T ti = { A.T ti with left := some s } := by
    show Function.update _ _ _ _ = _
    rw [Function.update_of_ne hne, Function.update_self]
  have hT2 : A'.T tl = { A.T tl with down := some n' } := Function.update_self _ _ _
  have hsm := hI.mnN s h.sS
  rw [h.mn] at hsm
  obtain ⟨L, R, hx⟩ := hI.nex n hn
  have hR1 : (A.T ti).left = L := by
    have := hx.pathD; rw [h.downs] at this; exact this.1
  have hR2 : (A.T tl).left = L := by
    have := hx.pathU; rw [h.ups] at this; exact this.1
  obtain ⟨u, hu⟩ := Option.ne_none_iff_exists'.1 (hI.bnd tl htr (.inr (by rw [h.tlR]; simp))).1
  have hun := hI.ht tl htr u n hu htrD
  refine ⟨⟨fun hr => ?_, fun ⟨hr, hx⟩ => ?_⟩, ⟨fun hr => ?_, fun hr => ?_⟩, fun i hi hit => ?_⟩
  · have h1 : P.X (A.sg s) w < w.x := hr.left s (by rw [hT1])
    have hd : P.h (A.c n') < P.h w := hr.down n' (by rw [hT1]; exact h.tiD)
    have hu : P.h w < P.h (A.c n) := hr.up n (by rw [hT1]; exact htiU)
    have hb := hI.beside hti htiU h.tiD (hI.sE s h.sS) h.low hsm.2.2.le hw hd.le hu.le
    refine ⟨⟨fun d hd' => ?_, fun u hu' => ?_, fun l hl => ?_, fun r hr' => ?_⟩, h1⟩
    · rw [h.tiD] at hd'; cases hd'; exact hd
    · rw [htiU] at hu'; cases hu'; exact hu
    · exact lt_of_le_of_lt (hb.1 l hl (h.ltL l hl)) h1
    · exact hr.right r (by rw [hT1]; exact hr')
  · refine ⟨fun d hd => ?_, fun u hu => ?_, fun l hl => ?_, fun r hr' => ?_⟩
    · rw [hT1] at hd; exact hr.down d hd
    · rw [hT1] at hu; exact hr.up u hu
    · rw [hT1] at hl; cases hl; exact hx
    · rw [hT1] at hr'; exact hr.right r hr'
  · have h1 : w.x < P.X (A.sg s) w := hr.right s (by rw [hT2]; exact h.tlR)
    have hd : P.h (A.c n') < P.h w := hr.down n' (by rw [hT2])
    have hu' : P.h w < P.h (A.c u) := hr.up u (by rw [hT2]; exact hu)
    rcases lt_trichotomy (P.h w) (P.h (A.c n)) with hlt | heq | hgt
    · right
      refine ⟨?_, h1⟩
      have hb := hI.beside hti htiU h.tiD (hI.sE s h.sS) h.low hsm.2.2.le hw hd.le hlt.le
      refine ⟨fun d hd' => ?_, fun u hu' => ?_, fun l hl => ?_, fun r hr' => ?_⟩
      · rw [h.tiD] at hd'; cases hd'; exact hd
      · rw [htiU] at hu'; cases hu'; exact hlt
      · exact hr.left l (by rw [hT2]; show (A.T tl).left = _; rw [hR2, ← hR1, hl])
      · exact lt_of_lt_of_le h1 (hb.2 r hr' (h.ltR r hr'))
    · have := P.h_inj hw (hI.cU n hn) heq
      subst this
      exact absurd (h1.trans h.side) (lt_irrefl _)
    · left
      refine ⟨fun d hd' => ?_, fun u' hu'' => ?_, fun l hl => ?_, fun r hr' => ?_⟩
      · rw [htrD] at hd'; cases hd'; exact hgt
      · rw [hu] at hu''; cases hu''; exact hu'
      · exact hr.left l (by rw [hT2]; exact hl)
      · exact hr.right r (by rw [hT2]; exact hr')
  · rcases hr with hr | ⟨hr, hx⟩
    · refine ⟨fun d hd => ?_, fun u hu => ?_, fun l hl => ?_, fun r hr' => ?_⟩
      · rw [hT2] at hd; cases hd; exact hlow.trans (hr.down n htrD)
      · rw [hT2] at hu; exact hr.up u hu
      · rw [hT2] at hl; exact hr.left l hl
      · rw [hT2] at hr'; exact hr.right r hr'
    · refine ⟨fun d hd => ?_, fun u' hu' => ?_, fun l hl => ?_, fun r hr' => ?_⟩
      · rw [hT2] at hd; cases hd; exact hr.down n' h.tiD
      · rw [hT2] at hu'
        have hu'' : (A.T tl).up = some u' := hu'
        rw [hu] at hu''; cases hu''
        exact (hr.up n htiU).trans hun
      · rw [hT2] at hl
        have hl' : (A.T tl).left = some l := hl
        exact hr.left l (by rw [hR1, ← hR2, hl'])
      · rw [hT2] at hr'
        have hl' : (A.T tl).right = some r := hr'
        rw [h.tlR] at hl'; cases hl'; exact hx
  · have : A'.T i = A.T i := by
      show Function.update _ _ _ _ = _
      rw [Function.update_of_ne hit, Function.update_of_ne hi]
    constructor
    · intro hr
      exact ⟨fun d hd => hr.down d (by rw [this]; exact hd), fun d hd => hr.up d (by rw [this]; exact hd),
        fun d hd => hr.left d (by rw [this]; exact hd), fun d hd => hr.right d (by rw [this]; exact hd)⟩
    · intro hr
      exact ⟨fun d hd => hr.down d (by rw [← this]; exact hd), fun d hd => hr.up d (by rw [← this]; exact hd),
        fun d hd => hr.left d (by rw [← this]; exact hd), fun d hd => hr.right d (by rw [← this]; exact hd)⟩

theorem extL_inv (hI : Inv P A) (hn : n < A.N) (h : ExtLOk P A s n n' ti tl tr post dpost) :
    Inv P (A.extL s n n' ti tl (tr :: post)) := by
  obtain ⟨hti, htiU⟩ := hI.rowD n hn ti (by rw [h.downs]; simp)
  obtain ⟨htr, htrD⟩ := hI.rowU n hn tr (by rw [h.ups]; simp)
  obtain ⟨htl, htlD⟩ := hI.rowU n hn tl (by rw [h.ups]; simp)
  have hlow := hI.ht ti hti n n' htiU h.tiD
  obtain ⟨hn'N, hmem⟩ := hI.downM ti hti n' h.tiD
  have hnn : n ≠ n' := by rintro rfl; exact lt_irrefl _ hlow
  have hne : ti ≠ tl := by
    rintro rfl
    rw [h.tiD] at htlD; cases htlD; exact hnn rfl
  have hnetr : tr ≠ ti := by
    rintro rfl
    rw [h.tiD] at htrD; cases htrD; exact hnn rfl
  obtain ⟨Ln, Rn, hxn⟩ := hI.nex n hn
  have hnd := hxn.nodupU
  rw [h.ups] at hnd
  have htlpost : tl ∉ tr :: post := (List.nodup_cons.1 hnd).1
  have hL1 : (A.T ti).left = Ln := by
    have := hxn.pathD; rw [h.downs] at this; exact this.1
  have hL2 : (A.T tl).left = Ln := by
    have := hxn.pathU; rw [h.ups] at this; exact this.1
  have htrL : (A.T tr).left = some s := by
    have := hxn.pathU; rw [h.ups] at this
    rw [this.2.1, h.tlR]
  have hreg := fun {w : Coords K} (hw : P.U w) => extL_region hI hn h hw
  set A' := A.extL s n n' ti tl (tr :: post) with hA'
  have hT1 : A'.T ti = { A.T ti with left := some s } := by
    show Function.update _ _ _ _ = _
    rw [Function.update_of_ne hne, Function.update_self]
  have hT2 : A'.T tl = { A.T tl with down := some n' } := Function.update_self _ _ _
  have hT3 : ∀ i, i ≠ ti → i ≠ tl → A'.T i = A.T i := by
    intro i h1 h2
    show Function.update _ _ _ _ = _
    rw [Function.update_of_ne h2, Function.update_of_ne h1]
  have hUL : ∀ i, (A'.T i).up = (A.T i).up ∧ (A'.T i).right = (A.T i).right := by
    intro i
    by_cases h2 : i = tl
    · subst h2; rw [hT2]; exact ⟨rfl, rfl⟩
    · by_cases h1 : i = ti
      · subst h1; rw [hT1]; exact ⟨rfl, rfl⟩
      · rw [hT3 i h1 h2]; exact ⟨rfl, rfl⟩
  have hD : ∀ i, i ≠ tl → (A'.T i).down = (A.T i).down := by
    intro i h2
    by_cases h1 : i = ti
    · subst h1; rw [hT1]
    · rw [hT3 i h1 h2]
  have hRt : ∀ i, i ≠ ti → (A'.T i).left = (A.T i).left := by
    intro i h1
    by_cases h2 : i = tl
    · subst h2; rw [hT2]
    · rw [hT3 i h1 h2]
  have hmn1 : A'.mn s = n' := Function.update_self _ _ _
  have hmn2 : ∀ i, i ≠ s → A'.mn i = A.mn i := fun i hi => Function.update_of_ne hi _ _
  have hsm := hI.mnN s h.sS
  rw [h.mn] at hsm
  obtain ⟨Ln', Rn', hxn'⟩ := hI.nex n' hn'N
  obtain ⟨u1, u2, hu12, hnu1, hnu2⟩ := split_at hmem hxn'.nodupU
  have hupsn' : A'.ups n' = u1 ++ tl :: ti :: u2 := by
    show Function.update _ _ _ _ = _
    rw [Function.update_self, hu12, insertBefore_split hnu1 hnu2]
  have hupsn : A'.ups n = tr :: post := by
    show Function.update _ _ _ _ = _
    rw [Function.update_of_ne hnn, Function.update_self]
  have hups : ∀ m, m ≠ n → m ≠ n' → A'.ups m = A.ups m := by
    intro m h1 h2
    show Function.update _ _ _ _ = _
    rw [Function.update_of_ne h2, Function.update_of_ne h1]
  have noS' : ∀ i < A.M, (A.T i).down = some n' → (A.T i).left ≠ some s ∧ (A.T i).right ≠ some s := by
    intro i hi hd
    constructor
    · intro hl
      rcases hI.left_down hi hl hd with h' | h'
      · rw [h.mn] at h'; exact hnn h'
      · rw [PassL, h.mn] at h'; exact absurd (h'.1.trans hlow) (lt_irrefl _)
    · intro hl
      rcases hI.right_down hi hl hd with h' | h'
      · rw [h.mn] at h'; exact hnn h'
      · rw [PassR, h.mn] at h'; exact absurd (h'.1.trans hlow) (lt_irrefl _)
  have htln' : tl ∉ A.ups n' := by
    intro h'
    have := (hI.rowU n' hn'N tl h').2
    rw [htlD] at this; cases this; exact hnn rfl
  refine ⟨hI.cU, hI.cinj, hI.sE, hI.sinj, hI.mxN, ?_, ?_, ?_, ?_, ?_, ?_, ?_, ?_, ?_, ?_, ?_, ?_, ?_, ?_, ?_⟩
  · intro i hi
    by_cases his : i = s
    · subst his; rw [hmn1]; exact ⟨hn'N, h.low, hlow.trans hsm.2.2⟩
    · rw [hmn2 i his]; exact hI.mnN i hi
  · intro i hi l hl
    by_cases h1 : i = ti
    · subst h1; rw [hT1] at hl; cases hl; exact h.sS
    · rw [hRt i h1] at hl; exact hI.leftS i hi l hl
  · intro i hi l hl
    rw [(hUL i).2] at hl; exact hI.rightS i hi l hl
  · intro i hi u hu
    rw [(hUL i).1] at hu; exact hI.upM i hi u hu
  · intro i hi u hu
    by_cases h1 : i = tl
    · subst h1; rw [hT2] at hu; cases hu
      exact ⟨hn'N, by rw [hupsn']; simp⟩
    · rw [hD i h1] at hu
      have := hI.downM i hi u hu
      refine ⟨this.1, ?_⟩
      by_cases hun' : u = n'
      · subst hun'
        have := this.2
        rw [hu12] at this; rw [hupsn']; simp at this ⊢; tauto
      · by_cases hun : u = n
        · subst hun
          have := this.2
          rw [h.ups] at this; rw [hupsn]; simp at this ⊢; tauto
        · rw [hups u hun hun']; exact this.2
  · intro m hm i hi
    have := hI.rowD m hm i hi
    exact ⟨this.1, by rw [(hUL i).1]; exact this.2⟩
  · intro m hm i hi
    by_cases hmn' : m = n'
    · subst hmn'
      by_cases h1 : i = tl
      · subst h1; rw [hT2]; exact ⟨htl, rfl⟩
      · have : i ∈ A.ups m := by
          rw [hupsn'] at hi; rw [hu12]; simp at hi ⊢; tauto
        rw [hD i h1]; exact hI.rowU m hm i this
    · by_cases hmn : m = n
      · subst hmn
        rw [hupsn] at hi
        have h1 : i ≠ tl := by
          rintro rfl
          exact htlpost hi
        rw [hD i h1]
        exact hI.rowU m hm i (by rw [h.ups]; simp at hi ⊢; tauto)
      · rw [hups m hmn hmn'] at hi
        have := hI.rowU m hm i hi
        have h1 : i ≠ tl := by
          rintro rfl
          rw [htlD] at this; exact hmn (Option.some.inj this.2).symm
        rw [hD i h1]; exact this
  · intro i hi u d hu hd
    rw [(hUL i).1] at hu
    by_cases h1 : i = tl
    · subst h1; rw [hT2] at hd; cases hd
      exact hlow.trans (hI.ht i hi u n hu htlD)
    · rw [hD i h1] at hd; exact hI.ht i hi u d hu hd
  · intro i hi hs
    by_cases h1 : i = ti
    · subst h1; rw [hT1]; exact ⟨by simp [htiU], by simp [h.tiD]⟩
    · by_cases h2 : i = tl
      · subst h2
        rw [hT2] at hs ⊢
        exact ⟨(hI.bnd i hi hs).1, by simp⟩
      · rw [hT3 i h1 h2] at hs ⊢; exact hI.bnd i hi hs
  · intro i hi l r hl hr
    rw [(hUL i).2] at hr
    by_cases h1 : i = ti
    · subst h1; rw [hT1] at hl
      cases hl
      exact h.ltR r hr
    · rw [hRt i h1] at hl; exact hI.lr i hi l r hl hr
  · have key : ∀ j < A.M, j ≠ ti → j ≠ tl → ∀ q, (A.T j).left = some q → (A.T j).down = some n' →
        (A.T tl).left = some q → False := by
      intro j hj j1 j2 q e1 e2 e3
      exact j1 (hI.uniqL j hj ti hti q e1 (by rw [hL1, ← hL2, e3]) (by rw [e2, h.tiD]))
    have hTI : ∀ j < A.M, j ≠ ti → (A'.T j).left = some s → (A'.T j).down ≠ some n' := by
      intro j hj j1 e1 e2
      rw [hRt j j1] at e1
      by_cases j2 : j = tl
      · subst j2
        exact hI.ne _ htl s e1 h.tlR
      · rw [hD j j2] at e2
        exact (noS' j hj e2).1 e1
    intro i hi j hj q e1 e2 e3
    by_cases h1 : i = ti <;> by_cases h2 : j = ti
    · rw [h1, h2]
    · subst h1
      rw [hT1] at e1; cases e1
      rw [hT1] at e3
      exact absurd (e3.symm.trans h.tiD) (hTI j hj h2 e2)
    · subst h2
      rw [hT1] at e2; cases e2
      rw [hT1] at e3
      exact absurd (e3.trans h.tiD) (hTI i hi h1 e1)
    · rw [hRt i h1] at e1; rw [hRt j h2] at e2
      by_cases h3 : i = tl <;> by_cases h4 : j = tl
      · rw [h3, h4]
      · subst h3
        rw [hT2, hD j h4] at e3
        exact absurd (key j hj h2 h4 q e2 e3.symm e1) id
      · subst h4
        rw [hT2, hD i h3] at e3
        exact absurd (key i hi h1 h3 q e1 e3 e2) id
      · rw [hD i h3, hD j h4] at e3
        exact hI.uniqL i hi j hj q e1 e2 e3
  · intro i hi j hj q e1 e2 e3
    rw [(hUL i).2] at e1; rw [(hUL j).2] at e2
    by_cases h1 : i = tl <;> by_cases h2 : j = tl
    · rw [h1, h2]
    · subst h1
      rw [h.tlR] at e1; cases e1
      rw [hT2, hD j h2] at e3
      exact absurd e2 (noS' j hj e3.symm).2
    · subst h2
      rw [h.tlR] at e2; cases e2
      rw [hT2, hD i h1] at e3
      exact absurd e1 (noS' i hi e3).2
    · rw [hD i h1, hD j h2] at e3
      exact hI.uniqR i hi j hj q e1 e2 e3
  · intro m hm
    have hpassL : ∀ l, PassL P A m l → PassL P A' m l := by
      intro l hl
      by_cases hls : l = s
      · subst hls
        have := hl.1; rw [h.mn] at this
        exact ⟨by rw [hmn1]; exact hlow.trans this, hl.2⟩
      · exact ⟨by rw [hmn2 l hls]; exact hl.1, hl.2⟩
    have hpassR : ∀ l, PassR P A m l → PassR P A' m l := by
      intro l hl
      by_cases hls : l = s
      · subst hls
        have := hl.1; rw [h.mn] at this
        exact ⟨by rw [hmn1]; exact hlow.trans this, hl.2⟩
      · exact ⟨by rw [hmn2 l hls]; exact hl.1, hl.2⟩
    have hsame : ∀ x, x ≠ ti → (A'.T x).left = (A.T x).left ∧ (A'.T x).right = (A.T x).right :=
      fun x hx => ⟨hRt x hx, (hUL x).2⟩
    have htiD : m ≠ n → ti ∉ A.downs m := by
      intro hmn h'
      have := (hI.rowD m hm ti h').2
      rw [htiU] at this; exact hmn (Option.some.inj this).symm
    have htiUp : m ≠ n' → ti ∉ A.ups m := by
      intro hmn h'
      have := (hI.rowU m hm ti h').2
      rw [h.tiD] at this; exact hmn (Option.some.inj this).symm
    by_cases hmn : m = n
    · subst hmn
      refine ⟨some s, Rn, ⟨by rw [hupsn]; simp, hxn.neD, ?_, ?_, ?_, ?_, ?_,
        fun l hl => hpassR l (hxn.passR l hl), ?_, hxn.nodupD⟩⟩
      · rw [hupsn]
        have hp := hxn.pathU
        rw [h.ups] at hp
        obtain ⟨-, p2, p3⟩ := hp
        refine ⟨by rw [hRt tr hnetr]; exact htrL, ?_⟩
        rw [(hUL tr).2]
        refine (path_congr fun x hx => hsame x ?_).2 p3
        rintro rfl
        exact htiUp hnn (by rw [h.ups]; simp [hx])
      · show Path A'.T (some s) (A.downs m) Rn
        have hp := hxn.pathD
        have hnd := hxn.nodupD
        rw [h.downs] at hp hnd ⊢
        obtain ⟨-, p2⟩ := hp
        refine ⟨by rw [hT1], ?_⟩
        rw [(hUL ti).2]
        refine (path_congr fun x hx => hsame x ?_).2 p2
        rintro rfl
        exact (List.nodup_cons.1 hnd).1 hx
      · intro x hx
        rw [hupsn] at hx
        have hx1 : x ∈ post := hx
        have hx2 : x ∈ (A.ups m).tail := by
          rw [h.ups]; simp [hx1]
        have hx3 : x ≠ tr := by
          rintro rfl
          exact (List.nodup_cons.1 (List.nodup_cons.1 hnd).2).1 hx1
        obtain ⟨q, hq, h1, h2⟩ := hxn.sepU x hx2
        have hxr := hI.rowU m hm x (List.mem_of_mem_tail hx2)
        have hqs : q ≠ s := by
          rintro rfl
          exact hx3 (hI.uniqL x hxr.1 tr htr q h1 htrL (by rw [hxr.2, htrD]))
        have hx4 : x ≠ ti := by
          rintro rfl
          rw [h.tiD] at hxr; exact hnn (Option.some.inj hxr.2).symm
        exact ⟨q, hq, by rw [hRt x hx4]; exact h1, by rw [hmn2 q hqs]; exact h2⟩
      · intro x hx
        obtain ⟨q, hq, h1, h2⟩ := hxn.sepD x hx
        have hx4 : x ≠ ti := by
          rintro rfl
          have hnd := hxn.nodupD
          have hx' : x ∈ (A.downs m).tail := hx
          rw [h.downs] at hnd hx'
          exact (List.nodup_cons.1 hnd).1 hx'
        exact ⟨q, hq, by rw [hRt x hx4]; exact h1, h2⟩
      · intro r hr
        cases hr
        exact ⟨by rw [hmn1]; exact hlow, hsm.2.2, h.side⟩
      · rw [hupsn]
        exact (List.nodup_cons.1 hnd).2
    · by_cases hmn' : m = n'
      · subst hmn'
        refine ⟨Ln', Rn', ⟨by rw [hupsn']; simp, hxn'.neD, ?_, ?_, ?_, ?_,
          fun l hl => hpassL l (hxn'.passL l hl), fun l hl => hpassR l (hxn'.passR l hl), ?_, hxn'.nodupD⟩⟩
        · rw [hupsn']
          have hp := hxn'.pathU
          rw [hu12] at hp
          refine path_insert_before (s := s) hp (fun x hx => hsame x ?_) (fun x hx => hsame x ?_)
            (by rw [hRt tl hne.symm, hL2, hL1]) (by rw [(hUL tl).2]; exact h.tlR) (by rw [hT1]) (hUL ti).2
          · rintro rfl; exact hnu1 hx
          · rintro rfl; exact hnu2 hx
        · refine (path_congr fun x hx => hsame x ?_).2 hxn'.pathD
          rintro rfl; exact htiD hmn hx
        · intro x hx
          rw [hupsn'] at hx
          have hx2 : (x ∈ (A.ups m).tail ∧ x ≠ ti) ∨ x = ti ∨ (x = tl ∧ ti ∈ (A.ups m).tail) := by
            rw [hu12]
            by_cases hxt : x = ti
            · exact .inr (.inl hxt)
            cases u1 <;> simp at hx ⊢ <;> tauto
          rcases hx2 with ⟨hx2, hx3⟩ | rfl | ⟨rfl, hx2⟩
          · obtain ⟨q, hq, h1, h2⟩ := hxn'.sepU x hx2
            have hqs : q ≠ s := by
              rintro rfl
              rw [h.mn] at h2; exact hnn h2
            exact ⟨q, hq, by rw [hRt x hx3]; exact h1, by rw [hmn2 q hqs]; exact h2⟩
          · exact ⟨s, h.sS, by rw [hT1], hmn1⟩
          · obtain ⟨q, hq, h1, h2⟩ := hxn'.sepU ti hx2
            have hqs : q ≠ s := by
              rintro rfl
              rw [h.mn] at h2; exact hnn h2
            exact ⟨q, hq, by rw [hRt x hne.symm, hL2, ← hL1]; exact h1, by rw [hmn2 q hqs]; exact h2⟩
        · intro x hx
          obtain ⟨q, hq, h1, h2⟩ := hxn'.sepD x hx
          have hx4 : x ≠ ti := by
            rintro rfl; exact htiD hmn (List.mem_of_mem_tail hx)
          exact ⟨q, hq, by rw [hRt x hx4]; exact h1, h2⟩
        · rw [hupsn']
          have := hxn'.nodupU
          rw [hu12] at this htln'
          exact (nodup_insert this htln').2
      · obtain ⟨L, R, hx⟩ := hI.nex m hm
        have hum := hups m hmn hmn'
        refine ⟨L, R, ⟨by rw [hum]; exact hx.neU, hx.neD, ?_, ?_, ?_, ?_, fun l hl => hpassL l (hx.passL l hl),
          fun l hl => hpassR l (hx.passR l hl), by rw [hum]; exact hx.nodupU, hx.nodupD⟩⟩
        · rw [hum]
          refine (path_congr fun x hx => hsame x ?_).2 hx.pathU
          rintro rfl; exact htiUp hmn' hx
        · refine (path_congr fun x hx => hsame x ?_).2 hx.pathD
          rintro rfl; exact htiD hmn hx
        · intro x hx'
          rw [hum] at hx'
          obtain ⟨q, hq, h1, h2⟩ := hx.sepU x hx'
          have hqs : q ≠ s := by
            rintro rfl
            rw [h.mn] at h2; exact hmn h2.symm
          have hx4 : x ≠ ti := by
            rintro rfl; exact htiUp hmn' (List.mem_of_mem_tail hx')
          exact ⟨q, hq, by rw [hRt x hx4]; exact h1, by rw [hmn2 q hqs]; exact h2⟩
        · intro x hx'
          obtain ⟨q, hq, h1, h2⟩ := hx.sepD x hx'
          have hx4 : x ≠ ti := by
            rintro rfl; exact htiD hmn (List.mem_of_mem_tail hx')
          exact ⟨q, hq, by rw [hRt x hx4]; exact h1, h2⟩
  · intro w hw i hi j hj h1 h2
    obtain ⟨r1, r2, r3⟩ := hreg hw
    have key : ∀ k < A.M, Region P A' k w →
        (k = tl ∧ Region P A ti w ∧ w.x < P.X (A.sg s) w) ∨ (k = ti ∧ Region P A ti w ∧ P.X (A.sg s) w < w.x) ∨
          (k ≠ ti ∧ Region P A k w) := by
      intro k hk hr
      by_cases k1 : k = tl
      · subst k1
        rcases r2.1 hr with h' | h'
        · exact .inr (.inr ⟨hne.symm, h'⟩)
        · exact .inl ⟨rfl, h'⟩
      · by_cases k2 : k = ti
        · subst k2; exact .inr (.inl ⟨rfl, r1.1 hr⟩)
        · exact .inr (.inr ⟨k2, (r3 k k2 k1).1 hr⟩)
    rcases key i hi h1 with ⟨rfl, a1, a2⟩ | ⟨rfl, a1, a2⟩ | ⟨a1, a2⟩ <;>
      rcases key j hj h2 with ⟨rfl, b1, b2⟩ | ⟨rfl, b1, b2⟩ | ⟨b1, b2⟩
    · rfl
    · exact absurd (a2.trans b2) (lt_irrefl _)
    · exact absurd (hI.disj w hw j hj ti hti b2 a1) b1
    · exact absurd (a2.trans b2) (lt_irrefl _)
    · rfl
    · exact absurd (hI.disj w hw j hj i hti b2 a1) b1
    · exact absurd (hI.disj w hw i hi ti hti a2 b1) a1
    · exact absurd (hI.disj w hw i hi j hti a2 b1) a1
    · exact hI.disj w hw i hi j hj a2 b2
  · intro m hm i hi hr
    obtain ⟨r1, r2, r3⟩ := hreg (hI.cU m hm)
    have hr' : Region P A' i (A.c m) := hr
    by_cases k1 : i = tl
    · subst k1
      rcases r2.1 hr' with h' | h'
      · exact hI.empty m hm _ hi h'
      · exact hI.empty m hm _ hti h'.1
    · by_cases k2 : i = ti
      · subst k2; exact hI.empty m hm _ hi (r1.1 hr').1
      · exact hI.empty m hm _ hi ((r3 i k2 k1).1 hr')

end

end Tri
