import Mathlib.Data.Fintype.Card
import Mathlib.Data.Fintype.EquivFin
import Verif.Proof.Nearest

/-!
# The trapezoid of a point depends on the set of edges only

`Bad F w e`: edge `e` of `F` is on the boundary of the trapezoid that contains the point `w`, or it is the only edge at
the upper or lower vertex of that trapezoid.  There are at most four such edges.
-/

set_option linter.unusedSectionVars false

namespace Tri

variable {I K : Type} [Field K] [LinearOrder K] [IsStrictOrderedRing K]

attribute [local instance] exact

variable {P : Plane K} {A A' : Abs K}

/-- The abstract state when no segment is under construction. -/
structure Done (P : Plane K) (A : Abs K) : Prop where
  inv : Inv P A
  sepD : SepD A
  real : ∀ i < A.S, A.c (A.mn i) = (A.sg i).1

/-- The vertices inserted so far. -/
def Verts (A : Abs K) (v : Coords K) : Prop := ∃ n < A.N, A.c n = v

theorem Done.spans (h : Done P A) {v : Coords K} {i : Nat} : Spans P A v i ↔ i < A.S ∧ P.h (A.sg i).1 < P.h v ∧ P.h v < P.h (A.sg i).2 := by
  refine and_congr_right fun hi => ?_
  rw [h.real i hi]

section
variable {w : Coords K} {t : Nat}

theorem Done.left_spans (h : Done P A) (ht : t < A.M) (hr : Region P A t w) {l : Nat} (hl : (A.T t).left = some l) :
    l < A.S ∧ P.h (A.sg l).1 < P.h w ∧ P.h w < P.h (A.sg l).2 := by
  obtain ⟨b1, b2⟩ := h.inv.bnd t ht (.inl (by rw [hl]; simp))
  obtain ⟨u, hu⟩ := Option.ne_none_iff_exists'.1 b1
  obtain ⟨d, hd⟩ := Option.ne_none_iff_exists'.1 b2
  obtain ⟨s1, s2⟩ := h.inv.left_span ht hl hu hd
  have hlS := h.inv.leftS t ht l hl
  rw [h.real l hlS] at s1
  exact ⟨hlS, lt_of_le_of_lt s1 (hr.down d hd), lt_of_lt_of_le (hr.up u hu) s2⟩

theorem Done.right_spans (h : Done P A) (ht : t < A.M) (hr : Region P A t w) {l : Nat} (hl : (A.T t).right = some l) :
    l < A.S ∧ P.h (A.sg l).1 < P.h w ∧ P.h w < P.h (A.sg l).2 := by
  obtain ⟨b1, b2⟩ := h.inv.bnd t ht (.inr (by rw [hl]; simp))
  obtain ⟨u, hu⟩ := Option.ne_none_iff_exists'.1 b1
  obtain ⟨d, hd⟩ := Option.ne_none_iff_exists'.1 b2
  obtain ⟨s1, s2⟩ := h.inv.right_span ht hl hu hd
  have hlS := h.inv.rightS t ht l hl
  rw [h.real l hlS] at s1
  exact ⟨hlS, lt_of_le_of_lt s1 (hr.down d hd), lt_of_lt_of_le (hr.up u hu) s2⟩

variable (h : Done P A) (hw : P.U w) (hf : ¬ Verts A w) (ht : t < A.M) (hr : Region P A t w)
include h hw hf ht hr

theorem Done.near_left {l : Nat} (hl : (A.T t).left = some l) : NearL P (Edges A) w (A.sg l) := by
  obtain ⟨hlS, h1, h2⟩ := h.left_spans ht hr hl
  refine ⟨⟨l, hlS, rfl⟩, h1, h2, hr.left l hl, ?_⟩
  rintro f ⟨i, hi, rfl⟩ g1 g2 g3
  obtain ⟨l', e, hle⟩ := h.inv.cell_left h.sepD hw (fun n hn e => hf ⟨n, hn, e⟩) ht hr (h.spans.2 ⟨hi, g1, g2⟩) g3
  rw [hl] at e; cases e
  exact hle

theorem Done.near_right {l : Nat} (hl : (A.T t).right = some l) : NearR P (Edges A) w (A.sg l) := by
  obtain ⟨hlS, h1, h2⟩ := h.right_spans ht hr hl
  refine ⟨⟨l, hlS, rfl⟩, h1, h2, hr.right l hl, ?_⟩
  rintro f ⟨i, hi, rfl⟩ g1 g2 g3
  obtain ⟨l', e, hle⟩ := h.inv.cell_right h.sepD hw (fun n hn e => hf ⟨n, hn, e⟩) ht hr (h.spans.2 ⟨hi, g1, g2⟩) g3
  rw [hl] at e; cases e
  exact hle

theorem Done.left_of_near {e : Coords K × Coords K} (hn : NearL P (Edges A) w e) :
    ∃ l, (A.T t).left = some l ∧ A.sg l = e := by
  obtain ⟨i, hi, rfl⟩ := hn.mem
  obtain ⟨l, hl, -⟩ := h.inv.cell_left h.sepD hw (fun n hn e => hf ⟨n, hn, e⟩) ht hr (h.spans.2 ⟨hi, hn.lo, hn.hi⟩) hn.side
  refine ⟨l, hl, NearL.unique ?_ hw (h.near_left hw hf ht hr hl) hn⟩
  rintro e ⟨i, hi, rfl⟩; exact h.inv.sE i hi

theorem Done.right_of_near {e : Coords K × Coords K} (hn : NearR P (Edges A) w e) :
    ∃ l, (A.T t).right = some l ∧ A.sg l = e := by
  obtain ⟨i, hi, rfl⟩ := hn.mem
  obtain ⟨l, hl, -⟩ := h.inv.cell_right h.sepD hw (fun n hn e => hf ⟨n, hn, e⟩) ht hr (h.spans.2 ⟨hi, hn.lo, hn.hi⟩) hn.side
  refine ⟨l, hl, NearR.unique ?_ hw (h.near_right hw hf ht hr hl) hn⟩
  rintro e ⟨i, hi, rfl⟩; exact h.inv.sE i hi

end

section
variable {w : Coords K} {t t' : Nat} (h : Done P A) (h' : Done P A') (hE : ∀ e, Edges A e ↔ Edges A' e)
  (hV : ∀ v, Verts A v ↔ Verts A' v) (hw : P.U w) (hf : ¬ Verts A w) (ht : t < A.M) (hr : Region P A t w)
  (ht' : t' < A'.M) (hr' : Region P A' t' w)
include h h' hE hV hw hf ht hr ht' hr'

theorem Done.same_left {l : Nat} (hl : (A.T t).left = some l) : ∃ l', (A'.T t').left = some l' ∧ A'.sg l' = A.sg l :=
  h'.left_of_near hw (fun hv => hf ((hV _).2 hv)) ht' hr' ((h.near_left hw hf ht hr hl).congr hE)

theorem Done.same_right {l : Nat} (hl : (A.T t).right = some l) : ∃ l', (A'.T t').right = some l' ∧ A'.sg l' = A.sg l :=
  h'.right_of_near hw (fun hv => hf ((hV _).2 hv)) ht' hr' ((h.near_right hw hf ht hr hl).congr hE)

theorem Done.up_le {u : Nat} (hu : (A.T t).up = some u) : ∃ u', (A'.T t').up = some u' ∧ P.h (A'.c u') ≤ P.h (A.c u) := by
  by_contra hc
  obtain ⟨huN, -⟩ := h.inv.upM t ht u hu
  obtain ⟨n', hn', e⟩ := (hV _).1 ⟨u, huN, rfl⟩
  have hf' : ¬ Verts A' w := fun hv => hf ((hV _).2 hv)
  have hlt : P.h w < P.h (A.c u) := hr.up u hu
  refine h'.inv.empty n' hn' t' ht' ?_
  rw [e]
  refine ⟨fun d hd => lt_trans (hr'.down d hd) hlt, fun u' hu' => ?_, fun l' hl' => ?_, fun l' hl' => ?_⟩
  · exact not_le.1 fun hle => hc ⟨u', hu', hle⟩
  · obtain ⟨l, hl, hs⟩ := h'.same_left h (fun e => (hE e).symm) (fun v => (hV v).symm) hw hf' ht' hr' ht hr hl'
    rw [← hs]
    rcases h.inv.left_up ht hl hu with hm | hp
    · exfalso
      obtain ⟨b1, b2⟩ := h'.inv.bnd t' ht' (.inl (by rw [hl']; simp))
      obtain ⟨u', hu'⟩ := Option.ne_none_iff_exists'.1 b1
      obtain ⟨d', hd'⟩ := Option.ne_none_iff_exists'.1 b2
      have := (h'.inv.left_span ht' hl' hu' hd').2
      rw [← hs, ← (h.inv.mxN l (h.inv.leftS t ht l hl)).2, hm] at this
      exact hc ⟨u', hu', this⟩
    · exact hp.2.2
  · obtain ⟨l, hl, hs⟩ := h'.same_right h (fun e => (hE e).symm) (fun v => (hV v).symm) hw hf' ht' hr' ht hr hl'
    rw [← hs]
    rcases h.inv.right_up ht hl hu with hm | hp
    · exfalso
      obtain ⟨b1, b2⟩ := h'.inv.bnd t' ht' (.inr (by rw [hl']; simp))
      obtain ⟨u', hu'⟩ := Option.ne_none_iff_exists'.1 b1
      obtain ⟨d', hd'⟩ := Option.ne_none_iff_exists'.1 b2
      have := (h'.inv.right_span ht' hl' hu' hd').2
      rw [← hs, ← (h.inv.mxN l (h.inv.rightS t ht l hl)).2, hm] at this
      exact hc ⟨u', hu', this⟩
    · exact hp.2.2

theorem Done.down_le {d : Nat} (hd : (A.T t).down = some d) :
    ∃ d', (A'.T t').down = some d' ∧ P.h (A.c d) ≤ P.h (A'.c d') := by
  by_contra hc
  obtain ⟨hdN, -⟩ := h.inv.downM t ht d hd
  obtain ⟨n', hn', e⟩ := (hV _).1 ⟨d, hdN, rfl⟩
  have hf' : ¬ Verts A' w := fun hv => hf ((hV _).2 hv)
  have hlt : P.h (A.c d) < P.h w := hr.down d hd
  refine h'.inv.empty n' hn' t' ht' ?_
  rw [e]
  refine ⟨fun d' hd' => ?_, fun u hu => lt_trans hlt (hr'.up u hu), fun l' hl' => ?_, fun l' hl' => ?_⟩
  · exact not_le.1 fun hle => hc ⟨d', hd', hle⟩
  · obtain ⟨l, hl, hs⟩ := h'.same_left h (fun e => (hE e).symm) (fun v => (hV v).symm) hw hf' ht' hr' ht hr hl'
    rw [← hs]
    rcases h.inv.left_down ht hl hd with hm | hp
    · exfalso
      obtain ⟨b1, b2⟩ := h'.inv.bnd t' ht' (.inl (by rw [hl']; simp))
      obtain ⟨u', hu'⟩ := Option.ne_none_iff_exists'.1 b1
      obtain ⟨d', hd'⟩ := Option.ne_none_iff_exists'.1 b2
      have := (h'.inv.left_span ht' hl' hu' hd').1
      rw [h'.real l' (h'.inv.leftS t' ht' l' hl'), ← hs, ← h.real l (h.inv.leftS t ht l hl), hm] at this
      exact hc ⟨d', hd', this⟩
    · exact hp.2.2
  · obtain ⟨l, hl, hs⟩ := h'.same_right h (fun e => (hE e).symm) (fun v => (hV v).symm) hw hf' ht' hr' ht hr hl'
    rw [← hs]
    rcases h.inv.right_down ht hl hd with hm | hp
    · exfalso
      obtain ⟨b1, b2⟩ := h'.inv.bnd t' ht' (.inr (by rw [hl']; simp))
      obtain ⟨u', hu'⟩ := Option.ne_none_iff_exists'.1 b1
      obtain ⟨d', hd'⟩ := Option.ne_none_iff_exists'.1 b2
      have := (h'.inv.right_span ht' hl' hu' hd').1
      rw [h'.real l' (h'.inv.rightS t' ht' l' hl'), ← hs, ← h.real l (h.inv.rightS t ht l hl), hm] at this
      exact hc ⟨d', hd', this⟩
    · exact hp.2.2

theorem Done.same_up {u : Nat} (hu : (A.T t).up = some u) : ∃ u', (A'.T t').up = some u' ∧ A'.c u' = A.c u := by
  obtain ⟨u', hu', hle⟩ := h.up_le h' hE hV hw hf ht hr ht' hr' hu
  obtain ⟨u2, hu2, hle2⟩ := h'.up_le h (fun e => (hE e).symm) (fun v => (hV v).symm) hw (fun hv => hf ((hV _).2 hv)) ht' hr'
    ht hr hu'
  rw [hu] at hu2; cases hu2
  exact ⟨u', hu', P.h_inj (h'.inv.cU u' (h'.inv.upM t' ht' u' hu').1) (h.inv.cU u (h.inv.upM t ht u hu).1) (le_antisymm hle hle2)⟩

theorem Done.same_down {u : Nat} (hu : (A.T t).down = some u) : ∃ u', (A'.T t').down = some u' ∧ A'.c u' = A.c u := by
  obtain ⟨u', hu', hle⟩ := h.down_le h' hE hV hw hf ht hr ht' hr' hu
  obtain ⟨u2, hu2, hle2⟩ := h'.down_le h (fun e => (hE e).symm) (fun v => (hV v).symm) hw (fun hv => hf ((hV _).2 hv)) ht' hr'
    ht hr hu'
  rw [hu] at hu2; cases hu2
  exact ⟨u', hu', P.h_inj (h'.inv.cU u' (h'.inv.downM t' ht' u' hu').1) (h.inv.cU u (h.inv.downM t ht u hu).1) (le_antisymm hle2 hle)⟩

end

/-- `A` is a state with edges `F`, and its vertices are the ends of these edges. -/
structure StateOf (P : Plane K) (F : Coords K × Coords K → Prop) (A : Abs K) : Prop where
  done : Done P A
  edges : ∀ e, Edges A e ↔ F e
  verts : ∀ v, Verts A v ↔ ∃ e, F e ∧ (v = e.1 ∨ v = e.2)

/-- `e` is the only edge of `F` that ends at `v`. -/
def Only (F : Coords K × Coords K → Prop) (v : Coords K) (e : Coords K × Coords K) : Prop :=
  F e ∧ (v = e.1 ∨ v = e.2) ∧ ∀ f, F f → (v = f.1 ∨ v = f.2) → f = e

/-- The trapezoid that contains `w` is next to `e` in one of four ways. -/
inductive Wall (A : Abs K) (F : Coords K × Coords K → Prop) (t : Nat) (e : Coords K × Coords K) : Fin 4 → Prop
  | left {l : Nat} (h : (A.T t).left = some l) (he : A.sg l = e) : Wall A F t e 0
  | right {l : Nat} (h : (A.T t).right = some l) (he : A.sg l = e) : Wall A F t e 1
  | up {u : Nat} (h : (A.T t).up = some u) (he : Only F (A.c u) e) : Wall A F t e 2
  | down {u : Nat} (h : (A.T t).down = some u) (he : Only F (A.c u) e) : Wall A F t e 3

/-- In a state with edges `F`, the trapezoid that contains `w` is next to `e`. -/
def Bad (P : Plane K) (F : Coords K × Coords K → Prop) (w : Coords K) (e : Coords K × Coords K) : Prop :=
  ∃ A t k, StateOf P F A ∧ ¬ Verts A w ∧ t < A.M ∧ Region P A t w ∧ Wall A F t e k

variable {F : Coords K × Coords K → Prop} {w : Coords K}

/-- The edge on each side does not depend on the state. -/
theorem Wall.unique (hw : P.U w) (h : StateOf P F A) (h' : StateOf P F A') (hf : ¬ Verts A w) {t t' : Nat} (ht : t < A.M)
    (hr : Region P A t w) (ht' : t' < A'.M) (hr' : Region P A' t' w) {e e' : Coords K × Coords K} {k : Fin 4}
    (hs : Wall A F t e k) (hs' : Wall A' F t' e' k) : e = e' := by
  have hE : ∀ e, Edges A e ↔ Edges A' e := fun e => (h.edges e).trans (h'.edges e).symm
  have hV : ∀ e, Verts A e ↔ Verts A' e := fun e => (h.verts e).trans (h'.verts e).symm
  cases hs with
  | left hl he =>
    cases hs' with
    | left hl' he' =>
      obtain ⟨l2, e2, e3⟩ := h.done.same_left h'.done hE hV hw hf ht hr ht' hr' hl
      rw [hl'] at e2; cases e2
      rw [← he, ← he', e3]
  | right hl he =>
    cases hs' with
    | right hl' he' =>
      obtain ⟨l2, e2, e3⟩ := h.done.same_right h'.done hE hV hw hf ht hr ht' hr' hl
      rw [hl'] at e2; cases e2
      rw [← he, ← he', e3]
  | up hl he =>
    cases hs' with
    | up hl' he' =>
      obtain ⟨l2, e2, e3⟩ := h.done.same_up h'.done hE hV hw hf ht hr ht' hr' hl
      rw [hl'] at e2; cases e2
      rw [e3] at he'
      exact he'.2.2 e he.1 he.2.1
  | down hl he =>
    cases hs' with
    | down hl' he' =>
      obtain ⟨l2, e2, e3⟩ := h.done.same_down h'.done hE hV hw hf ht hr ht' hr' hl
      rw [hl'] at e2; cases e2
      rw [e3] at he'
      exact he'.2.2 e he.1 he.2.1

/-- At most four edges are next to the trapezoid that contains `w`. -/
theorem Bad.card_le (hw : P.U w) {s : Finset (Coords K × Coords K)} (hs : ∀ e ∈ s, Bad P F w e) : s.card ≤ 4 := by
  classical
  choose A t k h1 h2 h3 h4 h5 using hs
  let f : {x // x ∈ s} → Fin 4 := fun x => k x.1 x.2
  have hinj : Function.Injective f := by
    rintro ⟨x, hx⟩ ⟨y, hy⟩ hxy
    have h5' := h5 y hy
    have : k x hx = k y hy := hxy
    rw [← this] at h5'
    exact Subtype.ext (Wall.unique hw (h1 x hx) (h1 y hy) (h2 x hx) (h3 x hx) (h4 x hx) (h3 y hy) (h4 y hy) (h5 x hx) h5')
  have := Fintype.card_le_of_injective f hinj
  simpa using this

end Tri
