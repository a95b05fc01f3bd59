import Mathlib.Data.Finset.Max
import Mathlib.Data.Finset.Range
import Verif.Proof.Track

/-!
# The sides of a trapezoid are the nearest segments

The left side of the trapezoid that contains a point is the segment next to the point on the left, and the same holds
for the horizontal lines through the vertices.
-/

set_option linter.unusedSectionVars false

namespace Tri

variable {I K : Type} [Field K] [LinearOrder K] [IsStrictOrderedRing K]

attribute [local instance] exact

variable {P : Plane K} {A : Abs K}

/-- The upper end of every segment separates two trapezoids. -/
def SepD (A : Abs K) : Prop := ∀ i < A.S, ∃ a ∈ (A.downs (A.mx i)).tail, (A.T a).left = some i

theorem Link.sepD {st : St I K} {iu : Nat → List Nat} {op ex : Nat → Prop} (hL : Link st A iu op ex) (hI : Inv P A) :
    SepD A := by
  intro i hi
  have hn := (hI.mxN i hi).1
  obtain ⟨nx, hx⟩ := hL.ns_get hn
  have hN := hL.nex _ nx hx
  obtain ⟨d, hd, rfl, hdir⟩ := hN.hasD i hi rfl
  refine ⟨d.tiRight, ?_, (hN.divs d hd).2⟩
  rw [← hN.down, Nexus.iter_eq]
  exact List.mem_map.2 ⟨d, Nexus.mem_divs.2 ⟨hd, hdir⟩, rfl⟩

theorem path_pred {T : Nat → Trz} {l : List Nat} {L R : Option Nat} (h : Path T L l R) {a : Nat} (ha : a ∈ l.tail) :
    ∃ b ∈ l, (T b).right = (T a).left := by
  induction l generalizing L with
  | nil => simp at ha
  | cons x l ih =>
    cases l with
    | nil => simp at ha
    | cons y l =>
      rcases List.mem_cons.1 ha with rfl | ha
      · exact ⟨x, by simp, h.2.1.symm⟩
      · obtain ⟨b, hb, e⟩ := ih h.2 ha
        exact ⟨b, List.mem_cons_of_mem _ hb, e⟩

/-- Vertices below a height. -/
def below_count (P : Plane K) (A : Abs K) (H : K) : Nat := ((List.range A.N).filter fun k => P.h (A.c k) < H).length

theorem below_count_lt {d : Nat} {H : K} (hd : d < A.N) (h : P.h (A.c d) < H) :
    below_count P A (P.h (A.c d)) < below_count P A H := by
  unfold below_count
  have hsub : (List.range A.N).filter (fun k => decide (P.h (A.c k) < P.h (A.c d))) =
      ((List.range A.N).filter (fun k => decide (P.h (A.c k) < H))).filter
        (fun k => decide (P.h (A.c k) < P.h (A.c d))) := by
    rw [List.filter_filter]
    refine List.filter_congr fun k _ => ?_
    by_cases h' : P.h (A.c k) < P.h (A.c d)
    · simp [h', lt_trans h' h]
    · simp [h']
  rw [hsub]
  refine List.length_filter_lt_length_iff_exists.2 ⟨d, ?_, ?_⟩
  · simp [hd, h]
  · simp

/-- At every height of a segment there is a trapezoid right of it. -/
theorem Inv.coverL (hI : Inv P A) (hS : SepD A) {j : Nat} (hj : j < A.S) {H : K} (h1 : P.h (A.c (A.mn j)) < H)
    (h2 : H ≤ P.h (A.sg j).2) :
    ∃ a < A.M, (A.T a).left = some j ∧ ∃ d u, (A.T a).down = some d ∧ (A.T a).up = some u ∧ P.h (A.c d) < H ∧
      H ≤ P.h (A.c u) := by
  have key : ∀ m a u, a < A.M → (A.T a).left = some j → (A.T a).up = some u → H ≤ P.h (A.c u) →
      below_count P A (P.h (A.c u)) ≤ m → ∃ a < A.M, (A.T a).left = some j ∧ ∃ d u, (A.T a).down = some d ∧
        (A.T a).up = some u ∧ P.h (A.c d) < H ∧ H ≤ P.h (A.c u) := by
    intro m
    induction m with
    | zero =>
      intro a u ha hl hu hH hm
      obtain ⟨d, hd⟩ := Option.ne_none_iff_exists'.1 (hI.bnd a ha (.inl (by rw [hl]; simp))).2
      have hdN := (hI.downM a ha d hd).1
      have := below_count_lt (P := P) hdN (hI.ht a ha u d hu hd)
      omega
    | succ m ih =>
      intro a u ha hl hu hH hm
      obtain ⟨d, hd⟩ := Option.ne_none_iff_exists'.1 (hI.bnd a ha (.inl (by rw [hl]; simp))).2
      obtain ⟨hdN, hda⟩ := hI.downM a ha d hd
      have hlt := below_count_lt (P := P) hdN (hI.ht a ha u d hu hd)
      by_cases hc : P.h (A.c d) < H
      · exact ⟨a, ha, hl, d, u, hd, hu, hc, hH⟩
      · have hc := not_lt.1 hc
        obtain ⟨L, R, hN⟩ := hI.nex d hdN
        rcases path_left hN.pathU hda with ⟨-, e⟩ | e
        · obtain ⟨b, bs, hb⟩ := List.exists_cons_of_ne_nil hN.neD
          have hp := hN.pathD
          rw [hb] at hp
          obtain ⟨hbM, hbu⟩ := hI.rowD d hdN b (by rw [hb]; simp)
          exact ih b d hbM (by rw [hp.1, ← e, hl]) hbu hc (by omega)
        · obtain ⟨s, hs, e1, e2⟩ := hN.sepU a e
          rw [hl] at e1; cases e1
          rw [e2] at h1
          exact absurd h1 (not_lt.2 hc)
  obtain ⟨a, ha, hl⟩ := hS j hj
  obtain ⟨hmN, hmc⟩ := hI.mxN j hj
  obtain ⟨haM, hau⟩ := hI.rowD _ hmN a (List.mem_of_mem_tail ha)
  exact key _ a _ haM hl hau (by rw [hmc]; exact h2) (Nat.le_refl _)

/-- At every height of a segment there is a trapezoid left of it. -/
theorem Inv.coverR (hI : Inv P A) (hS : SepD A) {j : Nat} (hj : j < A.S) {H : K} (h1 : P.h (A.c (A.mn j)) < H)
    (h2 : H ≤ P.h (A.sg j).2) :
    ∃ a < A.M, (A.T a).right = some j ∧ ∃ d u, (A.T a).down = some d ∧ (A.T a).up = some u ∧ P.h (A.c d) < H ∧
      H ≤ P.h (A.c u) := by
  have key : ∀ m a u, a < A.M → (A.T a).right = some j → (A.T a).up = some u → H ≤ P.h (A.c u) →
      below_count P A (P.h (A.c u)) ≤ m → ∃ a < A.M, (A.T a).right = some j ∧ ∃ d u, (A.T a).down = some d ∧
        (A.T a).up = some u ∧ P.h (A.c d) < H ∧ H ≤ P.h (A.c u) := by
    intro m
    induction m with
    | zero =>
      intro a u ha hl hu hH hm
      obtain ⟨d, hd⟩ := Option.ne_none_iff_exists'.1 (hI.bnd a ha (.inr (by rw [hl]; simp))).2
      have hdN := (hI.downM a ha d hd).1
      have := below_count_lt (P := P) hdN (hI.ht a ha u d hu hd)
      omega
    | succ m ih =>
      intro a u ha hl hu hH hm
      obtain ⟨d, hd⟩ := Option.ne_none_iff_exists'.1 (hI.bnd a ha (.inr (by rw [hl]; simp))).2
      obtain ⟨hdN, hda⟩ := hI.downM a ha d hd
      have hlt := below_count_lt (P := P) hdN (hI.ht a ha u d hu hd)
      by_cases hc : P.h (A.c d) < H
      · exact ⟨a, ha, hl, d, u, hd, hu, hc, hH⟩
      · have hc := not_lt.1 hc
        obtain ⟨L, R, hN⟩ := hI.nex d hdN
        rcases path_right hN.pathU hda with ⟨-, e⟩ | ⟨b, hb, e⟩
        · rcases List.eq_nil_or_concat' (A.downs d) with hb | ⟨bs, b, hb⟩
          · exact absurd hb hN.neD
          have hp := hN.pathD
          rw [hb, path_append] at hp
          obtain ⟨m', -, -, hp⟩ := hp
          obtain ⟨hbM, hbu⟩ := hI.rowD d hdN b (by rw [hb]; simp)
          exact ih b d hbM (by rw [show (A.T b).right = R from hp, ← e, hl]) hbu hc (by omega)
        · obtain ⟨s, hs, e1, e2⟩ := hN.sepU b hb
          rw [e, hl] at e1; cases e1
          rw [e2] at h1
          exact absurd h1 (not_lt.2 hc)
  obtain ⟨a, ha, hl⟩ := hS j hj
  obtain ⟨hmN, hmc⟩ := hI.mxN j hj
  obtain ⟨L, R, hN⟩ := hI.nex _ hmN
  obtain ⟨b, hb, e⟩ := path_pred hN.pathD ha
  obtain ⟨haM, hau⟩ := hI.rowD _ hmN b hb
  exact key _ b _ haM (by rw [e, hl]) hau (by rw [hmc]; exact h2) (Nat.le_refl _)

/-- Segment `j` spans the height of `v`. -/
def Spans (P : Plane K) (A : Abs K) (v : Coords K) (j : Nat) : Prop :=
  j < A.S ∧ P.h (A.c (A.mn j)) < P.h v ∧ P.h v < P.h (A.sg j).2

theorem Spans.lo (hI : Inv P A) {v : Coords K} {j : Nat} (h : Spans P A v j) : P.h (A.sg j).1 < P.h v :=
  lt_of_le_of_lt (hI.mnN j h.1).2.1 h.2.1

/-- Among the segments left of a point there is a nearest one. -/
theorem exists_nearL (v : Coords K) {j : Nat} (hj : Spans P A v j) (hx : P.X (A.sg j) v < v.x) :
    ∃ l, Spans P A v l ∧ P.X (A.sg l) v < v.x ∧
      ∀ i, Spans P A v i → P.X (A.sg i) v < v.x → P.X (A.sg i) v ≤ P.X (A.sg l) v := by
  classical
  let F := (Finset.range A.S).filter fun i => Spans P A v i ∧ P.X (A.sg i) v < v.x
  obtain ⟨l, hl, hm⟩ := F.exists_max_image (fun i => P.X (A.sg i) v) ⟨j, by simp [F, hj, hx, hj.1]⟩
  have hl' : l < A.S ∧ Spans P A v l ∧ P.X (A.sg l) v < v.x := by simpa [F] using hl
  exact ⟨l, hl'.2.1, hl'.2.2, fun i hi hx => hm i (by simp [F, hi, hx, hi.1])⟩

/-- Among the segments right of a point there is a nearest one. -/
theorem exists_nearR (v : Coords K) {j : Nat} (hj : Spans P A v j) (hx : v.x < P.X (A.sg j) v) :
    ∃ l, Spans P A v l ∧ v.x < P.X (A.sg l) v ∧
      ∀ i, Spans P A v i → v.x < P.X (A.sg i) v → P.X (A.sg l) v ≤ P.X (A.sg i) v := by
  classical
  let F := (Finset.range A.S).filter fun i => Spans P A v i ∧ v.x < P.X (A.sg i) v
  obtain ⟨l, hl, hm⟩ := F.exists_min_image (fun i => P.X (A.sg i) v) ⟨j, by simp [F, hj, hx, hj.1]⟩
  have hl' : l < A.S ∧ Spans P A v l ∧ v.x < P.X (A.sg l) v := by simpa [F] using hl
  exact ⟨l, hl'.2.1, hl'.2.2, fun i hi hx => hm i (by simp [F, hi, hx, hi.1])⟩

/-- The trapezoid right of the nearest segment on the left contains the point, unless the point is its upper end. -/
theorem Inv.near_regionL (hI : Inv P A) {v : Coords K} (hv : P.U v) {j : Nat} (hj : Spans P A v j)
    (hx : P.X (A.sg j) v < v.x)
    (hm : ∀ i, Spans P A v i → P.X (A.sg i) v < v.x → P.X (A.sg i) v ≤ P.X (A.sg j) v)
    {a d u : Nat} (ha : a < A.M) (hl : (A.T a).left = some j) (hd : (A.T a).down = some d) (hu : (A.T a).up = some u)
    (h1 : P.h (A.c d) < P.h v) (h2 : P.h v < P.h (A.c u)) : Region P A a v := by
  refine ⟨fun d' hd' => ?_, fun u' hu' => ?_, fun l' hl' => ?_, fun r hr => ?_⟩
  · rw [hd] at hd'; cases hd'; exact h1
  · rw [hu] at hu'; cases hu'; exact h2
  · rw [hl] at hl'; cases hl'; exact hx
  · have hrS := hI.rightS a ha r hr
    obtain ⟨s1, s2⟩ := hI.right_span ha hr hu hd
    have hs : Spans P A v r := ⟨hrS, lt_of_le_of_lt s1 h1, lt_of_lt_of_le h2 s2⟩
    have hE := hI.sE r hrS
    have hEj := hI.sE j hj.1
    rcases lt_or_gt_of_ne (P.X_ne hE hv (hs.lo hI) hs.2.2) with h | h
    · exfalso
      have := (hI.lr a ha j r hl hr).lt hEj hE hv ⟨(hj.lo hI).le, hj.2.2.le⟩ ⟨(hs.lo hI).le, hs.2.2.le⟩
        (.inl ⟨Plane.ne_of_h' (hj.lo hI), Plane.ne_of_h hj.2.2⟩)
      exact absurd (hm r hs h) (not_le.2 this)
    · exact h

/-- The trapezoid left of the nearest segment on the right contains the point, unless the point is its upper end. -/
theorem Inv.near_regionR (hI : Inv P A) {v : Coords K} (hv : P.U v) {j : Nat} (hj : Spans P A v j)
    (hx : v.x < P.X (A.sg j) v)
    (hm : ∀ i, Spans P A v i → v.x < P.X (A.sg i) v → P.X (A.sg j) v ≤ P.X (A.sg i) v)
    {a d u : Nat} (ha : a < A.M) (hr : (A.T a).right = some j) (hd : (A.T a).down = some d) (hu : (A.T a).up = some u)
    (h1 : P.h (A.c d) < P.h v) (h2 : P.h v < P.h (A.c u)) : Region P A a v := by
  refine ⟨fun d' hd' => ?_, fun u' hu' => ?_, fun l hl => ?_, fun r' hr' => ?_⟩
  · rw [hd] at hd'; cases hd'; exact h1
  · rw [hu] at hu'; cases hu'; exact h2
  · have hlS := hI.leftS a ha l hl
    obtain ⟨s1, s2⟩ := hI.left_span ha hl hu hd
    have hs : Spans P A v l := ⟨hlS, lt_of_le_of_lt s1 h1, lt_of_lt_of_le h2 s2⟩
    have hE := hI.sE l hlS
    have hEj := hI.sE j hj.1
    rcases lt_or_gt_of_ne (P.X_ne hE hv (hs.lo hI) hs.2.2) with h | h
    · exact h
    · exfalso
      have := (hI.lr a ha l j hl hr).lt hE hEj hv ⟨(hs.lo hI).le, hs.2.2.le⟩ ⟨(hj.lo hI).le, hj.2.2.le⟩
        (.inr ⟨Plane.ne_of_h' (hj.lo hI), Plane.ne_of_h hj.2.2⟩)
      exact absurd (hm l hs h) (not_le.2 this)
  · rw [hr] at hr'; cases hr'; exact hx

/-- The left side of the trapezoid that contains `w` is the nearest segment left of `w`. -/
theorem Inv.cell_left (hI : Inv P A) (hS : SepD A) {w : Coords K} (hw : P.U w) (hf : ∀ n < A.N, A.c n ≠ w) {t : Nat}
    (ht : t < A.M) (hr : Region P A t w) {j : Nat} (hj : Spans P A w j) (hx : P.X (A.sg j) w < w.x) :
    ∃ l, (A.T t).left = some l ∧ P.X (A.sg j) w ≤ P.X (A.sg l) w := by
  obtain ⟨l, hl, hlx, hm⟩ := exists_nearL w hj hx
  obtain ⟨a, ha, hal, d, u, hd, hu, h1, h2⟩ := hI.coverL hS hl.1 hl.2.1 hl.2.2.le
  have huN := (hI.upM a ha u hu).1
  have h2' : P.h w < P.h (A.c u) := by
    rcases h2.lt_or_eq with h | h
    · exact h
    · exact absurd (P.h_inj hw (hI.cU u huN) h).symm (hf u huN)
  have := hI.near_regionL hw hl hlx hm ha hal hd hu h1 h2'
  obtain rfl := hI.disj w hw a ha t ht this hr
  exact ⟨l, hal, hm j hj hx⟩

/-- The right side of the trapezoid that contains `w` is the nearest segment right of `w`. -/
theorem Inv.cell_right (hI : Inv P A) (hS : SepD A) {w : Coords K} (hw : P.U w) (hf : ∀ n < A.N, A.c n ≠ w) {t : Nat}
    (ht : t < A.M) (hr : Region P A t w) {j : Nat} (hj : Spans P A w j) (hx : w.x < P.X (A.sg j) w) :
    ∃ l, (A.T t).right = some l ∧ P.X (A.sg l) w ≤ P.X (A.sg j) w := by
  obtain ⟨l, hl, hlx, hm⟩ := exists_nearR w hj hx
  obtain ⟨a, ha, hal, d, u, hd, hu, h1, h2⟩ := hI.coverR hS hl.1 hl.2.1 hl.2.2.le
  have huN := (hI.upM a ha u hu).1
  have h2' : P.h w < P.h (A.c u) := by
    rcases h2.lt_or_eq with h | h
    · exact h
    · exact absurd (P.h_inj hw (hI.cU u huN) h).symm (hf u huN)
  have := hI.near_regionR hw hl hlx hm ha hal hd hu h1 h2'
  obtain rfl := hI.disj w hw a ha t ht this hr
  exact ⟨l, hal, hm j hj hx⟩

/-- The left boundary at a vertex is the nearest segment left of it. -/
theorem Inv.nex_left (hI : Inv P A) (hS : SepD A) {n : Nat} (hn : n < A.N) {L R : Option Nat} (hN : Nex P A n L R)
    {j : Nat} (hj : Spans P A (A.c n) j) (hx : P.X (A.sg j) (A.c n) < (A.c n).x) :
    ∃ l, L = some l ∧ P.X (A.sg j) (A.c n) ≤ P.X (A.sg l) (A.c n) := by
  have hv := hI.cU n hn
  obtain ⟨l, hl, hlx, hm⟩ := exists_nearL (A.c n) hj hx
  obtain ⟨a, ha, hal, d, u, hd, hu, h1, h2⟩ := hI.coverL hS hl.1 hl.2.1 hl.2.2.le
  have huN := (hI.upM a ha u hu).1
  rcases h2.lt_or_eq with h | h
  · exact absurd (hI.near_regionL hv hl hlx hm ha hal hd hu h1 h) (hI.empty n hn a ha)
  · have := hI.cinj u huN n hn (P.h_inj hv (hI.cU u huN) h).symm
    subst this
    rcases path_left hN.pathD (hI.upM a ha u hu).2 with ⟨-, e⟩ | e
    · exact ⟨l, by rw [← e, hal], hm j hj hx⟩
    · obtain ⟨s, hs, e1, e2⟩ := hN.sepD a e
      rw [hal] at e1; cases e1
      have := hl.2.2
      rw [← (hI.mxN l hl.1).2, e2] at this
      exact absurd this (lt_irrefl _)

/-- The right boundary at a vertex is the nearest segment right of it. -/
theorem Inv.nex_right (hI : Inv P A) (hS : SepD A) {n : Nat} (hn : n < A.N) {L R : Option Nat} (hN : Nex P A n L R)
    {j : Nat} (hj : Spans P A (A.c n) j) (hx : (A.c n).x < P.X (A.sg j) (A.c n)) :
    ∃ l, R = some l ∧ P.X (A.sg l) (A.c n) ≤ P.X (A.sg j) (A.c n) := by
  have hv := hI.cU n hn
  obtain ⟨l, hl, hlx, hm⟩ := exists_nearR (A.c n) hj hx
  obtain ⟨a, ha, hal, d, u, hd, hu, h1, h2⟩ := hI.coverR hS hl.1 hl.2.1 hl.2.2.le
  have huN := (hI.upM a ha u hu).1
  rcases h2.lt_or_eq with h | h
  · exact absurd (hI.near_regionR hv hl hlx hm ha hal hd hu h1 h) (hI.empty n hn a ha)
  · have := hI.cinj u huN n hn (P.h_inj hv (hI.cU u huN) h).symm
    subst this
    rcases path_right hN.pathD (hI.upM a ha u hu).2 with ⟨-, e⟩ | ⟨b, hb, e⟩
    · exact ⟨l, by rw [← e, hal], hm j hj hx⟩
    · obtain ⟨s, hs, e1, e2⟩ := hN.sepD b hb
      rw [e, hal] at e1; cases e1
      have := hl.2.2
      rw [← (hI.mxN l hl.1).2, e2] at this
      exact absurd this (lt_irrefl _)

/-! ## Sets of edges -/

/-- The edges inserted so far. -/
def Edges (A : Abs K) (e : Coords K × Coords K) : Prop := ∃ i < A.S, A.sg i = e

/-- `e` is the edge of `F` next to `v` on the left. -/
structure NearL (P : Plane K) (F : Coords K × Coords K → Prop) (v : Coords K) (e : Coords K × Coords K) : Prop where
  mem : F e
  lo : P.h e.1 < P.h v
  hi : P.h v < P.h e.2
  side : P.X e v < v.x
  max : ∀ f, F f → P.h f.1 < P.h v → P.h v < P.h f.2 → P.X f v < v.x → P.X f v ≤ P.X e v

/-- `e` is the edge of `F` next to `v` on the right. -/
structure NearR (P : Plane K) (F : Coords K × Coords K → Prop) (v : Coords K) (e : Coords K × Coords K) : Prop where
  mem : F e
  lo : P.h e.1 < P.h v
  hi : P.h v < P.h e.2
  side : v.x < P.X e v
  min : ∀ f, F f → P.h f.1 < P.h v → P.h v < P.h f.2 → v.x < P.X f v → P.X e v ≤ P.X f v

variable {F : Coords K × Coords K → Prop} {v : Coords K} {e f : Coords K × Coords K}

theorem NearL.unique (hF : ∀ e, F e → P.E e) (hv : P.U v) (h : NearL P F v e) (h' : NearL P F v f) : e = f := by
  by_contra hne
  have hx := le_antisymm (h'.max e h.mem h.lo h.hi h.side) (h.max f h'.mem h'.lo h'.hi h'.side)
  obtain ⟨b1, -⟩ := P.nc_eq (hF e h.mem) (hF f h'.mem) hne hv h.lo.le h.hi.le h'.lo.le h'.hi.le hx
  rcases b1 with b | b
  · exact Plane.ne_of_h' h.lo b
  · exact Plane.ne_of_h h.hi b

theorem NearR.unique (hF : ∀ e, F e → P.E e) (hv : P.U v) (h : NearR P F v e) (h' : NearR P F v f) : e = f := by
  by_contra hne
  have hx := le_antisymm (h.min f h'.mem h'.lo h'.hi h'.side) (h'.min e h.mem h.lo h.hi h.side)
  obtain ⟨b1, -⟩ := P.nc_eq (hF e h.mem) (hF f h'.mem) hne hv h.lo.le h.hi.le h'.lo.le h'.hi.le hx
  rcases b1 with b | b
  · exact Plane.ne_of_h' h.lo b
  · exact Plane.ne_of_h h.hi b

theorem NearL.congr {F' : Coords K × Coords K → Prop} (hF : ∀ e, F e ↔ F' e) (h : NearL P F v e) : NearL P F' v e :=
  ⟨(hF e).1 h.mem, h.lo, h.hi, h.side, fun f hf => h.max f ((hF f).2 hf)⟩

theorem NearR.congr {F' : Coords K × Coords K → Prop} (hF : ∀ e, F e ↔ F' e) (h : NearR P F v e) : NearR P F' v e :=
  ⟨(hF e).1 h.mem, h.lo, h.hi, h.side, fun f hf => h.min f ((hF f).2 hf)⟩

/-- The boundaries at a vertex, as a statement about the set of edges. -/
theorem Inv.nex_nearL (hI : Inv P A) (hS : SepD A) {n : Nat} (hn : n < A.N) {L R : Option Nat} (hN : Nex P A n L R)
    (hlo : ∀ i < A.S, P.h (A.sg i).1 < P.h (A.c n) → P.h (A.c (A.mn i)) < P.h (A.c n)) {l : Nat} (hl : L = some l)
    (hlS : l < A.S) : NearL P (Edges A) (A.c n) (A.sg l) := by
  obtain ⟨h1, h2, h3⟩ := hN.passL l hl
  refine ⟨⟨l, hlS, rfl⟩, lt_of_le_of_lt (hI.mnN l hlS).2.1 h1, h2, h3, ?_⟩
  rintro f ⟨i, hi, rfl⟩ g1 g2 g3
  obtain ⟨l', e, hle⟩ := hI.nex_left hS hn hN ⟨hi, hlo i hi g1, g2⟩ g3
  rw [hl] at e; cases e
  exact hle

theorem Inv.nex_nearR (hI : Inv P A) (hS : SepD A) {n : Nat} (hn : n < A.N) {L R : Option Nat} (hN : Nex P A n L R)
    (hlo : ∀ i < A.S, P.h (A.sg i).1 < P.h (A.c n) → P.h (A.c (A.mn i)) < P.h (A.c n)) {l : Nat} (hl : R = some l)
    (hlS : l < A.S) : NearR P (Edges A) (A.c n) (A.sg l) := by
  obtain ⟨h1, h2, h3⟩ := hN.passR l hl
  refine ⟨⟨l, hlS, rfl⟩, lt_of_le_of_lt (hI.mnN l hlS).2.1 h1, h2, h3, ?_⟩
  rintro f ⟨i, hi, rfl⟩ g1 g2 g3
  obtain ⟨l', e, hle⟩ := hI.nex_right hS hn hN ⟨hi, hlo i hi g1, g2⟩ g3
  rw [hl] at e; cases e
  exact hle

end Tri
