import Mathlib.Data.List.Nodup
import Mathlib.Logic.Function.Basic
import Verif.Proof.Plane

/-!
# The combinatorial invariant of a trapezoidation

`Abs` is an abstract view of the state: vertices, segments, trapezoids, and for every vertex the rows of
trapezoids above and below it, from left to right.
-/

set_option linter.unusedSectionVars false

namespace Tri

variable {K : Type} [Field K] [LinearOrder K] [IsStrictOrderedRing K]

/-- A trapezoid without its query node. -/
@[ext] structure Trz where
  left : Option Nat
  right : Option Nat
  down : Option Nat
  up : Option Nat

/-- The abstract state.  `mn i`, `mx i` are the lower and upper ends of segment `i`; while a segment is
being inserted `mn` is the vertex down to which it has been inserted. -/
@[ext] structure Abs (K : Type) where
  N : Nat
  c : Nat → Coords K
  S : Nat
  sg : Nat → Coords K × Coords K
  mn : Nat → Nat
  mx : Nat → Nat
  M : Nat
  T : Nat → Trz
  ups : Nat → List Nat
  downs : Nat → List Nat

/-- The trapezoids `l` follow each other from boundary `L` to boundary `R`. -/
def Path (T : Nat → Trz) : Option Nat → List Nat → Option Nat → Prop
  | L, [], R => L = R
  | L, a :: l, R => (T a).left = L ∧ Path T (T a).right l R

section path
variable {T T' : Nat → Trz}

theorem path_append {L R : Option Nat} {a b : List Nat} :
    Path T L (a ++ b) R ↔ ∃ m, Path T L a m ∧ Path T m b R := by
  induction a generalizing L with
  | nil => simp [Path]
  | cons x a ih => simp [Path, ih, and_assoc]

theorem path_map {f : Nat → Nat} {l : List Nat} {L R : Option Nat}
    (h : ∀ a ∈ l, (T' (f a)).left = (T a).left ∧ (T' (f a)).right = (T a).right) :
    Path T' L (l.map f) R ↔ Path T L l R := by
  induction l generalizing L with
  | nil => simp [Path]
  | cons x l ih =>
    have h1 := h x (by simp)
    simp only [List.map_cons, Path, h1.1, h1.2, ih fun a ha => h a (by simp [ha])]

theorem path_congr {l : List Nat} {L R : Option Nat}
    (h : ∀ a ∈ l, (T' a).left = (T a).left ∧ (T' a).right = (T a).right) :
    Path T' L l R ↔ Path T L l R := by
  have := path_map (T := T) (T' := T') (f := id) (l := l) (L := L) (R := R) h
  rwa [List.map_id] at this

/-- The left side of a trapezoid of a row. -/
theorem path_left {l : List Nat} {L R : Option Nat} (h : Path T L l R) {a : Nat} (ha : a ∈ l) :
    (l.head? = some a ∧ (T a).left = L) ∨ a ∈ l.tail := by
  cases l with
  | nil => simp at ha
  | cons x l =>
    rcases List.mem_cons.1 ha with rfl | ha
    · exact .inl ⟨rfl, h.1⟩
    · exact .inr ha

/-- The right side of a trapezoid of a row is the left side of its successor. -/
theorem path_right {l : List Nat} {L R : Option Nat} (h : Path T L l R) {a : Nat} (ha : a ∈ l) :
    (l.getLast? = some a ∧ (T a).right = R) ∨ ∃ b ∈ l.tail, (T b).left = (T a).right := by
  induction l generalizing L with
  | nil => simp at ha
  | cons x l ih =>
    cases l with
    | nil =>
      have : a = x := by simpa using ha
      subst this
      exact .inl ⟨rfl, h.2⟩
    | cons y l =>
      rcases List.mem_cons.1 ha with rfl | ha
      · exact .inr ⟨y, by simp, h.2.1⟩
      · rcases ih h.2 ha with h' | ⟨b, hb, h'⟩
        · exact .inl ⟨by simpa using h'.1, h'.2⟩
        · exact .inr ⟨b, by simp at hb; simp [hb], h'⟩

end path

/-- The open region of trapezoid `i`. -/
structure Region (P : Plane K) (A : Abs K) (i : Nat) (v : Coords K) : Prop where
  down : ∀ d, (A.T i).down = some d → P.h (A.c d) < P.h v
  up : ∀ u, (A.T i).up = some u → P.h v < P.h (A.c u)
  left : ∀ l, (A.T i).left = some l → P.X (A.sg l) v < v.x
  right : ∀ r, (A.T i).right = some r → v.x < P.X (A.sg r) v

/-- Segment `l` passes left of vertex `n`. -/
def PassL (P : Plane K) (A : Abs K) (n : Nat) (l : Nat) : Prop :=
  P.h (A.c (A.mn l)) < P.h (A.c n) ∧ P.h (A.c n) < P.h (A.sg l).2 ∧ P.X (A.sg l) (A.c n) < (A.c n).x

/-- Segment `r` passes right of vertex `n`. -/
def PassR (P : Plane K) (A : Abs K) (n : Nat) (r : Nat) : Prop :=
  P.h (A.c (A.mn r)) < P.h (A.c n) ∧ P.h (A.c n) < P.h (A.sg r).2 ∧ (A.c n).x < P.X (A.sg r) (A.c n)

/-- The rows at vertex `n`, between the boundaries `L` and `R`. -/
structure Nex (P : Plane K) (A : Abs K) (n : Nat) (L R : Option Nat) : Prop where
  neU : A.ups n ≠ []
  neD : A.downs n ≠ []
  pathU : Path A.T L (A.ups n) R
  pathD : Path A.T L (A.downs n) R
  sepU : ∀ a ∈ (A.ups n).tail, ∃ s, s < A.S ∧ (A.T a).left = some s ∧ A.mn s = n
  sepD : ∀ a ∈ (A.downs n).tail, ∃ s, s < A.S ∧ (A.T a).left = some s ∧ A.mx s = n
  passL : ∀ l, L = some l → PassL P A n l
  passR : ∀ r, R = some r → PassR P A n r
  nodupU : (A.ups n).Nodup
  nodupD : (A.downs n).Nodup

/-- The invariant. -/
structure Inv (P : Plane K) (A : Abs K) : Prop where
  cU : ∀ n < A.N, P.U (A.c n)
  cinj : ∀ n < A.N, ∀ m < A.N, A.c n = A.c m → n = m
  sE : ∀ i < A.S, P.E (A.sg i)
  sinj : ∀ i < A.S, ∀ j < A.S, A.sg i = A.sg j → i = j
  mxN : ∀ i < A.S, A.mx i < A.N ∧ A.c (A.mx i) = (A.sg i).2
  mnN : ∀ i < A.S, A.mn i < A.N ∧ P.h (A.sg i).1 ≤ P.h (A.c (A.mn i)) ∧
    P.h (A.c (A.mn i)) < P.h (A.sg i).2
  leftS : ∀ i < A.M, ∀ l, (A.T i).left = some l → l < A.S
  rightS : ∀ i < A.M, ∀ l, (A.T i).right = some l → l < A.S
  upM : ∀ i < A.M, ∀ u, (A.T i).up = some u → u < A.N ∧ i ∈ A.downs u
  downM : ∀ i < A.M, ∀ d, (A.T i).down = some d → d < A.N ∧ i ∈ A.ups d
  rowD : ∀ n < A.N, ∀ i ∈ A.downs n, i < A.M ∧ (A.T i).up = some n
  rowU : ∀ n < A.N, ∀ i ∈ A.ups n, i < A.M ∧ (A.T i).down = some n
  ht : ∀ i < A.M, ∀ u d, (A.T i).up = some u → (A.T i).down = some d → P.h (A.c d) < P.h (A.c u)
  bnd : ∀ i < A.M, (A.T i).left ≠ none ∨ (A.T i).right ≠ none →
    (A.T i).up ≠ none ∧ (A.T i).down ≠ none
  lr : ∀ i < A.M, ∀ l r, (A.T i).left = some l → (A.T i).right = some r → P.Lt (A.sg l) (A.sg r)
  uniqL : ∀ i < A.M, ∀ j < A.M, ∀ s, (A.T i).left = some s → (A.T j).left = some s →
    (A.T i).down = (A.T j).down → i = j
  uniqR : ∀ i < A.M, ∀ j < A.M, ∀ s, (A.T i).right = some s → (A.T j).right = some s →
    (A.T i).down = (A.T j).down → i = j
  nex : ∀ n < A.N, ∃ L R, Nex P A n L R
  disj : ∀ v, P.U v → ∀ i < A.M, ∀ j < A.M, Region P A i v → Region P A j v → i = j
  empty : ∀ n < A.N, ∀ i < A.M, ¬ Region P A i (A.c n)

/-- No segment is under construction, apart from those in `X`. -/
def Real (A : Abs K) (X : Nat → Prop) : Prop := ∀ i < A.S, ¬ X i → A.c (A.mn i) = (A.sg i).1

namespace Inv
variable {P : Plane K} {A : Abs K}

theorem ne (hI : Inv P A) : ∀ i < A.M, ∀ l, (A.T i).left = some l → (A.T i).right ≠ some l :=
  fun i hi l hl hr => (hI.lr i hi l l hl hr).ne rfl

theorem left_up (hI : Inv P A) {i l u : Nat} (hi : i < A.M) (hl : (A.T i).left = some l)
    (hu : (A.T i).up = some u) : A.mx l = u ∨ PassL P A u l := by
  obtain ⟨huN, hm⟩ := hI.upM i hi u hu
  obtain ⟨L, R, hn⟩ := hI.nex u huN
  rcases path_left hn.pathD hm with ⟨-, h⟩ | h
  · exact .inr (hn.passL l (by rw [← h, hl]))
  · obtain ⟨s, hs, h1, h2⟩ := hn.sepD i h
    rw [hl] at h1; cases h1
    exact .inl h2

theorem left_down (hI : Inv P A) {i l u : Nat} (hi : i < A.M) (hl : (A.T i).left = some l)
    (hu : (A.T i).down = some u) : A.mn l = u ∨ PassL P A u l := by
  obtain ⟨huN, hm⟩ := hI.downM i hi u hu
  obtain ⟨L, R, hn⟩ := hI.nex u huN
  rcases path_left hn.pathU hm with ⟨-, h⟩ | h
  · exact .inr (hn.passL l (by rw [← h, hl]))
  · obtain ⟨s, hs, h1, h2⟩ := hn.sepU i h
    rw [hl] at h1; cases h1
    exact .inl h2

theorem right_up (hI : Inv P A) {i l u : Nat} (hi : i < A.M) (hl : (A.T i).right = some l)
    (hu : (A.T i).up = some u) : A.mx l = u ∨ PassR P A u l := by
  obtain ⟨huN, hm⟩ := hI.upM i hi u hu
  obtain ⟨L, R, hn⟩ := hI.nex u huN
  rcases path_right hn.pathD hm with ⟨-, h⟩ | ⟨b, hb, h⟩
  · exact .inr (hn.passR l (by rw [← h, hl]))
  · obtain ⟨s, hs, h1, h2⟩ := hn.sepD b hb
    rw [h, hl] at h1; cases h1
    exact .inl h2

theorem right_down (hI : Inv P A) {i l u : Nat} (hi : i < A.M) (hl : (A.T i).right = some l)
    (hu : (A.T i).down = some u) : A.mn l = u ∨ PassR P A u l := by
  obtain ⟨huN, hm⟩ := hI.downM i hi u hu
  obtain ⟨L, R, hn⟩ := hI.nex u huN
  rcases path_right hn.pathU hm with ⟨-, h⟩ | ⟨b, hb, h⟩
  · exact .inr (hn.passR l (by rw [← h, hl]))
  · obtain ⟨s, hs, h1, h2⟩ := hn.sepU b hb
    rw [h, hl] at h1; cases h1
    exact .inl h2

/-- A side of a trapezoid spans it. -/
theorem left_span (hI : Inv P A) {i l u d : Nat} (hi : i < A.M) (hl : (A.T i).left = some l)
    (hu : (A.T i).up = some u) (hd : (A.T i).down = some d) :
    P.h (A.c (A.mn l)) ≤ P.h (A.c d) ∧ P.h (A.c u) ≤ P.h (A.sg l).2 := by
  have hlS := hI.leftS i hi l hl
  constructor
  · rcases hI.left_down hi hl hd with h | h
    · rw [h]
    · exact h.1.le
  · rcases hI.left_up hi hl hu with h | h
    · rw [← h, (hI.mxN l hlS).2]
    · exact h.2.1.le

theorem right_span (hI : Inv P A) {i l u d : Nat} (hi : i < A.M) (hl : (A.T i).right = some l)
    (hu : (A.T i).up = some u) (hd : (A.T i).down = some d) :
    P.h (A.c (A.mn l)) ≤ P.h (A.c d) ∧ P.h (A.c u) ≤ P.h (A.sg l).2 := by
  have hlS := hI.rightS i hi l hl
  constructor
  · rcases hI.right_down hi hl hd with h | h
    · rw [h]
    · exact h.1.le
  · rcases hI.right_up hi hl hu with h | h
    · rw [← h, (hI.mxN l hlS).2]
    · exact h.2.1.le

end Inv

/-- The empty state. -/
def Abs.init : Abs K := ⟨0, fun _ => ⟨0, 0⟩, 0, fun _ => (⟨0, 0⟩, ⟨0, 0⟩), fun _ => 0, fun _ => 0, 1,
  fun _ => ⟨none, none, none, none⟩, fun _ => [], fun _ => []⟩

theorem inv_init (P : Plane K) : Inv P (Abs.init : Abs K) where
  cU n h := absurd h (Nat.not_lt_zero _)
  cinj n h := absurd h (Nat.not_lt_zero _)
  sE i h := absurd h (Nat.not_lt_zero _)
  sinj i h := absurd h (Nat.not_lt_zero _)
  mxN i h := absurd h (Nat.not_lt_zero _)
  mnN i h := absurd h (Nat.not_lt_zero _)
  leftS i _ l h := by cases h
  rightS i _ l h := by cases h
  upM i _ l h := by cases h
  downM i _ l h := by cases h
  rowD i h := absurd h (Nat.not_lt_zero _)
  rowU i h := absurd h (Nat.not_lt_zero _)
  ht i _ u d h := by cases h
  bnd i _ h := by simp [Abs.init] at h
  lr i _ l r h := by cases h
  uniqL i _ j _ s h := by cases h
  uniqR i _ j _ s h := by cases h
  nex i h := absurd h (Nat.not_lt_zero _)
  disj v _ i hi j hj _ _ := by
    have h1 : i < 1 := hi
    have h2 : j < 1 := hj
    omega
  empty i h := absurd h (Nat.not_lt_zero _)

/-- Insertion of a vertex into trapezoid `t`. -/
def Abs.addV (A : Abs K) (v : Coords K) (t : Nat) : Abs K where
  N := A.N + 1
  c := Function.update A.c A.N v
  S := A.S
  sg := A.sg
  mn := A.mn
  mx := A.mx
  M := A.M + 1
  T := Function.update (Function.update A.T t { A.T t with up := some A.N }) A.M
    { A.T t with down := some A.N }
  ups := Function.update A.ups A.N [A.M]
  downs := Function.update (fun n => (A.downs n).map fun x => if x = t then A.M else x) A.N [t]

end Tri
