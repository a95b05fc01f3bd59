import Verif.Proof.RunSegment

/-!
# The walk of the relocation

Between segments, the code moves along the polygon from trapezoid to trapezoid.
-/

set_option linter.unusedSectionVars false

namespace Tri

variable {I V K : Type} [Field K] [LinearOrder K] [IsStrictOrderedRing K]

attribute [local instance] exact

variable {P : Plane K} {A : Abs K} {e : Coords K × Coords K} {t n : Nat}

/-- An edge that fits into a trapezoid and ends inside its heights ends inside. -/
theorem Fits.region (hI : Inv P A) (he : P.E e) (ht : t < A.M) (hf : Fits P A e t) {v : Coords K}
    (hv : v = e.1 ∨ v = e.2) (h1 : ∀ n, (A.T t).down = some n → P.h (A.c n) < P.h v)
    (h2 : ∀ n, (A.T t).up = some n → P.h v < P.h (A.c n)) : Region P A t v := by
  have hU : P.U v := by rcases hv with rfl | rfl; exacts [P.lo_U he, P.hi_U he]
  have hin : P.In e v := by rcases hv with rfl | rfl; exacts [Plane.In.lo he, Plane.In.hi he]
  have hX : P.X e v = v.x := by rcases hv with rfl | rfl; exacts [P.X_lo he, P.X_hi he]
  refine ⟨h1, h2, fun l hl => ?_, fun l hl => ?_⟩
  · obtain ⟨b1, b2⟩ := hI.bnd t ht (.inl (by rw [hl]; simp))
    obtain ⟨u, hu⟩ := Option.ne_none_iff_exists'.1 b1
    obtain ⟨d, hd⟩ := Option.ne_none_iff_exists'.1 b2
    have hS := hI.leftS t ht l hl
    have hsp := hI.left_span ht hl hu hd
    have hm := hI.mnN l hS
    have h3 : P.h (A.sg l).1 < P.h v := by linarith [hm.2.1, h1 d hd]
    have h4 : P.h v < P.h (A.sg l).2 := by linarith [h2 u hu]
    have := (hf.ltL l hl).lt (hI.sE l hS) he hU ⟨h3.le, h4.le⟩ hin
      (.inl ⟨Plane.ne_of_h' h3, Plane.ne_of_h h4⟩)
    rwa [hX] at this
  · obtain ⟨b1, b2⟩ := hI.bnd t ht (.inr (by rw [hl]; simp))
    obtain ⟨u, hu⟩ := Option.ne_none_iff_exists'.1 b1
    obtain ⟨d, hd⟩ := Option.ne_none_iff_exists'.1 b2
    have hS := hI.rightS t ht l hl
    have hsp := hI.right_span ht hl hu hd
    have hm := hI.mnN l hS
    have h3 : P.h (A.sg l).1 < P.h v := by linarith [hm.2.1, h1 d hd]
    have h4 : P.h v < P.h (A.sg l).2 := by linarith [h2 u hu]
    have := (hf.ltR l hl).lt he (hI.sE l hS) hU hin ⟨h3.le, h4.le⟩
      (.inr ⟨Plane.ne_of_h' h3, Plane.ne_of_h h4⟩)
    rwa [hX] at this

/-- The sides of the trapezoids of the row above a vertex. -/
theorem Nex.left_up {L R : Option Nat} (_ : Nex P A n L R) (hI : Inv P A) (hR : Real A fun _ => False)
    (hn : n < A.N) {i l : Nat} (hi : i ∈ A.ups n) (hl : (A.T i).left = some l) :
    l < A.S ∧ P.In (A.sg l) (A.c n) ∧ P.X (A.sg l) (A.c n) ≤ (A.c n).x := by
  have hS := hI.leftS i (hI.rowU n hn i hi).1 l hl
  refine ⟨hS, ?_⟩
  have hm := hI.mnN l hS
  rcases hI.left_down (hI.rowU n hn i hi).1 hl (hI.rowU n hn i hi).2 with h | h
  · have := hR l hS (fun h => h)
    rw [h] at this
    rw [this]
    exact ⟨Plane.In.lo (hI.sE l hS), (P.X_lo (hI.sE l hS)).le⟩
  · exact ⟨⟨by linarith [hm.2.1, h.1], h.2.1.le⟩, h.2.2.le⟩

theorem Nex.right_up {L R : Option Nat} (_ : Nex P A n L R) (hI : Inv P A) (hR : Real A fun _ => False)
    (hn : n < A.N) {i l : Nat} (hi : i ∈ A.ups n) (hl : (A.T i).right = some l) :
    l < A.S ∧ P.In (A.sg l) (A.c n) ∧ (A.c n).x ≤ P.X (A.sg l) (A.c n) := by
  have hS := hI.rightS i (hI.rowU n hn i hi).1 l hl
  refine ⟨hS, ?_⟩
  have hm := hI.mnN l hS
  rcases hI.right_down (hI.rowU n hn i hi).1 hl (hI.rowU n hn i hi).2 with h | h
  · have := hR l hS (fun h => h)
    rw [h] at this
    rw [this]
    exact ⟨Plane.In.lo (hI.sE l hS), (P.X_lo (hI.sE l hS)).ge⟩
  · exact ⟨⟨by linarith [hm.2.1, h.1], h.2.1.le⟩, h.2.2.le⟩

/-- In the row above a vertex left of the edge, only the last trapezoid fits. -/
theorem Fits.last_up (hI : Inv P A) (hR : Real A fun _ => False) (he : P.E e) (hn : n < A.N) (ht : t ∈ A.ups n)
    (hf : Fits P A e t) (hin : P.In e (A.c n)) (hside : (A.c n).x < P.X e (A.c n)) {L R : Option Nat}
    (hx : Nex P A n L R) : (A.T t).right = R := by
  rcases path_right hx.pathU ht with ⟨-, h⟩ | ⟨b, hb, hb'⟩
  · exact h
  · exfalso
    obtain ⟨s, hs, h1, h2⟩ := hx.sepU b hb
    have hl := hf.ltR s (by rw [← hb', h1])
    obtain ⟨-, hin', -⟩ := hx.left_up hI hR hn (List.mem_of_mem_tail hb) h1
    have := hl.le he (hI.sE s hs) (hI.cU n hn) hin hin'
    have h3 := hR s hs (fun h => h)
    rw [h2] at h3
    have hX := P.X_lo (hI.sE s hs)
    rw [← h3] at hX
    rw [hX] at this
    exact absurd (lt_of_lt_of_le hside this) (lt_irrefl _)

theorem Fits.head_up (hI : Inv P A) (hR : Real A fun _ => False) (he : P.E e) (hn : n < A.N) (ht : t ∈ A.ups n)
    (hf : Fits P A e t) (hin : P.In e (A.c n)) (hside : P.X e (A.c n) < (A.c n).x) {L R : Option Nat}
    (hx : Nex P A n L R) : (A.T t).left = L := by
  rcases path_left hx.pathU ht with ⟨-, h⟩ | hb
  · exact h
  · exfalso
    obtain ⟨s, hs, h1, h2⟩ := hx.sepU t hb
    have hl := hf.ltL s h1
    obtain ⟨-, hin', -⟩ := hx.left_up hI hR hn ht h1
    have := hl.le (hI.sE s hs) he (hI.cU n hn) hin' hin
    have h3 := hR s hs (fun h => h)
    rw [h2] at h3
    have hX := P.X_lo (hI.sE s hs)
    rw [← h3] at hX
    rw [hX] at this
    exact absurd (lt_of_lt_of_le hside this) (lt_irrefl _)

theorem Fits.last_down (hI : Inv P A) (he : P.E e) (hn : n < A.N) (ht : t ∈ A.downs n)
    (hf : Fits P A e t) (hin : P.In e (A.c n)) (hside : (A.c n).x < P.X e (A.c n)) {L R : Option Nat}
    (hx : Nex P A n L R) : (A.T t).right = R := by
  rcases path_right hx.pathD ht with ⟨-, h⟩ | ⟨b, hb, hb'⟩
  · exact h
  · exfalso
    obtain ⟨s, hs, h1, h2⟩ := hx.sepD b hb
    have hl := hf.ltR s (by rw [← hb', h1])
    obtain ⟨-, hin', -⟩ := hx.left_down hI hn (List.mem_of_mem_tail hb) h1
    have := hl.le he (hI.sE s hs) (hI.cU n hn) hin hin'
    have h3 := (hI.mxN s hs).2
    rw [h2] at h3
    have hX := P.X_hi (hI.sE s hs)
    rw [← h3] at hX
    rw [hX] at this
    exact absurd (lt_of_lt_of_le hside this) (lt_irrefl _)

theorem Fits.head_down (hI : Inv P A) (he : P.E e) (hn : n < A.N) (ht : t ∈ A.downs n)
    (hf : Fits P A e t) (hin : P.In e (A.c n)) (hside : P.X e (A.c n) < (A.c n).x) {L R : Option Nat}
    (hx : Nex P A n L R) : (A.T t).left = L := by
  rcases path_left hx.pathD ht with ⟨-, h⟩ | hb
  · exact h
  · exfalso
    obtain ⟨s, hs, h1, h2⟩ := hx.sepD t hb
    have hl := hf.ltL s h1
    obtain ⟨-, hin', -⟩ := hx.left_down hI hn ht h1
    have := hl.le (hI.sE s hs) he (hI.cU n hn) hin' hin
    have h3 := (hI.mxN s hs).2
    rw [h2] at h3
    have hX := P.X_hi (hI.sE s hs)
    rw [← h3] at hX
    rw [hX] at this
    exact absurd (lt_of_lt_of_le hside this) (lt_irrefl _)

/-- Which trapezoid of a row the edge enters. -/
def Entry (left : Bool) (row : List Nat) (t : Nat) : Prop :=
  if left = true then row.getLast? = some t else row.head? = some t

theorem Entry.mem {b : Bool} {row : List Nat} (h : Entry b row t) : t ∈ row := by
  unfold Entry at h
  split at h
  · exact List.mem_of_getLast? h
  · exact List.mem_of_head? h

theorem path_last {T : Nat → Trz} {L R : Option Nat} {l : List Nat} (h : Path T L l R) (hl : l.getLast? = some t) :
    (T t).right = R := by
  obtain ⟨a, rfl⟩ := List.getLast?_eq_some_iff.1 hl
  rw [path_append] at h
  obtain ⟨m, -, -, h⟩ := h
  exact h

theorem path_head {T : Nat → Trz} {L R : Option Nat} {l : List Nat} (h : Path T L l R) (hl : l.head? = some t) :
    (T t).left = L := by
  obtain ⟨a, rfl⟩ := List.head?_eq_some_iff.1 hl
  exact h.1

/-- Passing a vertex downwards. -/
theorem Fits.next_down (hI : Inv P A) (hR : Real A fun _ => False) (he : P.E e) (ht : t < A.M) (hf : Fits P A e t)
    (hd : (A.T t).down = some n) (h1 : P.h e.1 < P.h (A.c n)) (h2 : P.h (A.c n) < P.h e.2) {t' : Nat}
    (hen : Entry (isLeftOfLine e.1 e.2 (A.c n)) (A.downs n) t') : Fits P A e t' := by
  obtain ⟨hn, hm⟩ := hI.downM t ht n hd
  obtain ⟨L, R, hx⟩ := hI.nex n hn
  have hin : P.In e (A.c n) := ⟨h1.le, h2.le⟩
  have hU := hI.cU n hn
  have ht' := hen.mem
  have hiff := P.left_iff he hU h1 h2
  unfold Entry at hen
  split at hen
  · rename_i hb
    have hside := hiff.1 hb
    refine ⟨fun l hl => ?_, fun r hr => hf.ltR r ?_⟩
    · obtain ⟨hS, hi, hle⟩ := hx.left_down hI hn ht' hl
      exact ⟨A.c n, hU, hi, hin, lt_of_le_of_lt hle hside⟩
    · rw [hf.last_up hI hR he hn hm hin hside hx, ← path_last hx.pathD hen, hr]
  · rename_i hb
    have hside : P.X e (A.c n) < (A.c n).x :=
      lt_of_le_of_ne (not_lt.1 fun h => hb (hiff.2 h)) (P.X_ne he hU h1 h2)
    refine ⟨fun l hl => hf.ltL l ?_, fun r hr => ?_⟩
    · rw [hf.head_up hI hR he hn hm hin hside hx, ← path_head hx.pathD hen, hl]
    · obtain ⟨hS, hi, hle⟩ := hx.right_down hI hn ht' hr
      exact ⟨A.c n, hU, hin, hi, lt_of_lt_of_le hside (hle ht')⟩

/-- Passing a vertex upwards. -/
theorem Fits.next_up (hI : Inv P A) (hR : Real A fun _ => False) (he : P.E e) (ht : t < A.M) (hf : Fits P A e t)
    (hd : (A.T t).up = some n) (h1 : P.h e.1 < P.h (A.c n)) (h2 : P.h (A.c n) < P.h e.2) {t' : Nat}
    (hen : Entry (isLeftOfLine e.1 e.2 (A.c n)) (A.ups n) t') : Fits P A e t' := by
  obtain ⟨hn, hm⟩ := hI.upM t ht n hd
  obtain ⟨L, R, hx⟩ := hI.nex n hn
  have hin : P.In e (A.c n) := ⟨h1.le, h2.le⟩
  have hU := hI.cU n hn
  have ht' := hen.mem
  have hiff := P.left_iff he hU h1 h2
  unfold Entry at hen
  split at hen
  · rename_i hb
    have hside := hiff.1 hb
    refine ⟨fun l hl => ?_, fun r hr => hf.ltR r ?_⟩
    · obtain ⟨hS, hi, hle⟩ := hx.left_up hI hR hn ht' hl
      exact ⟨A.c n, hU, hi, hin, lt_of_le_of_lt hle hside⟩
    · rw [hf.last_down hI he hn hm hin hside hx, ← path_last hx.pathU hen, hr]
  · rename_i hb
    have hside : P.X e (A.c n) < (A.c n).x :=
      lt_of_le_of_ne (not_lt.1 fun h => hb (hiff.2 h)) (P.X_ne he hU h1 h2)
    refine ⟨fun l hl => hf.ltL l ?_, fun r hr => ?_⟩
    · rw [hf.head_down hI he hn hm hin hside hx, ← path_head hx.pathU hen, hl]
    · obtain ⟨hS, hi, hle⟩ := hx.right_up hI hR hn ht' hr
      exact ⟨A.c n, hU, hin, hi, lt_of_lt_of_le hside hle⟩

/-- The edges of the state and one more. -/
def EdgesOr (A : Abs K) (e f : Coords K × Coords K) : Prop := Edges A f ∨ f = e

/-- An edge that passes a vertex next to the edge on the left or right of that vertex. -/
theorem near_of_nex (hI : Inv P A) (hS : SepD A) (hR : Real A fun _ => False) (he : P.E e) (hn : n < A.N)
    (h1 : P.h e.1 < P.h (A.c n)) (h2 : P.h (A.c n) < P.h e.2) {L R : Option Nat} (hx : Nex P A n L R)
    (hlr : (P.X e (A.c n) < (A.c n).x ∧ ∀ l, L = some l → P.Lt (A.sg l) e) ∨
      ((A.c n).x < P.X e (A.c n) ∧ ∀ r, R = some r → P.Lt e (A.sg r))) :
    NearL P (EdgesOr A e) (A.c n) e ∨ NearR P (EdgesOr A e) (A.c n) e := by
  have hU := hI.cU n hn
  have hsp : ∀ i < A.S, P.h (A.sg i).1 < P.h (A.c n) → P.h (A.c n) < P.h (A.sg i).2 → Spans P A (A.c n) i := by
    intro i hi a b
    exact ⟨hi, by rw [hR i hi (fun h => h)]; exact a, b⟩
  rcases hlr with ⟨hs, hl⟩ | ⟨hs, hl⟩
  · refine .inl ⟨.inr rfl, h1, h2, hs, ?_⟩
    rintro f (⟨i, hi, rfl⟩ | rfl) a b c
    · obtain ⟨l, rfl, hle⟩ := hI.nex_left hS hn hx (hsp i hi a b) c
      have hlS : l < A.S := by
        rcases hd : A.downs n with _ | ⟨d, ds⟩
        · exact absurd hd hx.neD
        · exact hI.leftS d (hI.rowD n hn d (by rw [hd]; simp)).1 l (path_head hx.pathD (by rw [hd]; rfl))
      have hlt := hl l rfl
      obtain ⟨g1, g2, -⟩ := hx.passL l rfl
      refine hle.trans (hlt.le (hI.sE l hlS) he hU ⟨?_, g2.le⟩ ⟨h1.le, h2.le⟩)
      exact (hI.mnN l hlS).2.1.trans g1.le
    · exact le_refl _
  · refine .inr ⟨.inr rfl, h1, h2, hs, ?_⟩
    rintro f (⟨i, hi, rfl⟩ | rfl) a b c
    · obtain ⟨l, rfl, hle⟩ := hI.nex_right hS hn hx (hsp i hi a b) c
      have hlt := hl l rfl
      have hlS : l < A.S := by
        have hd := List.getLast?_eq_some_getLast hx.neD
        exact hI.rightS _ (hI.rowD n hn _ (List.getLast_mem hx.neD)).1 l (path_last hx.pathD hd)
      obtain ⟨g1, g2, -⟩ := hx.passR l rfl
      exact (hlt.le he (hI.sE l hlS) hU ⟨h1.le, h2.le⟩ ⟨(hI.mnN l hlS).2.1.trans g1.le, g2.le⟩).trans hle
    · exact le_refl _

theorem Fits.near_down (hI : Inv P A) (hS : SepD A) (hR : Real A fun _ => False) (he : P.E e) (ht : t < A.M)
    (hf : Fits P A e t) (hd : (A.T t).down = some n) (h1 : P.h e.1 < P.h (A.c n)) (h2 : P.h (A.c n) < P.h e.2) :
    NearL P (EdgesOr A e) (A.c n) e ∨ NearR P (EdgesOr A e) (A.c n) e := by
  obtain ⟨hn, hm⟩ := hI.downM t ht n hd
  obtain ⟨L, R, hx⟩ := hI.nex n hn
  have hin : P.In e (A.c n) := ⟨h1.le, h2.le⟩
  refine near_of_nex hI hS hR he hn h1 h2 hx ?_
  rcases lt_or_gt_of_ne (P.X_ne he (hI.cU n hn) h1 h2) with h | h
  · exact .inl ⟨h, fun l hl => hf.ltL l (by rw [hf.head_up hI hR he hn hm hin h hx, hl])⟩
  · exact .inr ⟨h, fun l hl => hf.ltR l (by rw [hf.last_up hI hR he hn hm hin h hx, hl])⟩

theorem Fits.near_up (hI : Inv P A) (hS : SepD A) (hR : Real A fun _ => False) (he : P.E e) (ht : t < A.M)
    (hf : Fits P A e t) (hd : (A.T t).up = some n) (h1 : P.h e.1 < P.h (A.c n)) (h2 : P.h (A.c n) < P.h e.2) :
    NearL P (EdgesOr A e) (A.c n) e ∨ NearR P (EdgesOr A e) (A.c n) e := by
  obtain ⟨hn, hm⟩ := hI.upM t ht n hd
  obtain ⟨L, R, hx⟩ := hI.nex n hn
  have hin : P.In e (A.c n) := ⟨h1.le, h2.le⟩
  refine near_of_nex hI hS hR he hn h1 h2 hx ?_
  rcases lt_or_gt_of_ne (P.X_ne he (hI.cU n hn) h1 h2) with h | h
  · exact .inl ⟨h, fun l hl => hf.ltL l (by rw [hf.head_down hI he hn hm hin h hx, hl])⟩
  · exact .inr ⟨h, fun l hl => hf.ltR l (by rw [hf.last_down hI he hn hm hin h hx, hl])⟩

variable {st : St I K} {ex : Nat → Prop}

/-- The row of trapezoids at a vertex in a direction. -/
def Abs.row (A : Abs K) : Dir → Nat → List Nat
  | .asc => A.ups
  | .desc => A.downs

theorem NexLink.row {u d : List Nat} {op : Nat → Prop} {nx : Nexus I K} (h : NexLink A u d op n nx) (dir : Dir) :
    nx.iterTrapezoids dir = match dir with | .asc => u | .desc => d := by
  cases dir
  · exact h.up
  · exact h.down

/-- `get_trapezoid_between_coords`. -/
theorem between_entry (nx : Nexus I K) (dir : Dir) (a b : Coords K) :
    Entry (match dir with | .asc => isLeftOfLine a b nx.c | .desc => isLeftOfLine b a nx.c)
      (nx.iterTrapezoids dir) (nx.getTrapezoidBetweenCoords dir a b) := by
  rw [Nexus.iter_eq]
  unfold Nexus.getTrapezoidBetweenCoords Entry
  rw [Nexus.filterDividers_last]
  rcases List.eq_nil_or_concat' (nx.divs dir) with hd | ⟨ds, x, hd⟩
  · rw [hd]; simp
  · rw [hd]
    simp only [List.getLast?_append, List.getLast?_singleton, Option.some_or]
    cases dir
    · simp only
      by_cases hl : isLeftOfLine a b nx.c = true <;> simp [hl, List.getLast?_cons]
    · simp only
      by_cases hl : isLeftOfLine b a nx.c = true <;> simp [hl, List.getLast?_cons]

/-- The number of vertices below a height. -/
def cntB (P : Plane K) (A : Abs K) (z : K) : Nat := ((List.range A.N).filter fun k => P.h (A.c k) < z).length

/-- The number of vertices above a height. -/
def cntA (P : Plane K) (A : Abs K) (z : K) : Nat := ((List.range A.N).filter fun k => z < P.h (A.c k)).length

theorem filter_length_lt {l : List Nat} {p q : Nat → Bool} (h : ∀ x ∈ l, p x = true → q x = true) {a : Nat}
    (ha : a ∈ l) (h1 : q a = true) (h2 : p a = false) : (l.filter p).length < (l.filter q).length := by
  induction l with
  | nil => simp at ha
  | cons x l ih =>
    have hle : ∀ l : List Nat, (∀ x ∈ l, p x = true → q x = true) → (l.filter p).length ≤ (l.filter q).length := by
      intro l hl
      induction l with
      | nil => simp
      | cons y l ih =>
        have := ih fun z hz => hl z (by simp [hz])
        have h' := hl y (by simp)
        simp only [List.filter_cons]
        split <;> split <;> simp_all <;> omega
    have hx := h x (by simp)
    rcases List.mem_cons.1 ha with rfl | ha
    · have := hle l fun z hz => h z (by simp [hz])
      simp only [List.filter_cons, h1, h2]
      simp; omega
    · have := ih (fun z hz => h z (by simp [hz])) ha
      simp only [List.filter_cons]
      split <;> split <;> simp_all <;> omega

theorem cntB_lt (hn : n < A.N) {z : K} (h : P.h (A.c n) < z) : cntB P A (P.h (A.c n)) < cntB P A z := by
  refine filter_length_lt (a := n) ?_ (by simpa using hn) (by simpa using h) (by simp)
  intro x _ hx
  simp only [decide_eq_true_eq] at hx ⊢
  exact hx.trans h

theorem cntA_lt (hn : n < A.N) {z : K} (h : z < P.h (A.c n)) : cntA P A (P.h (A.c n)) < cntA P A z := by
  refine filter_length_lt (a := n) ?_ (by simpa using hn) (by simpa using h) (by simp)
  intro x _ hx
  simp only [decide_eq_true_eq] at hx ⊢
  exact h.trans hx

theorem walk_down [DecidableEq I] (hI : Inv P A) (hL : Link st A A.ups (fun _ => False) ex) (he : P.E e)
    (hT : ∀ n < A.N, A.c n ≠ e.1) (m : Nat) : ∀ {t : Nat}, t < A.M → Fits P A e t →
    (∀ n, (A.T t).up = some n → P.h e.1 < P.h (A.c n)) →
    (∀ n, (A.T t).down = some n → P.h (A.c n) < P.h e.2 ∧ cntB P A (P.h (A.c n)) < m) →
    ∃ t' ps, t' < A.M ∧ Region P A t' e.1 ∧ Passes P (EdgesOr A e) A e ps ∧
      (∀ n ∈ ps, ∀ u, (A.T t).up = some u → P.h (A.c n) < P.h (A.c u)) ∧
      ∀ fuel ≥ m + 1, st.walkC .desc e.2 e.1 fuel t = .ok (t', ps.length + 1) := by
  have hS := hL.sepD hI
  induction m with
  | zero =>
    intro t ht hf hu hd
    have hnone : (A.T t).down = none := by
      rcases h : (A.T t).down with _ | n
      · rfl
      · exact absurd (hd n h).2 (Nat.not_lt_zero _)
    obtain ⟨tt, htt⟩ := hL.ts_get ht
    have hTt := hL.tr t tt htt
    rw [hTt] at hnone
    simp only at hnone
    refine ⟨t, [], ht, hf.region hI he ht (.inl rfl) (fun n hn => by rw [hTt] at hn; simp only at hn; rw [hnone] at hn; cases hn) hu, Passes.nil, by simp, fun fuel hfu => ?_⟩
    obtain ⟨k, rfl⟩ : ∃ k, fuel = k + 1 := ⟨fuel - 1, by omega⟩
    simp only [St.walkC, getU, htt, bind, Except.bind, St.reached, hnone, if_true, List.length_nil, Nat.zero_add]
  | succ m ih =>
    intro t ht hf hu hd
    obtain ⟨tt, htt⟩ := hL.ts_get ht
    have hTt := hL.tr t tt htt
    rcases hn : (A.T t).down with _ | n
    · have hnone := hn
      rw [hTt] at hnone
      simp only at hnone
      refine ⟨t, [], ht, hf.region hI he ht (.inl rfl) (fun n hn' => by rw [hn] at hn'; cases hn') hu, Passes.nil, by simp, fun fuel hfu => ?_⟩
      obtain ⟨k, rfl⟩ : ∃ k, fuel = k + 1 := ⟨fuel - 1, by omega⟩
      simp only [St.walkC, getU, htt, bind, Except.bind, St.reached, hnone, if_true, List.length_nil, Nat.zero_add]
    · obtain ⟨hd1, hd2⟩ := hd n hn
      obtain ⟨hnN, hnm⟩ := hI.downM t ht n hn
      have hUn := hI.cU n hnN
      have hsome := hn
      rw [hTt] at hsome
      simp only at hsome
      obtain ⟨nx, hnx⟩ := hL.ns_get hnN
      have hNL := hL.nex n nx hnx
      by_cases hlt : P.h (A.c n) < P.h e.1
      · refine ⟨t, [], ht, hf.region hI he ht (.inl rfl) (fun n' hn' => by rw [hn] at hn'; cases hn'; exact hlt) hu, Passes.nil, by simp, fun fuel hfu => ?_⟩
        obtain ⟨k, rfl⟩ : ∃ k, fuel = k + 1 := ⟨fuel - 1, by omega⟩
        have hb : nx.c.ltB e.1 = true := by
          rw [hNL.c, ltB_exact, P.h_lt hUn (P.lo_U he)]; exact hlt
        simp only [St.walkC, getU, getP, htt, bind, Except.bind, St.reached, hsome, hnx, hb, if_true, List.length_nil, Nat.zero_add]
      · have hgt : P.h e.1 < P.h (A.c n) :=
          lt_of_le_of_ne (not_lt.1 hlt) fun h' => hT n hnN (P.h_inj hUn (P.lo_U he) h'.symm)
        have hen := between_entry nx .desc e.2 e.1
        simp only at hen
        rw [hNL.down, hNL.c] at hen
        have hf' := hf.next_down hI hL.real he ht hn hgt hd1 hen
        have hr := hI.rowD n hnN _ hen.mem
        obtain ⟨t', ps, ht', hreg, hps, hlt2, hrun⟩ := ih hr.1 hf' (fun n' hn' => by rw [hr.2] at hn'; cases hn'; exact hgt) (by
          intro n' hn'
          have hlt' := hI.ht _ hr.1 n n' hr.2 hn'
          have := cntB_lt (P := P) (hI.downM _ hr.1 n' hn').1 hlt'
          exact ⟨hlt'.trans hd1, by omega⟩)
        refine ⟨t', n :: ps, ht', hreg, hps.cons (fun h => lt_irrefl _ (hlt2 n h n hr.2)) hnN (hf.near_down hI hS hL.real he ht hn hgt hd1), ?_, fun fuel hfu => ?_⟩
        · intro n' hn' u hu'
          have h0 := hI.ht t ht u n hu' hn
          rcases List.mem_cons.1 hn' with rfl | hn'
          · exact h0
          · exact (hlt2 n' hn' n hr.2).trans h0
        obtain ⟨k, rfl⟩ : ∃ k, fuel = k + 1 := ⟨fuel - 1, by omega⟩
        have hb : nx.c.ltB e.1 = false := by
          rw [← Bool.not_eq_true, hNL.c, ltB_exact, P.h_lt hUn (P.lo_U he)]; exact hlt
        simp only [St.walkC, getU, getP, htt, bind, Except.bind, St.reached, hsome, hnx, hb]
        rw [hrun k (by omega)]
        rfl

theorem walk_up [DecidableEq I] (hI : Inv P A) (hL : Link st A A.ups (fun _ => False) ex) (he : P.E e)
    (hT : ∀ n < A.N, A.c n ≠ e.2) (m : Nat) : ∀ {t : Nat}, t < A.M → Fits P A e t →
    (∀ n, (A.T t).down = some n → P.h (A.c n) < P.h e.2) →
    (∀ n, (A.T t).up = some n → P.h e.1 < P.h (A.c n) ∧ cntA P A (P.h (A.c n)) < m) →
    ∃ t' ps, t' < A.M ∧ Region P A t' e.2 ∧ Passes P (EdgesOr A e) A e ps ∧
      (∀ n ∈ ps, ∀ u, (A.T t).down = some u → P.h (A.c u) < P.h (A.c n)) ∧
      ∀ fuel ≥ m + 1, st.walkC .asc e.1 e.2 fuel t = .ok (t', ps.length + 1) := by
  have hS := hL.sepD hI
  induction m with
  | zero =>
    intro t ht hf hu hd
    have hnone : (A.T t).up = none := by
      rcases h : (A.T t).up with _ | n
      · rfl
      · exact absurd (hd n h).2 (Nat.not_lt_zero _)
    obtain ⟨tt, htt⟩ := hL.ts_get ht
    have hTt := hL.tr t tt htt
    rw [hTt] at hnone
    simp only at hnone
    refine ⟨t, [], ht, hf.region hI he ht (.inr rfl) hu (fun n hn => by rw [hTt] at hn; simp only at hn; rw [hnone] at hn; cases hn), Passes.nil, by simp, fun fuel hfu => ?_⟩
    obtain ⟨k, rfl⟩ : ∃ k, fuel = k + 1 := ⟨fuel - 1, by omega⟩
    simp only [St.walkC, getU, htt, bind, Except.bind, St.reached, hnone, if_true, List.length_nil, Nat.zero_add]
  | succ m ih =>
    intro t ht hf hu hd
    obtain ⟨tt, htt⟩ := hL.ts_get ht
    have hTt := hL.tr t tt htt
    rcases hn : (A.T t).up with _ | n
    · have hnone := hn
      rw [hTt] at hnone
      simp only at hnone
      refine ⟨t, [], ht, hf.region hI he ht (.inr rfl) hu (fun n hn' => by rw [hn] at hn'; cases hn'), Passes.nil, by simp, fun fuel hfu => ?_⟩
      obtain ⟨k, rfl⟩ : ∃ k, fuel = k + 1 := ⟨fuel - 1, by omega⟩
      simp only [St.walkC, getU, htt, bind, Except.bind, St.reached, hnone, if_true, List.length_nil, Nat.zero_add]
    · obtain ⟨hd1, hd2⟩ := hd n hn
      obtain ⟨hnN, hnm⟩ := hI.upM t ht n hn
      have hUn := hI.cU n hnN
      have hsome := hn
      rw [hTt] at hsome
      simp only at hsome
      obtain ⟨nx, hnx⟩ := hL.ns_get hnN
      have hNL := hL.nex n nx hnx
      by_cases hlt : P.h e.2 < P.h (A.c n)
      · refine ⟨t, [], ht, hf.region hI he ht (.inr rfl) hu (fun n' hn' => by rw [hn] at hn'; cases hn'; exact hlt), Passes.nil, by simp, fun fuel hfu => ?_⟩
        obtain ⟨k, rfl⟩ : ∃ k, fuel = k + 1 := ⟨fuel - 1, by omega⟩
        have hb : nx.c.gtB e.2 = true := by
          rw [hNL.c, gtB_exact, P.h_lt (P.hi_U he) hUn]; exact hlt
        simp only [St.walkC, getU, getP, htt, bind, Except.bind, St.reached, hsome, hnx, hb, if_true, List.length_nil, Nat.zero_add]
      · have hgt : P.h (A.c n) < P.h e.2 :=
          lt_of_le_of_ne (not_lt.1 hlt) fun h' => hT n hnN (P.h_inj hUn (P.hi_U he) h')
        have hen := between_entry nx .asc e.1 e.2
        simp only at hen
        rw [hNL.up, hNL.c] at hen
        have hf' := hf.next_up hI hL.real he ht hn hd1 hgt hen
        have hr := hI.rowU n hnN _ hen.mem
        obtain ⟨t', ps, ht', hreg, hps, hlt2, hrun⟩ := ih hr.1 hf' (fun n' hn' => by rw [hr.2] at hn'; cases hn'; exact hgt) (by
          intro n' hn'
          have hlt' := hI.ht _ hr.1 n' n hn' hr.2
          have := cntA_lt (P := P) (hI.upM _ hr.1 n' hn').1 hlt'
          exact ⟨hd1.trans hlt', by omega⟩)
        refine ⟨t', n :: ps, ht', hreg, hps.cons (fun h => lt_irrefl _ (hlt2 n h n hr.2)) hnN (hf.near_up hI hS hL.real he ht hn hd1 hgt), ?_, fun fuel hfu => ?_⟩
        · intro n' hn' u hu'
          have h0 := hI.ht t ht n u hn hu'
          rcases List.mem_cons.1 hn' with rfl | hn'
          · exact h0
          · exact h0.trans (hlt2 n' hn' n hr.2)
        obtain ⟨k, rfl⟩ : ∃ k, fuel = k + 1 := ⟨fuel - 1, by omega⟩
        have hb : nx.c.gtB e.2 = false := by
          rw [← Bool.not_eq_true, hNL.c, gtB_exact, P.h_lt (P.hi_U he) hUn]; exact hlt
        simp only [St.walkC, getU, getP, htt, bind, Except.bind, St.reached, hsome, hnx, hb]
        rw [hrun k (by omega)]
        rfl

/-- The end of an edge from which one looks in a direction, and the other one. -/
def nearEnd (e : Coords K × Coords K) : Dir → Coords K
  | .asc => e.1
  | .desc => e.2

def farEnd (e : Coords K × Coords K) : Dir → Coords K
  | .asc => e.2
  | .desc => e.1

/-- Two distinct edges with a common end. -/
theorem end_cases {e f : Coords K × Coords K} (he : P.E e) (hf : P.E f) (hne : e ≠ f) (dir : Dir)
    (h : nearEnd e dir = nearEnd f dir) :
    (isLeftOfLine f.1 f.2 (farEnd e dir) = true ∧ P.Lt e f) ∨
    (isLeftOfLine f.1 f.2 (farEnd e dir) = false ∧ P.Lt f e) := by
  cases dir with
  | desc =>
    rcases hi_cases he hf hne h with ⟨-, h1, h2⟩ | ⟨-, h1, h2⟩
    · exact .inr ⟨h1, h2⟩
    · exact .inl ⟨h1, h2⟩
  | asc =>
    have h1 : e.1 = f.1 := h
    obtain ⟨m, hm, h2, h3, h4⟩ : ∃ m, P.U m ∧ P.h m ≤ P.h e.2 ∧ P.h m ≤ P.h f.2 ∧ P.h e.1 < P.h m := by
      rcases le_total (P.h e.2) (P.h f.2) with h | h
      · exact ⟨e.2, P.hi_U he, le_refl _, h, P.E_lt he⟩
      · exact ⟨f.2, P.hi_U hf, h, le_refl _, by rw [h1]; exact P.E_lt hf⟩
    have h5 : P.h f.1 < P.h m := by rw [← h1]; exact h4
    have hX : P.X e m ≠ P.X f m := by
      intro hx
      obtain ⟨b1, b2⟩ := P.nc_eq he hf hne hm h4.le h2 h5.le h3 hx
      have c1 := b1.resolve_left (Plane.ne_of_h' h4)
      have c2 := b2.resolve_left (Plane.ne_of_h' h5)
      exact hne (Prod.ext h1 (c1.symm.trans c2))
    rcases lt_or_gt_of_ne hX with h' | h'
    · have hlt : P.Lt e f := ⟨m, hm, ⟨h4.le, h2⟩, ⟨h5.le, h3⟩, h'⟩
      exact .inl ⟨(lo_cases he hf h1 hlt).2, hlt⟩
    · have hlt : P.Lt f e := ⟨m, hm, ⟨h5.le, h3⟩, ⟨h4.le, h2⟩, h'⟩
      exact .inr ⟨(lo_cases hf he h1.symm hlt).1, hlt⟩

theorem nearEnd_X (he : P.E e) (dir : Dir) : P.X e (nearEnd e dir) = (nearEnd e dir).x := by
  cases dir
  · exact P.X_lo he
  · exact P.X_hi he

theorem nearEnd_In (he : P.E e) (dir : Dir) : P.In e (nearEnd e dir) := by
  cases dir
  · exact Plane.In.lo he
  · exact Plane.In.hi he

/-- `get_trapezoid_toward_coords`: the trapezoid next to a vertex that an edge from there enters. -/
theorem toward_run [DecidableEq I] (hI : Inv P A) (hL : Link st A A.ups (fun _ => False) ex) (he : P.E e)
    (hnew : ∀ i < A.S, A.sg i ≠ e) (dir : Dir) (hc : A.c n = nearEnd e dir) {nx : Nexus I K}
    (hnx : st.ns[n]? = some nx) :
    ∃ t, nx.getTrapezoidTowardCoords st.ss st.ns dir (farEnd e dir) = .ok t ∧ t ∈ A.row dir n ∧ Fits P A e t := by
  have hNL := hL.nex n nx hnx
  have hn := hL.lt_N hnx
  obtain ⟨L, R, hN⟩ := hI.nex n hn
  have hpath : Path A.T L (A.row dir n) R := by
    cases dir
    · exact hN.pathU
    · exact hN.pathD
  have hrow : ∀ t ∈ A.row dir n, t < A.M := by
    cases dir
    · exact fun t ht => (hI.rowU n hn t ht).1
    · exact fun t ht => (hI.rowD n hn t ht).1
  have hiter : nx.leftmost dir :: (nx.divs dir).map (·.tiRight) = A.row dir n := by
    rw [← Nexus.iter_eq, hNL.row]; cases dir <;> rfl
  have h0 : P.X e (A.c n) = (A.c n).x := by rw [hc]; exact nearEnd_X he dir
  have hinE : P.In e (A.c n) := by rw [hc]; exact nearEnd_In he dir
  have hLlt : ∀ l, L = some l → l < A.S → P.Lt (A.sg l) e := by
    intro l hl hS
    obtain ⟨g1, g2, g3⟩ := hN.passL l hl
    exact ⟨A.c n, hI.cU n hn, ⟨by linarith [(hI.mnN l hS).2.1], g2.le⟩, hinE, by rw [h0]; exact g3⟩
  have hRlt : ∀ r, R = some r → r < A.S → P.Lt e (A.sg r) := by
    intro l hl hS
    obtain ⟨g1, g2, g3⟩ := hN.passR l hl
    exact ⟨A.c n, hI.cU n hn, hinE, ⟨by linarith [(hI.mnN l hS).2.1], g2.le⟩, by rw [h0]; exact g3⟩
  have htwo : ∀ d0 d1, nx.dividers ≠ .two d0 d1 := fun d0 d1 =>
    hNL.not_two hI hL.real he (by cases dir <;> [left; right] <;> exact hc) fun x hx => hnew _ (hNL.divs x hx).1
  have hcase : (nx.filterDividers dir = .zero ∧ nx.divs dir = []) ∨
      ∃ d0, nx.filterDividers dir = .one d0 ∧ nx.divs dir = [d0] ∧ d0 ∈ nx.dividers.toList ∧ d0.dir = dir := by
    have h1 := Nexus.filterDividers_toList nx dir
    rcases hz : nx.dividers with _ | d0 | ⟨d0, d1⟩
    · have : nx.divs dir = [] := by simp [Nexus.divs, hz, Zot.toList]
      rw [this] at h1
      rcases hf : nx.filterDividers dir with _ | a | ⟨a, b⟩ <;> rw [hf] at h1 <;> simp [Zot.toList] at h1
      exact .inl ⟨rfl, this⟩
    · by_cases hd : d0.dir = dir
      · have : nx.divs dir = [d0] := by simp [Nexus.divs, hz, Zot.toList, hd]
        rw [this] at h1
        rcases hf : nx.filterDividers dir with _ | a | ⟨a, b⟩ <;> rw [hf] at h1 <;> simp [Zot.toList] at h1
        subst h1
        exact .inr ⟨a, rfl, this, by simp [Zot.toList], hd⟩
      · have : nx.divs dir = [] := by simp [Nexus.divs, hz, Zot.toList, hd]
        rw [this] at h1
        rcases hf : nx.filterDividers dir with _ | a | ⟨a, b⟩ <;> rw [hf] at h1 <;> simp [Zot.toList] at h1
        exact .inl ⟨rfl, this⟩
    · exact absurd hz (htwo _ _)
  unfold Nexus.getTrapezoidTowardCoords
  rcases hcase with ⟨h1, h2⟩ | ⟨d0, h1, h2, h3, h4⟩
  · rw [h2] at hiter
    rw [h1, ← hiter]
    rw [← hiter] at hpath
    have hM := hrow (nx.leftmost dir) (by rw [← hiter]; simp)
    exact ⟨_, rfl, by simp, fun l hl => hLlt l (by rw [← hpath.1]; exact hl) (hI.leftS _ hM l hl),
      fun r hr => hRlt r (by rw [← hpath.2]; exact hr) (hI.rightS _ hM r hr)⟩
  · rw [h2] at hiter
    simp only [List.map_cons, List.map_nil] at hiter
    have hM1 := hrow (nx.leftmost dir) (by rw [← hiter]; simp)
    have hM2 := hrow d0.tiRight (by rw [← hiter]; simp)
    rw [h1, ← hiter]
    rw [← hiter] at hpath
    obtain ⟨hS, hT⟩ := hNL.divs d0 h3
    obtain ⟨s, hs⟩ := hL.ss_get hS
    obtain ⟨q1, q2, q3, q4⟩ := hL.seg _ s hs
    obtain ⟨nMin, hmin⟩ := hL.ns_get q3
    obtain ⟨nMax, hmax⟩ := hL.ns_get (show s.niMax < A.N by rw [q2]; exact (hI.mxN _ hS).1)
    have c1 : nMin.c = (A.sg d0.si).1 := by rw [(hL.nex _ _ hmin).c, q4]
    have c2 : nMax.c = (A.sg d0.si).2 := by rw [(hL.nex _ _ hmax).c, q2, (hI.mxN _ hS).2]
    have hnear : nearEnd e dir = nearEnd (A.sg d0.si) dir := by
      rw [← hc]
      cases dir
      · have := hL.real _ hS (fun h => h)
        rw [(hNL.asc d0 h3 h4).1] at this; exact this
      · have := (hI.mxN _ hS).2
        rw [hNL.desc d0 h3 h4] at this; exact this
    simp only [getP, hs, hmin, hmax, bind, Except.bind, c1, c2]
    rcases end_cases he (hI.sE _ hS) (Ne.symm (hnew _ hS)) dir hnear with ⟨g1, g2⟩ | ⟨g1, g2⟩
    · refine ⟨nx.leftmost dir, by rw [g1]; rfl, by simp, fun l hl => hLlt l (by rw [← hpath.1]; exact hl) (hI.leftS _ hM1 l hl), ?_⟩
      intro r hr
      rw [← hpath.2.1, hT] at hr
      cases hr; exact g2
    · refine ⟨d0.tiRight, by rw [g1]; rfl, by simp, ?_, fun r hr => hRlt r (by rw [← hpath.2.2]; exact hr) (hI.rightS _ hM2 r hr)⟩
      intro l hl
      rw [hT] at hl
      cases hl; exact g2

/-- A trapezoid that contains one end of an edge. -/
theorem Region.fits (hI : Inv P A) (he : P.E e) (ht : t < A.M) {v : Coords K} (hv : v = e.1 ∨ v = e.2)
    (hr : Region P A t v) : Fits P A e t := by
  have hU : P.U v := by rcases hv with rfl | rfl; exacts [P.lo_U he, P.hi_U he]
  have hin : P.In e v := by rcases hv with rfl | rfl; exacts [Plane.In.lo he, Plane.In.hi he]
  have hX : P.X e v = v.x := by rcases hv with rfl | rfl; exacts [P.X_lo he, P.X_hi he]
  refine ⟨fun l hl => ?_, fun l hl => ?_⟩
  · obtain ⟨b1, b2⟩ := hI.bnd t ht (.inl (by rw [hl]; simp))
    obtain ⟨u, hu⟩ := Option.ne_none_iff_exists'.1 b1
    obtain ⟨d, hd⟩ := Option.ne_none_iff_exists'.1 b2
    have hS := hI.leftS t ht l hl
    have hsp := hI.left_span ht hl hu hd
    have hm := hI.mnN l hS
    exact ⟨v, hU, ⟨by linarith [hm.2.1, hr.down d hd], by linarith [hr.up u hu]⟩, hin, by rw [hX]; exact hr.left l hl⟩
  · obtain ⟨b1, b2⟩ := hI.bnd t ht (.inr (by rw [hl]; simp))
    obtain ⟨u, hu⟩ := Option.ne_none_iff_exists'.1 b1
    obtain ⟨d, hd⟩ := Option.ne_none_iff_exists'.1 b2
    have hS := hI.rightS t ht l hl
    have hsp := hI.right_span ht hl hu hd
    have hm := hI.mnN l hS
    exact ⟨v, hU, hin, ⟨by linarith [hm.2.1, hr.down d hd], by linarith [hr.up u hu]⟩, by rw [hX]; exact hr.right l hl⟩

/-- Where the relocation stands: at the point `v`. -/
def LocAt (P : Plane K) (A : Abs K) (v : Coords K) : St.Loc → Prop
  | .nexus ni => ni < A.N ∧ A.c ni = v
  | .trapezoid ti => ti < A.M ∧ Region P A ti v

/-- From the near end of an edge to the trapezoid that contains the far end. -/
theorem walk_run [DecidableEq I] (hI : Inv P A) (hL : Link st A A.ups (fun _ => False) ex) (he : P.E e) (dir : Dir)
    (hT : ∀ n < A.N, A.c n ≠ farEnd e dir) {loc : St.Loc} (hloc : LocAt P A (nearEnd e dir) loc) :
    ∃ t t' N ps, t' < A.M ∧ Region P A t' (farEnd e dir) ∧ St.startTrapezoid st loc dir (farEnd e dir) = .ok t ∧
      Passes P (EdgesOr A e) A e ps ∧
      ∀ fuel ≥ N, st.walkC dir (nearEnd e dir) (farEnd e dir) fuel t = .ok (t', ps.length + 1) := by
  have hnew : ∀ i < A.S, A.sg i ≠ e := by
    intro i hi h
    cases dir
    · exact hT _ (hI.mxN i hi).1 (by rw [(hI.mxN i hi).2, h]; rfl)
    · exact hT _ (hI.mnN i hi).1 (by rw [hL.real i hi (fun h => h), h]; rfl)
  obtain ⟨t, ht, hf, hst, hh⟩ : ∃ t, t < A.M ∧ Fits P A e t ∧ St.startTrapezoid st loc dir (farEnd e dir) = .ok t ∧
      (Region P A t (nearEnd e dir) ∨ ∃ n, A.c n = nearEnd e dir ∧ t ∈ A.row dir n ∧ n < A.N) := by
    cases loc with
    | nexus ni =>
      obtain ⟨h1, h2⟩ := hloc
      obtain ⟨nx, hnx⟩ := hL.ns_get h1
      obtain ⟨t, g1, g2, g3⟩ := toward_run hI hL he hnew dir h2 hnx
      refine ⟨t, ?_, g3, ?_, .inr ⟨ni, h2, g2, h1⟩⟩
      · cases dir
        · exact (hI.rowU _ h1 t g2).1
        · exact (hI.rowD _ h1 t g2).1
      · simp only [St.startTrapezoid, getU, hnx, bind, Except.bind, g1]
    | trapezoid ti =>
      obtain ⟨h1, h2⟩ := hloc
      exact ⟨ti, h1, h2.fits hI he h1 (by cases dir <;> simp [nearEnd]), rfl, .inl h2⟩
  have hlt := P.E_lt he
  cases dir with
  | asc =>
    simp only [nearEnd, farEnd] at hh hT ⊢
    obtain ⟨t', ps, h1, h2, h4, -, h3⟩ := walk_up hI hL he hT (A.N + 1) ht hf (by
      intro n hn
      rcases hh with hh | ⟨m, hm, hm', hmN⟩
      · exact (hh.down n hn).trans hlt
      · rw [(hI.rowU m hmN t hm').2] at hn; cases hn
        rw [hm]; exact hlt) (by
      intro n hn
      refine ⟨?_, ?_⟩
      · rcases hh with hh | ⟨m, hm, hm', hmN⟩
        · exact hh.up n hn
        · rw [← hm]; exact hI.ht t ht n m hn (hI.rowU m hmN t hm').2
      · exact Nat.lt_succ_of_le (le_trans (List.length_filter_le _ _) (by simp)))
    exact ⟨t, t', _, ps, h1, h2, hst, h4, h3⟩
  | desc =>
    simp only [nearEnd, farEnd] at hh hT ⊢
    obtain ⟨t', ps, h1, h2, h4, -, h3⟩ := walk_down hI hL he hT (A.N + 1) ht hf (by
      intro n hn
      rcases hh with hh | ⟨m, hm, hm', hmN⟩
      · exact hlt.trans (hh.up n hn)
      · rw [(hI.rowD m hmN t hm').2] at hn; cases hn
        rw [hm]; exact hlt) (by
      intro n hn
      refine ⟨?_, ?_⟩
      · rcases hh with hh | ⟨m, hm, hm', hmN⟩
        · exact hh.down n hn
        · rw [← hm]; exact hI.ht t ht m n (hI.rowD m hmN t hm').2 hn
      · exact Nat.lt_succ_of_le (le_trans (List.length_filter_le _ _) (by simp)))
    exact ⟨t, t', _, ps, h1, h2, hst, h4, h3⟩

end Tri
