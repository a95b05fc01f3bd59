import Verif.Proof.Turns

/-!
# Counting the trapezoids of the interior
-/

set_option linter.unusedSectionVars false

namespace Tri

variable {I V K : Type} [Field K] [LinearOrder K] [IsStrictOrderedRing K]

attribute [local instance] exact

variable {P : Plane K} {p : PolyList I V} {xy : V → Coords K} {A : Abs K} {st : St I K} {key : Nat → I × Coords K}
  {lab sgn : Nat → Bool} {ε : K}

theorem lt_hi (hh : P.h = ht ε) (hX : P.X = fun e v => Xh ε e (ht ε v)) {e f : Coords K × Coords K} (he : P.E e)
    (hf : P.E f) (hlt : P.Lt e f) (h2 : e.2 = f.2) : 0 < orient f.1 f.2 e.1 := by
  have he' := P.E_lt he
  have hf' := P.E_lt hf
  have hne : e.1 ≠ f.1 := fun h => hlt.ne (Prod.ext h h2)
  rcases le_or_gt (P.h f.1) (P.h e.1) with h | h
  · have := hlt.lt he hf (P.lo_U he) (Plane.In.lo he) ⟨h, by rw [← h2]; exact he'.le⟩
      (.inr ⟨hne, by rw [← h2]; exact Plane.ne_of_h he'⟩)
    rw [P.X_lo he, hX] at this
    rw [hh] at hf'
    exact (orient_Xh hf' _).2 this
  · have := hlt.lt he hf (P.lo_U hf) ⟨h.le, by rw [h2]; exact hf'.le⟩ (Plane.In.lo hf)
      (.inl ⟨hne.symm, by rw [h2]; exact Plane.ne_of_h hf'⟩)
    rw [P.X_lo hf, hX] at this
    rw [hh] at he'
    have k := (orient_Xh_neg he' _).2 this
    have e1 : orient e.1 e.2 f.1 = - orient f.1 f.2 e.1 := by rw [h2]; unfold orient; ring
    linarith

theorem lt_lo (hh : P.h = ht ε) (hX : P.X = fun e v => Xh ε e (ht ε v)) {e f : Coords K × Coords K} (he : P.E e)
    (hf : P.E f) (hlt : P.Lt e f) (h1 : e.1 = f.1) : 0 < orient f.1 f.2 e.2 := by
  have he' := P.E_lt he
  have hf' := P.E_lt hf
  have hne : e.2 ≠ f.2 := fun h => hlt.ne (Prod.ext h1 h)
  rcases le_or_gt (P.h e.2) (P.h f.2) with h | h
  · have := hlt.lt he hf (P.hi_U he) (Plane.In.hi he) ⟨by rw [← h1]; exact he'.le, h⟩
      (.inr ⟨by rw [← h1]; exact Plane.ne_of_h' he', hne⟩)
    rw [P.X_hi he, hX] at this
    rw [hh] at hf'
    exact (orient_Xh hf' _).2 this
  · have := hlt.lt he hf (P.hi_U hf) ⟨by rw [h1]; exact hf'.le, h.le⟩ (Plane.In.hi hf)
      (.inl ⟨by rw [h1]; exact Plane.ne_of_h' hf', hne.symm⟩)
    rw [P.X_hi hf, hX] at this
    rw [hh] at he'
    have k := (orient_Xh_neg he' _).2 this
    have e1 : orient e.1 e.2 f.2 = - orient f.1 f.2 e.2 := by rw [h1]; unfold orient; ring
    linarith

theorem turnR_cap {a b c : Coords K} (h1 : below a b) (h2 : below c b) : turnR a b c = if orient a b c < 0 then -1 else 0 := by
  have ua := up_vec.2 h1
  have dc := up_neg.1 (up_vec.2 h2)
  unfold turnR crR
  rw [det_vec]
  simp [ua, dc, ua.not_dn]

theorem turnR_cup {a b c : Coords K} (h1 : below b a) (h2 : below b c) : turnR a b c = if 0 < orient a b c then 1 else 0 := by
  have ua := up_neg.1 (up_vec.2 h1)
  have dc := up_vec.2 h2
  unfold turnR crR
  rw [det_vec]
  simp [ua, dc, ua.not_up]

theorem turnR_up {a b c : Coords K} (h1 : below a b) (h2 : below b c) : turnR a b c = 0 := by
  have ua := up_vec.2 h1
  have dc := up_vec.2 h2
  unfold turnR crR
  simp [ua.not_dn, dc.not_dn]

theorem turnR_down {a b c : Coords K} (h1 : below b a) (h2 : below c b) : turnR a b c = 0 := by
  have ua := up_neg.1 (up_vec.2 h1)
  have dc := up_neg.1 (up_vec.2 h2)
  unfold turnR crR
  simp [ua.not_up, dc.not_up]

/-- Around a vertex: an edge that comes in, one that goes out, and the trapezoids of the interior beneath. -/
theorem Dfs.vertex (D : Dfs P p xy A st key lab sgn) (hh : P.h = ht ε) (hX : P.X = fun e v => Xh ε e (ht ε v)) {n : Nat}
    (hn : n < A.N) :
    ∃ s < A.S, ∃ s' < A.S, (dirE A key sgn s).2 = key n ∧ (dirE A key sgn s').1 = key n ∧
      (((A.downs n).filter lab).length : Int) = 1 - turnR (dirE A key sgn s).1.2 (key n).2 (dirE A key sgn s').2.2 ∧
      ((∀ m < A.N, ¬ P.h (A.c m) < P.h (A.c n)) → 0 < orient (dirE A key sgn s).1.2 (key n).2 (dirE A key sgn s').2.2) := by
  have W := D.whole
  have hI := W.inv
  have kmx : ∀ s < A.S, (key (A.mx s)).2 = (A.sg s).2 := fun s hs => by rw [D.keyc _ (hI.mxN s hs).1, (hI.mxN s hs).2]
  have kmn : ∀ s < A.S, (key (A.mn s)).2 = (A.sg s).1 := fun s hs => by rw [D.keyc _ (hI.mnN s hs).1, W.mnC s hs]
  have hlo : ∀ s < A.S, below (A.sg s).1 (A.sg s).2 := fun s hs =>
    (P.h_lt (P.lo_U (hI.sE s hs)) (P.hi_U (hI.sE s hs))).2 (P.E_lt (hI.sE s hs))
  have dT : ∀ s, sgn s = true → dirE A key sgn s = (key (A.mx s), key (A.mn s)) := fun s h => by simp [dirE, h]
  have dF : ∀ s, sgn s = false → dirE A key sgn s = (key (A.mn s), key (A.mx s)) := fun s h => by simp [dirE, h]
  rcases W.kind n hn with ⟨u, dl, dc, dr, s0, s1, k⟩ | ⟨ul, ur, dl, dr, s0, s1, k⟩ | ⟨ul, uc, ur, d, s0, s1, k⟩
  · have hdc : dc < A.M := (hI.rowD n hn dc (by rw [k.downs]; simp)).1
    have hlt := hI.lr dc hdc s0 s1 k.c0 k.c1
    have v0 : (A.sg s0).2 = (key n).2 := by rw [← k.mx0, kmx s0 k.S0]
    have v1 : (A.sg s1).2 = (key n).2 := by rw [← k.mx1, kmx s1 k.S1]
    have ho := lt_hi hh hX (hI.sE s0 k.S0) (hI.sE s1 k.S1) hlt (v0.trans v1.symm)
    rw [v1] at ho
    have b0 := hlo s0 k.S0
    have b1 := hlo s1 k.S1
    rw [v0] at b0
    rw [v1] at b1
    have l := D.labs.at_A hn k
    have g0 := D.sgns.left dc hdc s0 k.c0
    have g1 := D.sgns.right dc hdc s1 k.c1
    have hnot : ¬ ∀ m < A.N, ¬ P.h (A.c m) < P.h (A.c n) := by
      intro hall
      refine hall (A.mn s0) (hI.mnN s0 k.S0).1 ?_
      have := (hI.mnN s0 k.S0).2.2
      rwa [v0, D.keyc n hn] at this
    cases hu : lab u
    · -- inside between
      rw [hu] at l
      rw [l.2.1] at g0 g1
      have t0 : sgn s0 = true := by simpa using g0.symm
      have t1 : sgn s1 = false := by simpa using g1.symm
      refine ⟨s1, k.S1, s0, k.S0, by rw [dF _ t1, k.mx1], by rw [dT _ t0, k.mx0], ?_, fun h => absurd h hnot⟩
      rw [dF _ t1, dT _ t0]
      simp only [kmn s1 k.S1, kmn s0 k.S0]
      rw [turnR_cap b1 b0, if_neg (not_lt.2 ho.le), k.downs]
      simp [l.1, l.2.1, l.2.2]
    · rw [hu] at l
      rw [l.2.1] at g0 g1
      have t0 : sgn s0 = false := by simpa using g0.symm
      have t1 : sgn s1 = true := by simpa using g1.symm
      refine ⟨s0, k.S0, s1, k.S1, by rw [dF _ t0, k.mx0], by rw [dT _ t1, k.mx1], ?_, fun h => absurd h hnot⟩
      rw [dF _ t0, dT _ t1]
      simp only [kmn s1 k.S1, kmn s0 k.S0]
      have ho' : orient (A.sg s0).1 (key n).2 (A.sg s1).1 < 0 := by
        have : orient (A.sg s0).1 (key n).2 (A.sg s1).1 = - orient (A.sg s1).1 (key n).2 (A.sg s0).1 := by unfold orient; ring
        linarith
      rw [turnR_cap b0 b1, if_pos ho', k.downs]
      simp [l.1, l.2.1, l.2.2]
  · have hul : ul < A.M := (hI.rowU n hn ul (by rw [k.ups]; simp)).1
    have hdl : dl < A.M := (hI.rowD n hn dl (by rw [k.downs]; simp)).1
    have v0 : (A.sg s0).1 = (key n).2 := by rw [← k.mn0, kmn s0 k.S0]
    have v1 : (A.sg s1).2 = (key n).2 := by rw [← k.mx1, kmx s1 k.S1]
    have b0 := hlo s0 k.S0
    have b1 := hlo s1 k.S1
    rw [v0] at b0
    rw [v1] at b1
    have l := D.labs.at_I hn k
    have g0 := D.sgns.right ul hul s0 k.ul0
    have g1 := D.sgns.right dl hdl s1 k.dl1
    have hnot : ¬ ∀ m < A.N, ¬ P.h (A.c m) < P.h (A.c n) := by
      intro hall
      refine hall (A.mn s1) (hI.mnN s1 k.S1).1 ?_
      have := (hI.mnN s1 k.S1).2.2
      rwa [v1, D.keyc n hn] at this
    rw [l.2.1] at g1
    cases hu : lab ul
    · rw [hu] at l g0 g1
      have t0 : sgn s0 = true := by simpa using g0
      have t1 : sgn s1 = true := by simpa using g1
      refine ⟨s0, k.S0, s1, k.S1, by rw [dT _ t0, k.mn0], by rw [dT _ t1, k.mx1], ?_, fun h => absurd h hnot⟩
      rw [dT _ t0, dT _ t1]
      simp only [kmn s1 k.S1, kmx s0 k.S0]
      rw [turnR_down b0 b1, k.downs]
      simp [l.2.1, l.2.2]
    · rw [hu] at l g0 g1
      have t0 : sgn s0 = false := by simpa using g0
      have t1 : sgn s1 = false := by simpa using g1
      refine ⟨s1, k.S1, s0, k.S0, by rw [dF _ t1, k.mx1], by rw [dF _ t0, k.mn0], ?_, fun h => absurd h hnot⟩
      rw [dF _ t0, dF _ t1]
      simp only [kmn s1 k.S1, kmx s0 k.S0]
      rw [turnR_up b1 b0, k.downs]
      simp [l.2.1, l.2.2]
  · have huc : uc < A.M := (hI.rowU n hn uc (by rw [k.ups]; simp)).1
    have hd : d < A.M := (hI.rowD n hn d (by rw [k.downs]; simp)).1
    have hlt := hI.lr uc huc s0 s1 k.c0 k.c1
    have v0 : (A.sg s0).1 = (key n).2 := by rw [← k.mn0, kmn s0 k.S0]
    have v1 : (A.sg s1).1 = (key n).2 := by rw [← k.mn1, kmn s1 k.S1]
    have ho := lt_lo hh hX (hI.sE s0 k.S0) (hI.sE s1 k.S1) hlt (v0.trans v1.symm)
    rw [v1] at ho
    have b0 := hlo s0 k.S0
    have b1 := hlo s1 k.S1
    rw [v0] at b0
    rw [v1] at b1
    have l := D.labs.at_V hn k
    have g0 := D.sgns.left uc huc s0 k.c0
    have g1 := D.sgns.right uc huc s1 k.c1
    have ho' : 0 < orient (A.sg s0).2 (key n).2 (A.sg s1).2 := by
      have : orient (A.sg s0).2 (key n).2 (A.sg s1).2 = orient (key n).2 (A.sg s1).2 (A.sg s0).2 := by unfold orient; ring
      linarith
    cases hu : lab ul
    · rw [hu] at l
      rw [l.1] at g0 g1
      have t0 : sgn s0 = true := by simpa using g0.symm
      have t1 : sgn s1 = false := by simpa using g1.symm
      refine ⟨s0, k.S0, s1, k.S1, by rw [dT _ t0, k.mn0], by rw [dF _ t1, k.mn1], ?_, fun _ => ?_⟩
      · rw [dF _ t1, dT _ t0]
        simp only [kmx s1 k.S1, kmx s0 k.S0]
        rw [turnR_cup b0 b1, if_pos ho', k.downs]
        simp [l.2.2]
      · rw [dF _ t1, dT _ t0]
        simp only [kmx s1 k.S1, kmx s0 k.S0]
        exact ho'
    · rw [hu] at l
      rw [l.1] at g0 g1
      have t0 : sgn s0 = false := by simpa using g0.symm
      have t1 : sgn s1 = true := by simpa using g1.symm
      have ho2 : ¬ 0 < orient (A.sg s1).2 (key n).2 (A.sg s0).2 := by
        have : orient (A.sg s1).2 (key n).2 (A.sg s0).2 = - orient (A.sg s0).2 (key n).2 (A.sg s1).2 := by unfold orient; ring
        linarith
      refine ⟨s1, k.S1, s0, k.S0, by rw [dT _ t1, k.mn1], by rw [dF _ t0, k.mn0], ?_, fun hall => ?_⟩
      · rw [dT _ t1, dF _ t0]
        simp only [kmx s1 k.S1, kmx s0 k.S0]
        rw [turnR_cup b1 b0, if_neg ho2, k.downs]
        simp [l.2.2]
      · exfalso
        have hl : (A.T d).left = none := by
          rcases hdn : (A.T d).down with _ | m
          · exact (W.down_none hd hdn).1
          · obtain ⟨hm, -⟩ := hI.downM d hd m hdn
            have hup := (hI.rowD n hn d (by rw [k.downs]; simp)).2
            exact absurd (hI.ht d hd n m hup hdn) (hall m hm)
        have := D.labs.left d hd hl
        rw [l.2.2] at this
        cases this

theorem sum_map_congr {α : Type} {f g : α → Int} {l : List α} (h : ∀ a ∈ l, f a = g a) : (l.map f).sum = (l.map g).sum := by
  rw [List.map_congr_left h]

/-- The trapezoids of the interior, by the vertices at their upper ends. -/
theorem Dfs.inside_count (D : Dfs P p xy A st key lab sgn) :
    (((List.range A.M).filter lab).length : Int) =
      ((List.range A.N).map fun n => (((A.downs n).filter lab).length : Int)).sum := by
  have hI := D.whole.inv
  have hp : ((List.range A.M).filter lab).Perm ((List.range A.N).flatMap fun n => (A.downs n).filter lab) := by
    refine (List.perm_ext_iff_of_nodup (List.nodup_range.filter _) ?_).2 fun i => ?_
    · rw [List.nodup_flatMap]
      refine ⟨fun n hn => ?_, ?_⟩
      · obtain ⟨L, R, hx⟩ := hI.nex n (List.mem_range.1 hn)
        exact hx.nodupD.filter _
      · refine (List.nodup_range (n := A.N)).imp_of_mem ?_
        intro n m hn hm hne i h1 h2
        have e1 := (hI.rowD n (List.mem_range.1 hn) i (List.mem_of_mem_filter h1)).2
        have e2 := (hI.rowD m (List.mem_range.1 hm) i (List.mem_of_mem_filter h2)).2
        rw [e1] at e2
        exact hne (Option.some.inj e2)
    · simp only [List.mem_filter, List.mem_range, List.mem_flatMap]
      constructor
      · rintro ⟨hi, hl⟩
        rcases hu : (A.T i).up with _ | u
        · rw [D.labs.top i hi hu] at hl; cases hl
        · obtain ⟨h1, h2⟩ := hI.upM i hi u hu
          exact ⟨u, h1, h2, hl⟩
      · rintro ⟨n, hn, h1, h2⟩
        exact ⟨(hI.rowD n hn i h1).1, h2⟩
  rw [hp.length_eq, List.length_flatMap]
  generalize List.range A.N = l
  induction l with
  | nil => rfl
  | cons a l ih => simp only [List.map_cons, List.sum_cons, ← ih]; push_cast; rfl

end Tri
