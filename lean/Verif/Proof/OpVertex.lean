import Verif.Proof.Rows

/-!
# Inserting a vertex keeps the invariant
-/

set_option linter.unusedSectionVars false

namespace Tri

variable {K : Type} [Field K] [LinearOrder K] [IsStrictOrderedRing K]

namespace Abs
variable {A : Abs K} {v : Coords K} {t : Nat}

theorem addV_c_old {n : Nat} (h : n < A.N) : (A.addV v t).c n = A.c n :=
  Function.update_of_ne (Nat.ne_of_lt h) _ _

theorem addV_c_new : (A.addV v t).c A.N = v := Function.update_self _ _ _

theorem addV_T_new : (A.addV v t).T A.M = { A.T t with down := some A.N } := Function.update_self _ _ _

theorem addV_T_t (h : t < A.M) : (A.addV v t).T t = { A.T t with up := some A.N } := by
  show Function.update _ _ _ _ = _
  rw [Function.update_of_ne (Nat.ne_of_lt h), Function.update_self]

theorem addV_T_old {i : Nat} (h : i < A.M) (hi : i ≠ t) : (A.addV v t).T i = A.T i := by
  show Function.update _ _ _ _ = _
  rw [Function.update_of_ne (Nat.ne_of_lt h), Function.update_of_ne hi]

theorem addV_cases {i : Nat} (hi : i < (A.addV v t).M) :
    i = A.M ∨ (i < A.M ∧ i = t) ∨ (i < A.M ∧ i ≠ t) := by
  have : i < A.M + 1 := hi
  rcases Nat.lt_succ_iff_lt_or_eq.1 this with h | h
  · by_cases h' : i = t
    · exact .inr (.inl ⟨h, h'⟩)
    · exact .inr (.inr ⟨h, h'⟩)
  · exact .inl h

end Abs

open Abs

theorem addV_inv {P : Plane K} {A : Abs K} {v : Coords K} {t : Nat} (hI : Inv P A) (hv : P.U v)
    (hnew : ∀ n < A.N, A.c n ≠ v) (ht : t < A.M) (hreg : Region P A t v) : Inv P (A.addV v t) := by
  -- sides of the trapezoids
  have hLR : ∀ i < A.M, ((A.addV v t).T i).left = (A.T i).left ∧ ((A.addV v t).T i).right = (A.T i).right ∧
      ((A.addV v t).T i).down = (A.T i).down := by
    intro i hi
    by_cases h : i = t
    · subst h; rw [addV_T_t ht]; exact ⟨rfl, rfl, rfl⟩
    · rw [addV_T_old hi h]; exact ⟨rfl, rfl, rfl⟩
  have hMN : A.M ≠ t := (Nat.ne_of_lt ht).symm
  have htu : ∀ u, (A.T t).up = some u → u < A.N := fun u h => (hI.upM t ht u h).1
  have htd : ∀ u, (A.T t).down = some u → u < A.N := fun u h => (hI.downM t ht u h).1
  have hpass : ∀ l < A.S, ∀ n < A.N, (PassL P A n l → PassL P (A.addV v t) n l) ∧
      (PassR P A n l → PassR P (A.addV v t) n l) := by
    intro l hl n hn
    have h1 : (A.addV v t).c ((A.addV v t).mn l) = A.c (A.mn l) := addV_c_old (hI.mnN l hl).1
    unfold PassL PassR
    rw [h1, addV_c_old hn]
    exact ⟨id, id⟩
  have hregt : ∀ w, Region P (A.addV v t) t w → Region P A t w ∧ P.h w < P.h v := by
    intro w hw
    have hup : P.h w < P.h v := by
      have := hw.up A.N (by rw [addV_T_t ht])
      rwa [addV_c_new] at this
    refine ⟨⟨fun d hd => ?_, fun u hu => ?_, fun l hl => ?_, fun r hr => ?_⟩, hup⟩
    · have := hw.down d (by rw [addV_T_t ht]; exact hd)
      rwa [addV_c_old (htd d hd)] at this
    · exact hup.trans (hreg.up u hu)
    · exact hw.left l (by rw [addV_T_t ht]; exact hl)
    · exact hw.right r (by rw [addV_T_t ht]; exact hr)
  have hregM : ∀ w, Region P (A.addV v t) A.M w → Region P A t w ∧ P.h v < P.h w := by
    intro w hw
    have hup : P.h v < P.h w := by
      have := hw.down A.N (by rw [addV_T_new])
      rwa [addV_c_new] at this
    refine ⟨⟨fun d hd => ?_, fun u hu => ?_, fun l hl => ?_, fun r hr => ?_⟩, hup⟩
    · exact (hreg.down d hd).trans hup
    · have := hw.up u (by rw [addV_T_new]; exact hu)
      rwa [addV_c_old (htu u hu)] at this
    · exact hw.left l (by rw [addV_T_new]; exact hl)
    · exact hw.right r (by rw [addV_T_new]; exact hr)
  have hrego : ∀ i < A.M, i ≠ t → ∀ w, Region P (A.addV v t) i w → Region P A i w := by
    intro i hi hit w hw
    refine ⟨fun d hd => ?_, fun u hu => ?_, fun l hl => ?_, fun r hr => ?_⟩
    · have := hw.down d (by rw [addV_T_old hi hit]; exact hd)
      rwa [addV_c_old (hI.downM i hi d hd).1] at this
    · have := hw.up u (by rw [addV_T_old hi hit]; exact hu)
      rwa [addV_c_old (hI.upM i hi u hu).1] at this
    · exact hw.left l (by rw [addV_T_old hi hit]; exact hl)
    · exact hw.right r (by rw [addV_T_old hi hit]; exact hr)
  have hdn : ∀ n < A.N, (A.addV v t).downs n = (A.downs n).map fun x => if x = t then A.M else x := by
    intro n hn
    simp only [Abs.addV]
    rw [Function.update_of_ne (Nat.ne_of_lt hn)]
  have hupo : ∀ n < A.N, (A.addV v t).ups n = A.ups n :=
    fun n hn => Function.update_of_ne (Nat.ne_of_lt hn) _ _
  have hdN : (A.addV v t).downs A.N = [t] := by
    simp only [Abs.addV]
    rw [Function.update_self]
  have huN : (A.addV v t).ups A.N = [A.M] := Function.update_self _ _ _
  have hlt : ∀ {n}, n < (A.addV v t).N → n < A.N ∨ n = A.N := fun h => Nat.lt_succ_iff_lt_or_eq.1 h
  have hN1 : ∀ {n}, n < A.N → n < (A.addV v t).N := fun h => Nat.lt_succ_of_lt h
  have hM1 : ∀ {n}, n < A.M → n < (A.addV v t).M := fun h => Nat.lt_succ_of_lt h
  refine ⟨?_, ?_, hI.sE, hI.sinj, ?_, ?_, ?_, ?_, ?_, ?_, ?_, ?_, ?_, ?_, ?_, ?_, ?_, ?_, ?_, ?_⟩
  · intro n hn
    rcases hlt hn with h | rfl
    · rw [addV_c_old h]; exact hI.cU n h
    · rw [addV_c_new]; exact hv
  · intro n hn m hm
    rcases hlt hn with h | rfl <;> rcases hlt hm with h' | rfl
    · rw [addV_c_old h, addV_c_old h']; exact hI.cinj n h m h'
    · rw [addV_c_old h, addV_c_new]; exact fun e => absurd e (hnew n h)
    · rw [addV_c_old h', addV_c_new]; exact fun e => absurd e.symm (hnew m h')
    · intro; rfl
  · intro i hi
    have h := hI.mxN i hi
    exact ⟨hN1 h.1, (addV_c_old h.1).trans h.2⟩
  · intro i hi
    have h := hI.mnN i hi
    refine ⟨hN1 h.1, ?_⟩
    have h1 : (A.addV v t).c ((A.addV v t).mn i) = A.c (A.mn i) := addV_c_old h.1
    rw [h1]; exact h.2
  · intro i hi l hl
    rcases addV_cases hi with rfl | ⟨h, -⟩ | ⟨h, -⟩
    · rw [addV_T_new] at hl; exact hI.leftS t ht l hl
    · rw [(hLR i h).1] at hl; exact hI.leftS i h l hl
    · rw [(hLR i h).1] at hl; exact hI.leftS i h l hl
  · intro i hi l hl
    rcases addV_cases hi with rfl | ⟨h, -⟩ | ⟨h, -⟩
    · rw [addV_T_new] at hl; exact hI.rightS t ht l hl
    · rw [(hLR i h).2.1] at hl; exact hI.rightS i h l hl
    · rw [(hLR i h).2.1] at hl; exact hI.rightS i h l hl
  · intro i hi u hu
    rcases addV_cases hi with rfl | ⟨h, rfl⟩ | ⟨h, hne⟩
    · rw [addV_T_new] at hu
      have := hI.upM t ht u hu
      refine ⟨hN1 this.1, ?_⟩
      rw [hdn u this.1]
      exact List.mem_map.2 ⟨t, this.2, by simp⟩
    · rw [addV_T_t ht] at hu
      cases hu
      exact ⟨Nat.lt_succ_self _, by rw [hdN]; simp⟩
    · rw [addV_T_old h hne] at hu
      have := hI.upM i h u hu
      refine ⟨hN1 this.1, ?_⟩
      rw [hdn u this.1]
      exact List.mem_map.2 ⟨i, this.2, by simp [hne]⟩
  · intro i hi u hu
    rcases addV_cases hi with rfl | ⟨h, -⟩ | ⟨h, -⟩
    · rw [addV_T_new] at hu
      cases hu
      exact ⟨Nat.lt_succ_self _, by rw [huN]; simp⟩
    all_goals
      rw [(hLR i h).2.2] at hu
      have := hI.downM i h u hu
      exact ⟨hN1 this.1, by rw [hupo u this.1]; exact this.2⟩
  · intro n hn i hi
    rcases hlt hn with h | rfl
    · rw [hdn n h] at hi
      obtain ⟨j, hj, rfl⟩ := List.mem_map.1 hi
      have := hI.rowD n h j hj
      by_cases hjt : j = t
      · subst hjt
        rw [if_pos rfl, addV_T_new]
        exact ⟨Nat.lt_succ_self _, this.2⟩
      · rw [if_neg hjt, addV_T_old this.1 hjt]
        exact ⟨hM1 this.1, this.2⟩
    · rw [hdN, List.mem_singleton] at hi
      subst hi
      rw [addV_T_t ht]
      exact ⟨hM1 ht, rfl⟩
  · intro n hn i hi
    rcases hlt hn with h | rfl
    · rw [hupo n h] at hi
      have := hI.rowU n h i hi
      rw [(hLR i this.1).2.2]
      exact ⟨hM1 this.1, this.2⟩
    · rw [huN, List.mem_singleton] at hi
      subst hi
      rw [addV_T_new]
      exact ⟨Nat.lt_succ_self _, rfl⟩
  · intro i hi u d hu hd
    rcases addV_cases hi with rfl | ⟨h, rfl⟩ | ⟨h, hne⟩
    · rw [addV_T_new] at hu hd
      cases hd
      rw [addV_c_new, addV_c_old (htu u hu)]
      exact hreg.up u hu
    · rw [addV_T_t ht] at hu hd
      cases hu
      rw [addV_c_new, addV_c_old (htd d hd)]
      exact hreg.down d hd
    · rw [addV_T_old h hne] at hu hd
      rw [addV_c_old (hI.upM i h u hu).1, addV_c_old (hI.downM i h d hd).1]
      exact hI.ht i h u d hu hd
  · intro i hi hs
    rcases addV_cases hi with rfl | ⟨h, rfl⟩ | ⟨h, hne⟩
    · rw [addV_T_new] at hs ⊢
      exact ⟨(hI.bnd t ht hs).1, by simp⟩
    · rw [addV_T_t ht] at hs ⊢
      exact ⟨by simp, (hI.bnd i ht hs).2⟩
    · rw [addV_T_old h hne] at hs ⊢
      exact hI.bnd i h hs
  · intro i hi l r hl hr
    rcases addV_cases hi with rfl | ⟨h, rfl⟩ | ⟨h, hne⟩
    · rw [addV_T_new] at hl hr
      exact hI.lr t ht l r hl hr
    · rw [addV_T_t ht] at hl hr
      exact hI.lr i ht l r hl hr
    · rw [addV_T_old h hne] at hl hr
      exact hI.lr i h l r hl hr
  · intro i hi j hj s h1 h2 h3
    have key : ∀ k < A.M, ((A.addV v t).T k).down ≠ some A.N := by
      intro k hk he
      rw [(hLR k hk).2.2] at he
      exact absurd (hI.downM k hk _ he).1 (Nat.lt_irrefl _)
    rcases Nat.lt_succ_iff_lt_or_eq.1 hi with hi | rfl <;> rcases Nat.lt_succ_iff_lt_or_eq.1 hj with hj | rfl
    · rw [(hLR i hi).1] at h1; rw [(hLR j hj).1] at h2
      rw [(hLR i hi).2.2, (hLR j hj).2.2] at h3
      exact hI.uniqL i hi j hj s h1 h2 h3
    · rw [addV_T_new] at h3; exact absurd h3 (key i hi)
    · rw [addV_T_new] at h3; exact absurd h3.symm (key j hj)
    · rfl
  · intro i hi j hj s h1 h2 h3
    have key : ∀ k < A.M, ((A.addV v t).T k).down ≠ some A.N := by
      intro k hk he
      rw [(hLR k hk).2.2] at he
      exact absurd (hI.downM k hk _ he).1 (Nat.lt_irrefl _)
    rcases Nat.lt_succ_iff_lt_or_eq.1 hi with hi | rfl <;> rcases Nat.lt_succ_iff_lt_or_eq.1 hj with hj | rfl
    · rw [(hLR i hi).2.1] at h1; rw [(hLR j hj).2.1] at h2
      rw [(hLR i hi).2.2, (hLR j hj).2.2] at h3
      exact hI.uniqR i hi j hj s h1 h2 h3
    · rw [addV_T_new] at h3; exact absurd h3 (key i hi)
    · rw [addV_T_new] at h3; exact absurd h3.symm (key j hj)
    · rfl
  · intro n hn
    rcases hlt hn with h | rfl
    · obtain ⟨L, R, hx⟩ := hI.nex n h
      have hmemU : ∀ a ∈ A.ups n, a < A.M := fun a ha => (hI.rowU n h a ha).1
      have hmemD : ∀ a ∈ A.downs n, a < A.M := fun a ha => (hI.rowD n h a ha).1
      have hD : ∀ a < A.M, ((A.addV v t).T (if a = t then A.M else a)).left = (A.T a).left ∧
          ((A.addV v t).T (if a = t then A.M else a)).right = (A.T a).right := by
        intro a ha
        by_cases hat : a = t
        · subst hat; rw [if_pos rfl, addV_T_new]; exact ⟨rfl, rfl⟩
        · rw [if_neg hat, addV_T_old ha hat]; exact ⟨rfl, rfl⟩
      have hLS : ∀ l, L = some l → l < A.S := by
        intro l hl
        rcases hu : A.ups n with _ | ⟨x, xs⟩
        · exact absurd hu hx.neU
        · have := hx.pathU
          rw [hu] at this
          exact hI.leftS x (hmemU x (by rw [hu]; simp)) l (by rw [this.1, hl])
      have hRS : ∀ l, R = some l → l < A.S := by
        intro l hl
        obtain ⟨xs, x, hu⟩ := (List.eq_nil_or_concat' (A.ups n)).resolve_left hx.neU
        have := hx.pathU
        rw [hu, path_append] at this
        obtain ⟨m, -, h1, h2⟩ := this
        exact hI.rightS x (hmemU x (by rw [hu]; simp)) l (h2.trans hl)
      refine ⟨L, R, ⟨?_, ?_, ?_, ?_, ?_, ?_, ?_, ?_, ?_, ?_⟩⟩
      · rw [hupo n h]; exact hx.neU
      · rw [hdn n h]; simpa using hx.neD
      · rw [hupo n h]
        exact (path_congr fun a ha => ⟨(hLR a (hmemU a ha)).1, (hLR a (hmemU a ha)).2.1⟩).2 hx.pathU
      · rw [hdn n h]
        exact (path_map (T := A.T) (T' := (A.addV v t).T)
          (f := fun x => if x = t then A.M else x) fun a ha => hD a (hmemD a ha)).2 hx.pathD
      · rw [hupo n h]
        intro a ha
        rw [(hLR a (hmemU a (List.mem_of_mem_tail ha))).1]
        exact hx.sepU a ha
      · rw [hdn n h, ← List.map_tail]
        intro a ha
        obtain ⟨b, hb, rfl⟩ := List.mem_map.1 ha
        rw [(hD b (hmemD b (List.mem_of_mem_tail hb))).1]
        exact hx.sepD b hb
      · intro l hl; exact (hpass l (hLS l hl) n h).1 (hx.passL l hl)
      · intro l hl; exact (hpass l (hRS l hl) n h).2 (hx.passR l hl)
      · rw [hupo n h]; exact hx.nodupU
      · rw [hdn n h]
        refine List.Nodup.map_on ?_ hx.nodupD
        intro a ha b hb he
        have h1 := hmemD a ha
        have h2 := hmemD b hb
        split at he <;> split at he <;> omega
    · refine ⟨(A.T t).left, (A.T t).right, ⟨?_, ?_, ?_, ?_, ?_, ?_, ?_, ?_, ?_, ?_⟩⟩
      · rw [huN]; simp
      · rw [hdN]; simp
      · rw [huN]; simp [Path, addV_T_new]
      · rw [hdN]; simp [Path, addV_T_t ht]
      · rw [huN]; simp
      · rw [hdN]; simp
      · intro l hl
        obtain ⟨h1, h2⟩ := hI.bnd t ht (.inl (by simp [hl]))
        obtain ⟨u, hu⟩ := Option.ne_none_iff_exists'.1 h1
        obtain ⟨d, hd⟩ := Option.ne_none_iff_exists'.1 h2
        have hsp := hI.left_span ht hl hu hd
        have h3 : (A.addV v t).c ((A.addV v t).mn l) = A.c (A.mn l) :=
          addV_c_old (hI.mnN l (hI.leftS t ht l hl)).1
        unfold PassL
        rw [h3, addV_c_new]
        exact ⟨lt_of_le_of_lt hsp.1 (hreg.down d hd), lt_of_lt_of_le (hreg.up u hu) hsp.2, hreg.left l hl⟩
      · intro l hl
        obtain ⟨h1, h2⟩ := hI.bnd t ht (.inr (by simp [hl]))
        obtain ⟨u, hu⟩ := Option.ne_none_iff_exists'.1 h1
        obtain ⟨d, hd⟩ := Option.ne_none_iff_exists'.1 h2
        have hsp := hI.right_span ht hl hu hd
        have h3 : (A.addV v t).c ((A.addV v t).mn l) = A.c (A.mn l) :=
          addV_c_old (hI.mnN l (hI.rightS t ht l hl)).1
        unfold PassR
        rw [h3, addV_c_new]
        exact ⟨lt_of_le_of_lt hsp.1 (hreg.down d hd), lt_of_lt_of_le (hreg.up u hu) hsp.2, hreg.right l hl⟩
      · rw [huN]; simp
      · rw [hdN]; simp
  · intro w hw i hi j hj h1 h2
    have key : ∀ k < (A.addV v t).M, Region P (A.addV v t) k w →
        (k = A.M ∧ Region P A t w ∧ P.h v < P.h w) ∨ (k = t ∧ Region P A t w ∧ P.h w < P.h v) ∨
          (k < A.M ∧ k ≠ t ∧ Region P A k w) := by
      intro k hk hr
      rcases addV_cases hk with rfl | ⟨h, rfl⟩ | ⟨h, hne⟩
      · exact .inl ⟨rfl, hregM w hr⟩
      · exact .inr (.inl ⟨rfl, hregt w hr⟩)
      · exact .inr (.inr ⟨h, hne, hrego k h hne w hr⟩)
    rcases key i hi h1 with ⟨rfl, a1, a2⟩ | ⟨rfl, a1, a2⟩ | ⟨a0, a1, a2⟩ <;>
      rcases key j hj h2 with ⟨rfl, b1, b2⟩ | ⟨rfl, b1, b2⟩ | ⟨b0, b1, b2⟩
    · rfl
    · exact absurd (a2.trans b2) (lt_irrefl _)
    · exact absurd (hI.disj w hw j b0 t ht b2 a1) b1
    · exact absurd (a2.trans b2) (lt_irrefl _)
    · rfl
    · exact absurd (hI.disj w hw j b0 i ht b2 a1) b1
    · exact absurd (hI.disj w hw i a0 t ht a2 b1) a1
    · exact absurd (hI.disj w hw i a0 j ht a2 b1) a1
    · exact hI.disj w hw i a0 j b0 a2 b2
  · intro n hn i hi hr
    rcases hlt hn with h | rfl
    · rw [addV_c_old h] at hr
      rcases addV_cases hi with rfl | ⟨h', rfl⟩ | ⟨h', hne⟩
      · exact hI.empty n h t ht (hregM _ hr).1
      · exact hI.empty n h i ht (hregt _ hr).1
      · exact hI.empty n h i h' (hrego i h' hne _ hr)
    · rw [addV_c_new] at hr
      rcases addV_cases hi with rfl | ⟨h', rfl⟩ | ⟨h', hne⟩
      · exact lt_irrefl _ (hregM _ hr).2
      · exact lt_irrefl _ (hregt _ hr).2
      · exact hne (hI.disj v hv i h' t ht (hrego i h' hne _ hr) hreg)

end Tri
