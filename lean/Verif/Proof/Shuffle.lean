import Mathlib.Data.Fintype.Perm
import Mathlib.Data.Fintype.BigOperators
import Mathlib.Algebra.BigOperators.Fin
import Mathlib.Algebra.BigOperators.Intervals
import Mathlib.Data.Nat.Factorial.BigOperators
import Mathlib.Data.List.OfFn
import Verif.Model.Shuffle

/-!
# Every order comes from exactly one sequence of draws
-/

namespace Tri

theorem swapAt_length (xs : List Nat) (i j : Nat) : (swapAt xs i j).length = xs.length := by
  unfold swapAt
  rw [List.length_set, List.length_set]

theorem swapAt_getElem {xs : List Nat} {i j k : Nat} (hi : i < xs.length) (hj : j < xs.length) (hk : k < xs.length) :
    (swapAt xs i j)[k]'(by rw [swapAt_length]; exact hk) = if k = i then xs[j] else if k = j then xs[i] else xs[k] := by
  have gd : ∀ {l : Nat} (hl : l < xs.length), xs.getD l 0 = xs[l] := fun hl => by simp [hl]
  unfold swapAt
  simp only [List.getElem_set, gd hi, gd hj]
  by_cases h1 : k = i
  · by_cases h2 : k = j
    · subst h1; subst h2; simp
    · rw [if_neg (Ne.symm h2), if_pos h1.symm, if_pos h1]
  · by_cases h2 : k = j
    · rw [if_pos h2.symm, if_neg h1, if_pos h2]
    · rw [if_neg (Ne.symm h2), if_neg (Ne.symm h1), if_neg h1, if_neg h2]

theorem swapAt_nodup {xs : List Nat} {i j : Nat} (hi : i < xs.length) (hj : j < xs.length) (h : xs.Nodup) :
    (swapAt xs i j).Nodup := by
  rw [List.nodup_iff_injective_get] at h ⊢
  intro a b hab
  simp only [List.get_eq_getElem] at hab
  have ha : a.val < xs.length := a.2.trans_eq (swapAt_length ..)
  have hb : b.val < xs.length := b.2.trans_eq (swapAt_length ..)
  rw [swapAt_getElem hi hj ha, swapAt_getElem hi hj hb] at hab
  have inj : ∀ {k l : Nat} (hk : k < xs.length) (hl : l < xs.length), xs[k] = xs[l] → k = l := fun hk hl e => by
    have := @h ⟨_, hk⟩ ⟨_, hl⟩ e
    simpa using this
  apply Fin.ext
  repeat' split at hab
  all_goals first | omega | (have := inj _ _ hab; omega)

theorem swapAt_mem {xs : List Nat} {i j : Nat} (hi : i < xs.length) (hj : j < xs.length) {a : Nat} (h : a ∈ swapAt xs i j) :
    a ∈ xs := by
  obtain ⟨k, hk, rfl⟩ := List.getElem_of_mem h
  rw [swapAt_getElem hi hj (by rwa [swapAt_length] at hk)]
  split
  · exact List.getElem_mem _
  · split <;> exact List.getElem_mem _

/-- The elements stay the same, and positions above the current one are not touched. -/
theorem shuffleFrom_spec (d : Nat → Nat) (hd : ∀ i, d i ≤ i) (i : Nat) (xs : List Nat) (hi : i < xs.length) (hx : xs.Nodup) :
    (shuffleFrom d i xs).length = xs.length ∧ (shuffleFrom d i xs).Nodup ∧ (∀ a ∈ shuffleFrom d i xs, a ∈ xs) ∧
      ∀ k, i < k → (shuffleFrom d i xs)[k]? = xs[k]? := by
  induction i generalizing xs with
  | zero => exact ⟨rfl, hx, fun _ h => h, fun _ _ => rfl⟩
  | succ i ih =>
    have hj : d (i + 1) < xs.length := lt_of_le_of_lt (hd _) hi
    have hl := swapAt_length xs (i + 1) (d (i + 1))
    obtain ⟨h1, h2, h3, h4⟩ := ih (swapAt xs (i + 1) (d (i + 1))) (by omega) (swapAt_nodup hi hj hx)
    refine ⟨h1.trans hl, h2, fun a ha => swapAt_mem hi hj (h3 a ha), fun k hk => (h4 k (by omega)).trans ?_⟩
    by_cases hk' : k < xs.length
    · rw [List.getElem?_eq_getElem (by omega), List.getElem?_eq_getElem hk', swapAt_getElem hi hj hk', if_neg (by omega),
        if_neg (by have := hd (i + 1); omega)]
    · rw [List.getElem?_eq_none (by omega), List.getElem?_eq_none (by omega)]

theorem shuffleFrom_inj (d d' : Nat → Nat) (hd : ∀ i, d i ≤ i) (hd' : ∀ i, d' i ≤ i) (i : Nat) (xs : List Nat) (hi : i < xs.length)
    (hx : xs.Nodup) (h : shuffleFrom d i xs = shuffleFrom d' i xs) : ∀ k ≤ i, d k = d' k := by
  induction i generalizing xs with
  | zero => intro k hk; have := hd k; have := hd' k; omega
  | succ i ih =>
    have hj : d (i + 1) < xs.length := lt_of_le_of_lt (hd _) hi
    have hj' : d' (i + 1) < xs.length := lt_of_le_of_lt (hd' _) hi
    have h1 := (shuffleFrom_spec d hd i (swapAt xs (i + 1) (d (i + 1))) (by rw [swapAt_length]; omega) (swapAt_nodup hi hj hx)).2.2.2
      (i + 1) (by omega)
    have h2 := (shuffleFrom_spec d' hd' i (swapAt xs (i + 1) (d' (i + 1))) (by rw [swapAt_length]; omega) (swapAt_nodup hi hj' hx)).2.2.2
      (i + 1) (by omega)
    simp only [shuffleFrom] at h
    rw [← h, h1, List.getElem?_eq_getElem (by rw [swapAt_length]; exact hi), List.getElem?_eq_getElem (by rw [swapAt_length]; exact hi),
      swapAt_getElem hi hj hi, swapAt_getElem hi hj' hi, if_pos rfl, if_pos rfl] at h2
    have h3 : d (i + 1) = d' (i + 1) := by
      have := (List.nodup_iff_injective_get.1 hx) (a₁ := ⟨_, hj⟩) (a₂ := ⟨_, hj'⟩) (Option.some.inj h2)
      simpa using this
    intro k hk
    rcases Nat.lt_or_ge k (i + 1) with hk' | hk'
    · exact ih _ (by rw [swapAt_length]; omega) (swapAt_nodup hi hj hx) (by rw [h, h3]) k (by omega)
    · obtain rfl : k = i + 1 := by omega
      exact h3

theorem shuffledOrder_perm (len : Nat) (d : Draws len) : (shuffledOrder len d).Perm (List.range len) := by
  cases len with
  | zero => exact .refl _
  | succ n =>
    have hd : ∀ i, (fun i => if h : i < n + 1 then (d ⟨i, h⟩).val else 0) i ≤ i := by
      intro i
      simp only
      split
      · have := (d ⟨i, by assumption⟩).2; simp only at this; omega
      · omega
    obtain ⟨h1, h2, h3, -⟩ := shuffleFrom_spec _ hd n (List.range (n + 1)) (by simp) List.nodup_range
    exact (h2.subperm h3).perm_of_length_le h1.ge

theorem shuffledOrder_inj (len : Nat) : Function.Injective (shuffledOrder len) := by
  intro d d' h
  have key : ∀ d : Draws len, ∀ i, (fun i => if h : i < len then (d ⟨i, h⟩).val else 0) i ≤ i := by
    intro d i
    simp only
    split
    · have := (d ⟨i, by assumption⟩).2; simp only at this; omega
    · omega
  funext i
  have hl : len - 1 < (List.range len).length := by have := i.2; simp; omega
  have := shuffleFrom_inj _ _ (key d) (key d') (len - 1) (List.range len) hl List.nodup_range h i.val (by have := i.2; omega)
  simp only [i.2, dif_pos] at this
  exact Fin.ext this

/-- The permutation that a sequence of draws results in. -/
theorem exists_permOf (len : Nat) (d : Draws len) :
    ∃ σ : Equiv.Perm (Fin len), shuffledOrder len d = List.ofFn fun i => (σ i).val := by
  have h := shuffledOrder_perm len d
  have hl : (shuffledOrder len d).length = len := by rw [h.length_eq, List.length_range]
  have hlt : ∀ i : Fin len, (shuffledOrder len d)[i.val]'(by rw [hl]; exact i.2) < len := fun i =>
    List.mem_range.1 (h.subset (List.getElem_mem _))
  have hn : (shuffledOrder len d).Nodup := h.nodup_iff.2 List.nodup_range
  let f : Fin len → Fin len := fun i => ⟨(shuffledOrder len d)[i.val]'(by rw [hl]; exact i.2), hlt i⟩
  have hf : Function.Injective f := fun a b hab => by
    have h1 : (shuffledOrder len d)[a.val]'(by rw [hl]; exact a.2) = (shuffledOrder len d)[b.val]'(by rw [hl]; exact b.2) :=
      congrArg Fin.val hab
    exact Fin.ext ((List.Nodup.getElem_inj_iff hn).1 h1)
  refine ⟨Equiv.ofBijective f (Finite.injective_iff_bijective.1 hf), ?_⟩
  refine List.ext_getElem (by rw [hl, List.length_ofFn]) fun k h1 h2 => ?_
  rw [List.getElem_ofFn]
  rfl

noncomputable def permOf (len : Nat) (d : Draws len) : Equiv.Perm (Fin len) := (exists_permOf len d).choose

theorem permOf_spec (len : Nat) (d : Draws len) : shuffledOrder len d = List.ofFn fun i => (permOf len d i).val :=
  (exists_permOf len d).choose_spec

theorem card_draws (len : Nat) : Fintype.card (Draws len) = len.factorial := by
  simp only [Draws, Fintype.card_pi, Fintype.card_fin]
  rw [Fin.prod_univ_eq_prod_range (fun i => i + 1) len, Finset.prod_range_add_one_eq_factorial]

theorem permOf_bijective (len : Nat) : Function.Bijective (permOf len) := by
  rw [Fintype.bijective_iff_injective_and_card, card_draws, Fintype.card_perm, Fintype.card_fin]
  exact ⟨fun d d' h => shuffledOrder_inj len (by rw [permOf_spec, permOf_spec, h]), rfl⟩

end Tri
