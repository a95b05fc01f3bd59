import Mathlib.Algebra.BigOperators.Ring.Finset
import Mathlib.Algebra.Group.Action.Defs
import Mathlib.Tactic.Linarith
import Mathlib.Tactic.Positivity
import Mathlib.Algebra.Order.Field.Basic
import Mathlib.Algebra.Order.BigOperators.Ring.Finset
import Mathlib.Combinatorics.Enumerative.DoubleCounting
import Mathlib.Data.Fintype.Perm
import Mathlib.Data.Fintype.BigOperators
import Mathlib.Logic.Equiv.Fin.Basic
import Mathlib.Tactic.Ring
import Mathlib.Tactic.FieldSimp
import Verif.Proof.CostBuild
import Verif.Proof.CostRun

/-!
# The average over all insertion orders
-/

set_option linter.unusedSectionVars false

namespace Tri

open Finset

variable {I V K : Type} [Field K] [LinearOrder K] [IsStrictOrderedRing K] [DecidableEq I]

attribute [local instance] exact

variable {P : Plane K} {p : PolyList I V} {xy : V → Coords K}

section geometry
variable {O : Coords K × Coords K → Prop} (hO : ∀ e, O e → P.E e) {W : Finset (Coords K)}
variable {vs : List (I × Coords K)} (hctx : PolyCtx P p xy vs) {D : Finset Nat}
include hctx

theorem SideIs.inj {k k' : Nat} {e : Coords K × Coords K} (h : SideIs vs k e) (h' : SideIs vs k' e) : k = k' := by
  obtain ⟨a, b, h1, h2, rfl⟩ := h
  obtain ⟨a', b', h1', h2', h3⟩ := h'
  exact hctx.edge_inj h1 h2 h1' h2' h3

theorem SidesOf.E {e : Coords K × Coords K} (h : SidesOf vs D e) : P.E e := by
  obtain ⟨k, -, a, b, h1, h2, rfl⟩ := h
  exact hctx.E k a b h1 h2

open Classical in
include hO in
/-- A vertex has at most one side next to it on the left and one on the right. -/
theorem near_card (v : Coords K) : (D.filter fun k => NearAt P O vs D k v).card ≤ 2 := by
  by_cases hU : P.U v
  swap
  · rw [card_eq_zero.2 (filter_eq_empty_iff.2 fun k _ h => hU h.1)]
    omega
  have hsub : (D.filter fun k => NearAt P O vs D k v) ⊆
      (D.filter fun k => ∃ e, SideIs vs k e ∧ NearL P (EdgesOf O vs D) v e) ∪
      (D.filter fun k => ∃ e, SideIs vs k e ∧ NearR P (EdgesOf O vs D) v e) := by
    intro k hk
    obtain ⟨hk, -, e, h2, h3⟩ := mem_filter.1 hk
    rcases h3 with h3 | h3
    · exact mem_union_left _ (mem_filter.2 ⟨hk, e, h2, h3⟩)
    · exact mem_union_right _ (mem_filter.2 ⟨hk, e, h2, h3⟩)
  refine (card_le_card hsub).trans ((card_union_le _ _).trans ?_)
  have hE : ∀ e, EdgesOf O vs D e → P.E e := fun e he => he.elim (hO e) (SidesOf.E hctx)
  have h1 : (D.filter fun k => ∃ e, SideIs vs k e ∧ NearL P (EdgesOf O vs D) v e).card ≤ 1 := by
    refine card_le_one.2 fun a ha b hb => ?_
    obtain ⟨-, e, h1, h2⟩ := mem_filter.1 ha
    obtain ⟨-, e', h1', h2'⟩ := mem_filter.1 hb
    cases h2.unique hE hU h2'
    exact SideIs.inj hctx h1 h1'
  have h2 : (D.filter fun k => ∃ e, SideIs vs k e ∧ NearR P (EdgesOf O vs D) v e).card ≤ 1 := by
    refine card_le_one.2 fun a ha b hb => ?_
    obtain ⟨-, e, h1, h2⟩ := mem_filter.1 ha
    obtain ⟨-, e', h1', h2'⟩ := mem_filter.1 hb
    cases h2.unique hE hU h2'
    exact SideIs.inj hctx h1 h1'
  omega

include hO in
/-- The sides pass each vertex at most twice together. -/
theorem passes_sum : ∑ k ∈ D, passes P O W vs D k ≤ 2 * W.card + 4 * D.card := by
  classical
  unfold passes
  have h1 := sum_card_bipartiteAbove_eq_sum_card_bipartiteBelow (s := D) (t := W ∪ endsOf vs D)
    (fun k v => NearAt P O vs D k v)
  unfold bipartiteAbove bipartiteBelow at h1
  have h2 : (∑ k ∈ D, ((W ∪ endsOf vs D).filter (NearAt P O vs D k)).card) =
      ∑ v ∈ W ∪ endsOf vs D, (D.filter fun k => NearAt P O vs D k v).card := by
    rw [← h1]
  calc _ = ∑ k ∈ D, ((W ∪ endsOf vs D).filter (NearAt P O vs D k)).card := by
        refine sum_congr rfl fun k _ => ?_
        congr
    _ = _ := h2
    _ ≤ ∑ _v ∈ W ∪ endsOf vs D, 2 := sum_le_sum fun v _ => by
        convert near_card hO hctx (D := D) v
    _ = 2 * (W ∪ endsOf vs D).card := by rw [sum_const, smul_eq_mul, mul_comm]
    _ ≤ 2 * (W.card + 2 * D.card) :=
      Nat.mul_le_mul_left _ ((card_union_le _ _).trans (Nat.add_le_add_left (endsOf_card vs D) _))
    _ = _ := by omega

/-- At most four sides are next to the trapezoid of a point. -/
theorem bad_sum (w : Coords K) : ∑ k ∈ D, bad P O vs D k w ≤ 4 := by
  classical
  by_cases hU : P.U w
  swap
  · rw [sum_eq_zero fun k _ => by unfold bad; rw [if_neg fun h => hU h.1]]
    omega
  have hb : ∀ k, bad P O vs D k w = if ∃ e, SideIs vs k e ∧ Bad P (EdgesOf O vs D) w e then 1 else 0 := by
    intro k
    unfold bad
    by_cases h : ∃ e, SideIs vs k e ∧ Bad P (EdgesOf O vs D) w e
    · rw [if_pos ⟨hU, h⟩, if_pos h]
    · rw [if_neg fun h' => h h'.2, if_neg h]
  simp only [hb]
  rw [sum_ite, sum_const_zero, sum_const, smul_eq_mul, mul_one, add_zero]
  have key : ∀ k ∈ D.filter fun k => ∃ e, SideIs vs k e ∧ Bad P (EdgesOf O vs D) w e,
      ∃ e, SideIs vs k e ∧ Bad P (EdgesOf O vs D) w e := fun k hk => (mem_filter.1 hk).2
  haveI : Nonempty (Coords K × Coords K) := ⟨(w, w)⟩
  choose! f hf hb using key
  have hinj : Set.InjOn f ((D.filter fun k => ∃ e, SideIs vs k e ∧ Bad P (EdgesOf O vs D) w e : Finset Nat) : Set Nat) := by
    intro a ha b hb' he
    have h1 := hf a ha
    rw [he] at h1
    exact SideIs.inj hctx h1 (hf b hb')
  rw [← card_image_of_injOn hinj]
  refine Bad.card_le (F := EdgesOf O vs D) hU fun e he => ?_
  obtain ⟨k, hk, rfl⟩ := mem_image.1 he
  exact hb k hk

end geometry

section perms
variable {n : Nat}

/-- A permutation of the indices as a function on all numbers. -/
def ofPerm (σ : Equiv.Perm (Fin n)) (i : Nat) : Nat := if h : i < n then (σ ⟨i, h⟩).val else i

theorem ofPerm_lt (σ : Equiv.Perm (Fin n)) {i : Nat} (h : i < n) : ofPerm σ i < n := by
  unfold ofPerm; rw [dif_pos h]; exact (σ _).isLt

theorem ofPerm_inj (σ : Equiv.Perm (Fin n)) {i j : Nat} (hi : i < n) (hj : j < n) (h : ofPerm σ i = ofPerm σ j) : i = j := by
  unfold ofPerm at h
  rw [dif_pos hi, dif_pos hj] at h
  exact congrArg Fin.val (σ.injective (Fin.ext h))

theorem ofPerm_list (σ : Equiv.Perm (Fin n)) : List.ofFn (fun i => (σ i).val) = (List.range n).map (ofPerm σ) := by
  refine List.ext_getElem (by simp) fun i h1 h2 => ?_
  have : i < n := by simpa using h1
  simp [ofPerm, this]

theorem ofFn_perm (σ : Equiv.Perm (Fin n)) : (List.ofFn (fun i => (σ i).val)).Perm (List.range n) := by
  have h : (List.ofFn (fun i => (σ i).val)).Nodup := List.nodup_ofFn.2 fun a b h => σ.injective (Fin.ext h)
  refine (List.perm_ext_iff_of_nodup h List.nodup_range).2 fun a => ?_
  rw [List.mem_ofFn, List.mem_range]
  exact ⟨fun ⟨i, hi⟩ => hi ▸ (σ i).isLt, fun ha => ⟨σ.symm ⟨a, ha⟩, by simp⟩⟩

theorem ofPerm_swap (σ : Equiv.Perm (Fin n)) {a b : Nat} (ha : a < n) (hb : b < n) :
    ofPerm (σ * Equiv.swap ⟨a, ha⟩ ⟨b, hb⟩) = ofPerm σ ∘ Equiv.swap a b := by
  funext i
  simp only [Function.comp, ofPerm]
  by_cases hi : i < n
  · rw [dif_pos hi]
    by_cases h1 : i = a
    · subst h1; simp [hb]
    · by_cases h2 : i = b
      · subst h2; simp [ha]
      · have e1 : Equiv.swap (⟨a, ha⟩ : Fin n) ⟨b, hb⟩ ⟨i, hi⟩ = ⟨i, hi⟩ :=
          Equiv.swap_apply_of_ne_of_ne (by simpa using h1) (by simpa using h2)
        rw [Equiv.swap_apply_of_ne_of_ne h1 h2, dif_pos hi]
        simp [e1]
  · have h1 : i ≠ a := fun h => hi (h ▸ ha)
    have h2 : i ≠ b := fun h => hi (h ▸ hb)
    rw [dif_neg hi, Equiv.swap_apply_of_ne_of_ne h1 h2, dif_neg hi]

theorem sum_swap (f : (Nat → Nat) → Nat) {a b : Nat} (ha : a < n) (hb : b < n) :
    ∑ σ : Equiv.Perm (Fin n), f (ofPerm σ ∘ Equiv.swap a b) = ∑ σ : Equiv.Perm (Fin n), f (ofPerm σ) := by
  rw [← Equiv.sum_comp (Equiv.mulRight (Equiv.swap (⟨a, ha⟩ : Fin n) ⟨b, hb⟩)) fun σ => f (ofPerm σ)]
  refine sum_congr rfl fun σ _ => ?_
  rw [← ofPerm_swap σ ha hb]; rfl

/-- Exchanging two of the first `i` sides does not change which sides are the first `i`. -/
theorem firsts_swap (τ : Nat → Nat) {a b i : Nat} (ha : a < i) (hb : b < i) :
    firsts (τ ∘ Equiv.swap a b) i = firsts τ i := by
  unfold firsts
  rw [← image_image]
  congr 1
  have key : ∀ k < i, Equiv.swap a b k < i := by
    intro k hk
    rw [Equiv.swap_apply_def]
    split
    · exact hb
    · split
      · exact ha
      · exact hk
  ext k
  simp only [mem_image, mem_range]
  exact ⟨fun ⟨j, hj, e⟩ => e ▸ key j hj, fun hk => ⟨Equiv.swap a b k, key k hk, Equiv.swap_apply_self _ _ _⟩⟩

/-- Exchanging sides that come later does not change which sides are the first `i`. -/
theorem firsts_swap_ge (τ : Nat → Nat) {a b i : Nat} (ha : i ≤ a) (hb : i ≤ b) :
    firsts (τ ∘ Equiv.swap a b) i = firsts τ i := by
  unfold firsts
  refine image_congr fun k hk => ?_
  have hk : k < i := by simpa using hk
  show τ (Equiv.swap a b k) = τ k
  rw [Equiv.swap_apply_of_ne_of_ne (by omega) (by omega)]

/-- Backwards analysis: in a random order, each of the first `i + 1` sides is equally likely to be the last of them. -/
theorem mean_last {i c : Nat} (hi : i < n) (g : (Nat → Nat) → Nat → Nat)
    (hg : ∀ τ k, ∀ a ≤ i, g (τ ∘ Equiv.swap a i) k = g τ k)
    (hc : ∀ σ : Equiv.Perm (Fin n), ∑ k ∈ firsts (ofPerm σ) (i + 1), g (ofPerm σ) k ≤ c) :
    (i + 1) * ∑ σ : Equiv.Perm (Fin n), g (ofPerm σ) (ofPerm σ i) ≤ n.factorial * c := by
  have h1 : ∀ a ∈ range (i + 1), ∑ σ : Equiv.Perm (Fin n), g (ofPerm σ) (ofPerm σ i) =
      ∑ σ : Equiv.Perm (Fin n), g (ofPerm σ) (ofPerm σ a) := by
    intro a ha
    have ha : a ≤ i := by have := mem_range.1 ha; omega
    rw [← sum_swap (fun τ => g τ (τ i)) (lt_of_le_of_lt ha hi) hi]
    refine sum_congr rfl fun σ _ => ?_
    simp only [hg _ _ a ha, Function.comp, Equiv.swap_apply_right]
  calc (i + 1) * ∑ σ : Equiv.Perm (Fin n), g (ofPerm σ) (ofPerm σ i)
      = ∑ _a ∈ range (i + 1), ∑ σ : Equiv.Perm (Fin n), g (ofPerm σ) (ofPerm σ i) := by
        rw [sum_const, card_range, smul_eq_mul]
    _ = ∑ a ∈ range (i + 1), ∑ σ : Equiv.Perm (Fin n), g (ofPerm σ) (ofPerm σ a) := sum_congr rfl h1
    _ = ∑ σ : Equiv.Perm (Fin n), ∑ a ∈ range (i + 1), g (ofPerm σ) (ofPerm σ a) := sum_comm
    _ = ∑ σ : Equiv.Perm (Fin n), ∑ k ∈ firsts (ofPerm σ) (i + 1), g (ofPerm σ) k := by
        refine sum_congr rfl fun σ _ => ?_
        unfold firsts
        rw [sum_image]
        intro a ha b hb e
        have ha : a < i + 1 := by simpa using ha
        have hb : b < i + 1 := by simpa using hb
        exact ofPerm_inj σ (by omega) (by omega) e
    _ ≤ ∑ _σ : Equiv.Perm (Fin n), c := sum_le_sum fun σ _ => hc σ
    _ = n.factorial * c := by rw [sum_const, card_univ, Fintype.card_perm, Fintype.card_fin, smul_eq_mul]

end perms

section means
variable {O : Coords K × Coords K → Prop} (hO : ∀ e, O e → P.E e) {W : Finset (Coords K)}
variable {vs : List (I × Coords K)} (hctx : PolyCtx P p xy vs)

theorem firsts_card (σ : Nat → Nat) (i : Nat) : (firsts σ i).card ≤ i := by
  unfold firsts
  exact card_image_le.trans (by rw [card_range])

include hctx

include hO in
/-- A new segment passes at most four vertices on average, and some of the earlier polygons. -/
theorem mean_passes {i : Nat} (hi : i < vs.length) :
    (∑ σ : Equiv.Perm (Fin vs.length), (passes P O W vs (firsts (ofPerm σ) (i + 1)) (ofPerm σ i) : ℚ)) ≤
      vs.length.factorial * (4 + 2 * W.card * (1 / (i + 1 : ℚ))) := by
  have h := mean_last hi (fun τ k => passes P O W vs (firsts τ (i + 1)) k) (c := 2 * W.card + 4 * (i + 1))
    (fun τ k a ha => by rw [firsts_swap _ (by omega) (by omega)])
    (fun σ => (passes_sum hO hctx).trans (by have := firsts_card (ofPerm σ) (i + 1); omega))
  have h' : ((i + 1 : ℚ)) * ∑ σ : Equiv.Perm (Fin vs.length),
      (passes P O W vs (firsts (ofPerm σ) (i + 1)) (ofPerm σ i) : ℚ) ≤ vs.length.factorial * (2 * W.card + 4 * (i + 1)) := by
    exact_mod_cast h
  have hpos : (0 : ℚ) < i + 1 := by positivity
  refine le_of_mul_le_mul_left (h'.trans (le_of_eq ?_)) hpos
  field_simp
  ring

include hO in
/-- The walk along a side that is not there yet. -/
theorem mean_walk {i l : Nat} (hl : l < vs.length) (hil : i ≤ l) :
    (∑ σ : Equiv.Perm (Fin vs.length), (passes P O W vs (insert (ofPerm σ l) (firsts (ofPerm σ) i)) (ofPerm σ l) : ℚ)) ≤
      vs.length.factorial * (4 + 2 * W.card * (1 / (i + 1 : ℚ))) := by
  have e := sum_swap (fun τ => passes P O W vs (insert (τ l) (firsts τ i)) (τ l)) (lt_of_le_of_lt hil hl) hl
  have e' : (∑ σ : Equiv.Perm (Fin vs.length), (passes P O W vs (insert (ofPerm σ l) (firsts (ofPerm σ) i)) (ofPerm σ l) : ℚ)) =
      ∑ σ : Equiv.Perm (Fin vs.length), (passes P O W vs (firsts (ofPerm σ) (i + 1)) (ofPerm σ i) : ℚ) := by
    have : ∑ σ : Equiv.Perm (Fin vs.length), passes P O W vs (insert (ofPerm σ l) (firsts (ofPerm σ) i)) (ofPerm σ l) =
        ∑ σ : Equiv.Perm (Fin vs.length), passes P O W vs (firsts (ofPerm σ) (i + 1)) (ofPerm σ i) := by
      rw [← e]
      refine sum_congr rfl fun σ _ => ?_
      rw [firsts_swap_ge _ (le_refl _) hil]
      simp only [Function.comp, Equiv.swap_apply_right]
      congr 1
      unfold firsts
      rw [range_add_one, image_insert]
    exact_mod_cast this
  rw [e']
  exact mean_passes hO hctx (lt_of_le_of_lt hil hl)

/-- The chance that side `l` changes the trapezoid of a vertex is at most `4 / (l + 1)`. -/
theorem mean_bad {l : Nat} (hl : l < vs.length) (f : (Nat → Nat) → Coords K)
    (hf : ∀ τ, ∀ a ≤ l, f (τ ∘ Equiv.swap a l) = f τ) :
    (∑ σ : Equiv.Perm (Fin vs.length), (bad P O vs (firsts (ofPerm σ) (l + 1)) (ofPerm σ l) (f (ofPerm σ)) : ℚ)) ≤
      vs.length.factorial * (4 * (1 / (l + 1 : ℚ))) := by
  have h := mean_last hl (fun τ k => bad P O vs (firsts τ (l + 1)) k (f τ))
    (fun τ k a ha => by rw [firsts_swap _ (by omega) (by omega), hf τ a ha]) (fun _ => bad_sum hctx _)
  have h' : ((l + 1 : ℚ)) * ∑ σ : Equiv.Perm (Fin vs.length),
      (bad P O vs (firsts (ofPerm σ) (l + 1)) (ofPerm σ l) (f (ofPerm σ)) : ℚ) ≤ vs.length.factorial * 4 := by
    exact_mod_cast h
  have hpos : (0 : ℚ) < l + 1 := by positivity
  refine le_of_mul_le_mul_left (h'.trans (le_of_eq ?_)) hpos
  field_simp

/-- The search for a point gets longer this often, on average. -/
theorem mean_bads (w : Coords K) :
    (∑ σ : Equiv.Perm (Fin vs.length), ((∑ l ∈ range vs.length, bad P O vs (firsts (ofPerm σ) (l + 1)) (ofPerm σ l) w : ℕ) : ℚ)) ≤
      vs.length.factorial * (4 * ∑ l ∈ range vs.length, 1 / (l + 1 : ℚ)) := by
  simp only [Nat.cast_sum]
  rw [sum_comm, mul_sum, mul_sum]
  exact sum_le_sum fun l hl => mean_bad hctx (mem_range.1 hl) (fun _ => w) (fun _ _ _ => rfl)

theorem mean_bad_at {l i : Nat} (hli : l < i) (hi : i < vs.length) (c : Nat → Coords K) :
    (∑ σ : Equiv.Perm (Fin vs.length), (bad P O vs (firsts (ofPerm σ) (l + 1)) (ofPerm σ l) (c (ofPerm σ i)) : ℚ)) ≤
      vs.length.factorial * (4 * (1 / (l + 1 : ℚ))) :=
  mean_bad hctx (l := l) (by omega) (fun τ => c (τ i)) (fun τ a ha => by
    simp only [Function.comp]
    rw [Equiv.swap_apply_of_ne_of_ne (by omega) (by omega)])

omit hctx in
theorem range_ofPerm {n : Nat} (σ : Equiv.Perm (Fin n)) : (range n).image (ofPerm σ) = range n := by
  refine eq_of_subset_of_card_le ?_ ?_
  · intro k hk
    obtain ⟨j, hj, rfl⟩ := mem_image.1 hk
    exact mem_range.2 (ofPerm_lt σ (mem_range.1 hj))
  · rw [card_image_of_injOn]
    intro a ha b hb e
    exact ofPerm_inj σ (by simpa using ha) (by simpa using hb) e

omit hctx in
theorem sum_ofPerm {n : Nat} {α : Type} [AddCommMonoid α] (σ : Equiv.Perm (Fin n)) (f : Nat → α) :
    ∑ i ∈ range n, f (ofPerm σ i) = ∑ k ∈ range n, f k := by
  conv_rhs => rw [← range_ofPerm σ]
  rw [sum_image]
  intro a ha b hb e
  exact ofPerm_inj σ (by simpa using ha) (by simpa using hb) e

include hO in
/-- The relocation costs at most `6 n` on average, and more for the earlier polygons. -/
theorem mean_reloc {i : Nat} (hi : i < vs.length) :
    (∑ σ : Equiv.Perm (Fin vs.length), ((∑ k ∈ range vs.length, (1 + if k ∈ firsts (ofPerm σ) (i + 1) then 0 else
      1 + passes P O W vs (insert k (firsts (ofPerm σ) (i + 1))) k) : ℕ) : ℚ)) ≤
      vs.length.factorial * (6 * vs.length + 2 * W.card * (vs.length / (i + 2 : ℚ))) := by
  have key : ∀ σ : Equiv.Perm (Fin vs.length), ∑ k ∈ range vs.length, (1 + if k ∈ firsts (ofPerm σ) (i + 1) then 0 else
      1 + passes P O W vs (insert k (firsts (ofPerm σ) (i + 1))) k) =
      vs.length + ∑ l ∈ Ico (i + 1) vs.length,
        (1 + passes P O W vs (insert (ofPerm σ l) (firsts (ofPerm σ) (i + 1))) (ofPerm σ l)) := by
    intro σ
    rw [sum_add_distrib, sum_const, card_range, smul_eq_mul, mul_one]
    congr 1
    rw [← sum_ofPerm σ, ← sum_range_add_sum_Ico _ (Nat.succ_le_of_lt hi)]
    have z : ∑ x ∈ range (i + 1), (if ofPerm σ x ∈ firsts (ofPerm σ) (i + 1) then 0 else
        1 + passes P O W vs (insert (ofPerm σ x) (firsts (ofPerm σ) (i + 1))) (ofPerm σ x)) = 0 :=
      sum_eq_zero fun x hx => if_pos (show ofPerm σ x ∈ firsts (ofPerm σ) (i + 1) from mem_image_of_mem _ hx)
    rw [z, zero_add]
    refine sum_congr rfl fun l hl => ?_
    obtain ⟨h1, h2⟩ := mem_Ico.1 hl
    rw [if_neg]
    intro hm
    obtain ⟨j, hj, e⟩ := mem_image.1 hm
    have hj := mem_range.1 hj
    have := ofPerm_inj σ (by omega) h2 e
    omega
  simp only [key, Nat.cast_add, Nat.cast_sum, Nat.cast_one]
  rw [sum_add_distrib, sum_const, card_univ, Fintype.card_perm, Fintype.card_fin, nsmul_eq_mul, sum_comm]
  have h2 : (∑ l ∈ Ico (i + 1) vs.length, ∑ σ : Equiv.Perm (Fin vs.length),
      (1 + (passes P O W vs (insert (ofPerm σ l) (firsts (ofPerm σ) (i + 1))) (ofPerm σ l) : ℚ))) ≤
      ∑ _l ∈ Ico (i + 1) vs.length, (vs.length.factorial * (5 + 2 * W.card * (1 / (i + 2 : ℚ))) : ℚ) := by
    refine sum_le_sum fun l hl => ?_
    obtain ⟨h1, h2⟩ := mem_Ico.1 hl
    rw [sum_add_distrib, sum_const, card_univ, Fintype.card_perm, Fintype.card_fin, nsmul_eq_mul, mul_one]
    have := mean_walk (W := W) hO hctx h2 h1
    have e : ((i + 1 : ℕ) : ℚ) + 1 = i + 2 := by push_cast; ring
    rw [e] at this
    linarith
  rw [sum_const, Nat.card_Ico, nsmul_eq_mul] at h2
  have hc : ((vs.length - (i + 1) : ℕ) : ℚ) ≤ vs.length := by exact_mod_cast Nat.sub_le _ _
  have h3 : ((vs.length - (i + 1) : ℕ) : ℚ) * (vs.length.factorial * (5 + 2 * W.card * (1 / (i + 2 : ℚ)))) ≤
      vs.length * (vs.length.factorial * (5 + 2 * W.card * (1 / (i + 2 : ℚ)))) :=
    mul_le_mul_of_nonneg_right hc (by positivity)
  calc _ ≤ vs.length.factorial * (vs.length : ℚ) + vs.length * (vs.length.factorial * (5 + 2 * W.card * (1 / (i + 2 : ℚ)))) :=
        add_le_add (le_refl _) (h2.trans h3)
    _ = _ := by ring

/-- The bound for the average cost of step `i`, apart from the search from the root. -/
noncomputable def meanStage (M n : Nat) (m : Nat → Nat) (i : Nat) : ℚ :=
  6 + 24 * ∑ l ∈ Ico (since m i) i, 1 / (l + 1 : ℚ) + 2 * M * (1 / (i + 1 : ℚ)) +
    if relocAt m i then 6 * (n : ℚ) + 2 * M * (n / (i + 2 : ℚ)) else 0

include hO in
/-- The average cost of step `i`. -/
theorem mean_stage (m : Nat → Nat) {i : Nat} (hi : i < vs.length) :
    (∑ σ : Equiv.Perm (Fin vs.length), (stage P O W vs (fun _ => 0) m (ofPerm σ) i : ℚ)) ≤ vs.length.factorial *
      meanStage W.card vs.length m i := by
  have hcard : (∑ _σ : Equiv.Perm (Fin vs.length), (2 : ℚ)) = vs.length.factorial * 2 := by
    rw [sum_const, card_univ, Fintype.card_perm, Fintype.card_fin, nsmul_eq_mul]
  have hp := mean_passes (W := W) hO hctx hi
  have hr : (∑ σ : Equiv.Perm (Fin vs.length), (((if relocAt m i then ∑ k ∈ range vs.length,
      (1 + if k ∈ firsts (ofPerm σ) (i + 1) then 0 else 1 + passes P O W vs (insert k (firsts (ofPerm σ) (i + 1))) k)
      else 0) : ℕ) : ℚ)) ≤ vs.length.factorial *
      (if relocAt m i then 6 * (vs.length : ℚ) + 2 * W.card * (vs.length / (i + 2 : ℚ)) else 0) := by
    split
    · exact mean_reloc hO hctx hi
    · simp
  have hb : ∀ c : Nat → Coords K, (∑ σ : Equiv.Perm (Fin vs.length), (∑ l ∈ Ico (since m i) i,
      (bad P O vs (firsts (ofPerm σ) (l + 1)) (ofPerm σ l) (c (ofPerm σ i)) : ℚ))) ≤
      vs.length.factorial * (4 * ∑ l ∈ Ico (since m i) i, 1 / (l + 1 : ℚ)) := by
    intro c
    rw [sum_comm, mul_sum, mul_sum]
    exact sum_le_sum fun l hl => mean_bad_at hctx (mem_Ico.1 hl).2 hi c
  have hb1 := hb (vat vs)
  have hb2 := hb (fun k => vat vs ((k + 1) % vs.length))
  simp only [stage, searchLe, Nat.cast_add, Nat.cast_mul, Nat.cast_sum, Nat.cast_ofNat, Nat.cast_zero, zero_add]
  rw [sum_add_distrib, sum_add_distrib, sum_add_distrib, sum_add_distrib, hcard, ← mul_sum, ← mul_sum]
  unfold meanStage
  linarith

omit hctx in
/-- The searches from the root. -/
theorem stages_base {B : Coords K → Nat} (m : Nat → Nat) (h3 : 0 < vs.length) (σ : Equiv.Perm (Fin vs.length)) :
    ∑ i ∈ range vs.length, stage P O W vs B m (ofPerm σ) i =
      ∑ i ∈ range vs.length, stage P O W vs (fun _ => 0) m (ofPerm σ) i + 2 * ∑ k ∈ range vs.length, B (vat vs k) := by
  have h1 : ∀ i, stage P O W vs B m (ofPerm σ) i = stage P O W vs (fun _ => 0) m (ofPerm σ) i +
      (B (vat vs (ofPerm σ i)) + B (vat vs ((ofPerm σ i + 1) % vs.length))) := by
    intro i
    simp only [stage, searchLe]
    omega
  simp only [h1]
  rw [sum_add_distrib, sum_add_distrib, sum_ofPerm σ (fun k => B (vat vs k)),
    sum_ofPerm σ (fun k => B (vat vs ((k + 1) % vs.length)))]
  have h2 : ∑ k ∈ range vs.length, B (vat vs ((k + 1) % vs.length)) = ∑ k ∈ range vs.length, B (vat vs k) := by
    obtain ⟨n, hn⟩ : ∃ n, vs.length = n + 1 := ⟨vs.length - 1, by omega⟩
    rw [hn, sum_range_succ, sum_range_succ', Nat.mod_self]
    congr 1
    refine sum_congr rfl fun k hk => ?_
    rw [Nat.mod_eq_of_lt (by have := mem_range.1 hk; omega)]
  rw [h2]
  omega

include hO in
/-- The average of the bounds. -/
theorem mean_stages (m : Nat → Nat) :
    (∑ σ : Equiv.Perm (Fin vs.length), ((∑ i ∈ range vs.length, stage P O W vs (fun _ => 0) m (ofPerm σ) i : ℕ) : ℚ)) ≤
      vs.length.factorial * ∑ i ∈ range vs.length, meanStage W.card vs.length m i := by
  rw [mul_sum]
  simp only [Nat.cast_sum]
  rw [sum_comm]
  exact sum_le_sum fun i hi => mean_stage hO hctx _ (mem_range.1 hi)

end means

/-- The trapezoidation of one polygon and its cost. -/
theorem trapezoidizeC_run {g : List (I × Coords K)} (hctx : PolysCtx P p xy [g]) (mathN : Nat → Nat → Nat) :
    ∃ N, ∃ (cost : Equiv.Perm (Fin g.length) → Nat) (st : Equiv.Perm (Fin g.length) → St I K),
      (∀ (σ : Equiv.Perm (Fin g.length)) (cfg : Cfg), cfg.mathN = mathN →
        cfg.order 0 g.length = List.ofFn (fun i => (σ i).val) → ∀ fuel ≥ N, trapezoidizeC cfg fuel p xy = .ok (st σ, cost σ)) ∧
      (∀ σ, cost σ ≤ ∑ i ∈ range g.length, stage P (fun _ => False) ∅ g (fun _ => 1) (mathN g.length) (ofPerm σ) i) ∧
      ∀ σ, ∃ x, St.Nodes St.init (st σ) x ∧
        x ≤ ∑ i ∈ range g.length, passes P (fun _ => False) ∅ g (firsts (ofPerm σ) (i + 1)) (ofPerm σ i) := by
  have hg := hctx.poly g (by simp)
  have hr := fun σ : Equiv.Perm (Fin g.length) => polyLoopC_run hg (O := fun _ => False) (W := ∅) (B := fun _ => 1)
    (fun _ _ _ h => h) (A0 := Abs.init) (st0 := St.init) glob_init (fun _ _ n hn => absurd hn (Nat.not_lt_zero _))
    (fun e => ⟨fun ⟨i, hi, _⟩ => absurd hi (Nat.not_lt_zero _), fun h => h.elim⟩)
    (fun n hn => absurd hn (Nat.not_lt_zero _)) (fun _ => le_refl _)
    (fun v _ => ⟨1, le_refl _, 0, 0, .sink rfl, by refine ⟨?_, ?_, ?_, ?_⟩ <;> intro d h <;> cases h⟩) mathN (σ := ofPerm σ)
    (fun i hi => ofPerm_lt σ hi) (fun i hi j hj h => ofPerm_inj σ hi hj h) g.length (le_refl _)
  choose N A l k h1 _ _ _ _ h6 h7 _ using hr
  refine ⟨univ.sup N, k, fun σ => (l σ).st, fun σ cfg hm ho fuel hf => ?_, h6, h7⟩
  obtain ⟨es, hes, hpoly⟩ := hctx.desc.elems
  have hadd : St.addPolygonC cfg fuel p xy 0 St.init (startLocs g) = .ok ((l σ).st, k σ) := by
    have hlen : (startLocs g).length = g.length := by simp [startLocs]
    unfold St.addPolygonC
    simp only [hlen, ho, hm, ofPerm_list, h1 σ cfg hm fuel (le_trans (le_sup (f := N) (mem_univ σ)) hf), bind, Except.bind]
  have e1 := runElemsC_polygons cfg fuel p xy es [] St.init 0 0
  rw [← polygonsOf.eq_1, hpoly] at e1
  have e2 := runElemsC_poly cfg fuel hg.len (fun v hv => coords_of_get (hctx.desc.coords g (by simp) v hv)) St.init 0 0 hadd
  have hmap : (elemsOf ([g].map (List.map Prod.fst))).map some =
      (g.map Prod.fst).map (fun i => some (.cont i)) ++ [some (.newPolygon : Elem I)] := by
    simp [elemsOf, Function.comp_def]
  rw [hmap, e2] at e1
  rw [trapezoidizeC_eq, hes]
  simp only [List.map_nil, List.nil_append] at e1
  rw [e1]
  simp [Except.map]

/-- The bounds as one sum. -/
theorem stages_sum (n : Nat) (m : Nat → Nat) :
    ∑ i ∈ range n, meanStage 0 n m i =
      6 * n + 24 * ∑ i ∈ range n, ∑ l ∈ Ico (since m i) i, 1 / (l + 1 : ℚ) +
        6 * n * ((range n).filter fun i => relocAt m i = true).card := by
  simp only [meanStage, Nat.cast_zero, mul_zero, zero_mul, add_zero]
  rw [sum_add_distrib, sum_add_distrib, ← mul_sum, sum_const, card_range, nsmul_eq_mul, sum_ite, sum_const_zero, sum_const,
    nsmul_eq_mul]
  ring

/-- The average cost for one polygon. -/
theorem mean_cost {g : List (I × Coords K)} (hctx : PolyCtx P p xy g) (m : Nat → Nat) {cost : Equiv.Perm (Fin g.length) → Nat}
    (h : ∀ σ, cost σ ≤ ∑ i ∈ range g.length, stage P (fun _ => False) ∅ g (fun _ => 1) m (ofPerm σ) i) :
    (∑ σ, (cost σ : ℚ)) ≤ g.length.factorial * (8 * g.length + 24 * ∑ i ∈ range g.length, ∑ l ∈ Ico (since m i) i, 1 / (l + 1 : ℚ) +
        6 * g.length * ((range g.length).filter fun i => relocAt m i = true).card) := by
  have h1 := mean_stages (O := fun _ => False) (W := ∅) (fun _ h => h.elim) hctx m
  rw [card_empty, stages_sum] at h1
  calc (∑ σ, (cost σ : ℚ)) ≤ ∑ σ : Equiv.Perm (Fin g.length),
        (((∑ i ∈ range g.length, stage P (fun _ => False) ∅ g (fun _ => 0) m (ofPerm σ) i : ℕ) : ℚ) + 2 * g.length) := by
        refine sum_le_sum fun σ _ => ?_
        have h2 := (h σ).trans (le_of_eq (stages_base (B := fun _ => 1) m (by have := hctx.len; omega) σ))
        rw [sum_const, card_range, smul_eq_mul, mul_one] at h2
        exact_mod_cast h2
    _ ≤ _ := by
        rw [sum_add_distrib, sum_const, card_univ, Fintype.card_perm, Fintype.card_fin, nsmul_eq_mul]
        linarith

/-- The worst case of one step. -/
theorem stage_le (vs : List (I × Coords K)) (m σ : Nat → Nat) {i : Nat} (hi : i < vs.length) :
    stage P (fun _ => False) ∅ vs (fun _ => 1) m σ i ≤
      4 + 8 * vs.length + if relocAt m i then 4 * vs.length + 2 * vs.length * vs.length else 0 := by
  have hb : ∀ D k w, bad P (fun _ => False) vs D k w ≤ 1 := by
    intro D k w; unfold bad; split <;> omega
  have hp : ∀ D k, passes P (fun _ => False) ∅ vs D k ≤ 2 * D.card := by
    intro D k
    classical
    unfold passes
    refine (card_le_card (filter_subset _ _)).trans ?_
    rw [empty_union]
    exact endsOf_card vs D
  have hs : ∀ w, searchLe P (fun _ => False) vs (fun _ => 1) m σ i w ≤ 1 + 3 * i := by
    intro w
    simp only [searchLe]
    have : ∑ l ∈ Ico (since m i) i, bad P (fun _ => False) vs (firsts σ (l + 1)) (σ l) w ≤ i := by
      calc _ ≤ ∑ _l ∈ Ico (since m i) i, 1 := sum_le_sum fun l _ => hb _ _ _
        _ ≤ i := by
          rw [sum_const, Nat.card_Ico, smul_eq_mul]
          omega
    omega
  have h1 := hs (vat vs (σ i))
  have h1' := hs (vat vs ((σ i + 1) % vs.length))
  have h2 := hp (firsts σ (i + 1)) (σ i)
  have h3 := firsts_card σ (i + 1)
  unfold stage
  split
  · have h4 : ∑ k ∈ range vs.length, (1 + if k ∈ firsts σ (i + 1) then 0 else
        1 + passes P (fun _ => False) ∅ vs (insert k (firsts σ (i + 1))) k) ≤ vs.length * (4 + 2 * vs.length) := by
      calc _ ≤ ∑ _k ∈ range vs.length, (4 + 2 * vs.length) := sum_le_sum fun k _ => by
            have h6 := hp (insert k (firsts σ (i + 1))) k
            have h7 := card_insert_le k (firsts σ (i + 1))
            split <;> omega
        _ = _ := by rw [sum_const, card_range, smul_eq_mul]
    have h5 : vs.length * (4 + 2 * vs.length) = 4 * vs.length + 2 * vs.length * vs.length := by ring
    omega
  · omega

end Tri
