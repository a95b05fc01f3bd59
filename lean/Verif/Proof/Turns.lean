import Verif.Proof.Turning
import Verif.Proof.Boundary
import Mathlib.Data.Nat.ModEq

/-!
# The turning number of a valid polygon
-/

set_option linter.unusedSectionVars false

namespace Tri

variable {K : Type} [Field K] [LinearOrder K] [IsStrictOrderedRing K]

/-- The vertices of a polygon, over and over again. -/
def around {α : Type} [Inhabited α] (g : List α) (i : Nat) : α := g.getD (i % g.length) default

theorem around_get {α : Type} [Inhabited α] {g : List α} (h : 0 < g.length) (i : Nat) :
    g[i % g.length]? = some (around g i) := by
  have := Nat.mod_lt i h
  simp [around, this]

theorem around_per {α : Type} [Inhabited α] (g : List α) (i : Nat) : around g (i + g.length) = around g i := by
  simp [around]

theorem around_edge {α : Type} [Inhabited α] {g : List α} (h : 0 < g.length) (i : Nat) :
    (around g i, around g (i + 1)) ∈ cycleEdges g := by
  have e : (i % g.length + 1) % g.length = (i + 1) % g.length := by simp
  exact List.mem_of_getElem? (cycleEdges_at (around_get h i) (by rw [e]; exact around_get h (i + 1)))

theorem around_inj {α : Type} [Inhabited α] {g : List α} (hn : g.Nodup) (h : 0 < g.length) {i j : Nat}
    (e : around g i = around g j) : i % g.length = j % g.length := by
  have h1 := around_get h i
  have h2 := around_get h j
  rw [e, ← h2] at h1
  exact (List.getElem?_inj (Nat.mod_lt _ h) hn).1 h1

theorem around_mem {α : Type} [Inhabited α] {g : List α} (h : 0 < g.length) (i : Nat) : around g i ∈ g :=
  List.mem_of_getElem? (around_get h i)

instance : Inhabited (Coords K) := ⟨⟨0, 0⟩⟩

theorem mod_eq_sub {n i j : Nat} (hij : i < j) (hj : j < i + n) : i % n ≠ j % n := by
  intro h
  have h1 : j = i + (j - i) := by omega
  rw [h1] at h
  have : n ∣ (j - i) := by
    have := (Nat.modEq_iff_dvd' (show i ≤ i + (j - i) by omega)).1 h
    simpa using this
  exact absurd (Nat.le_of_dvd (by omega) this) (by omega)

theorem valid_simple {g : List (Coords K)} (hv : ValidPolys [g]) (m : Nat) :
    Simple (fun i => around g (m + i)) g.length := by
  have h3 : 3 ≤ g.length := hv.three g (by simp)
  have h0 : 0 < g.length := by omega
  have hn : g.Nodup := by simpa using hv.distinct
  have edge : ∀ i, (around g (m + i), around g (m + (i + 1))) ∈ [g].flatMap cycleEdges := fun i => by
    have := around_edge h0 (m + i)
    simpa [add_assoc] using this
  have ne : ∀ i j, i < j → j < i + g.length → around g (m + i) ≠ around g (m + j) := fun i j hij hj e =>
    mod_eq_sub (show m + i < m + j by omega) (by omega) (around_inj hn h0 e)
  refine ⟨h3, fun i => ?_, fun i j hij hj => ne i j hij (by omega), fun i j hij hj h0' z h1 h2 => ?_, fun i => ⟨?_, ?_, fun z h1 h2 => ?_⟩⟩
  · show around g (m + (i + g.length)) = around g (m + i)
    rw [← add_assoc, around_per]
  · have hne : (around g (m + i), around g (m + (i + 1))) ≠ (around g (m + j), around g (m + (j + 1))) := fun e =>
      ne i j (by omega) (by omega) (Prod.mk.inj e).1
    obtain ⟨a, b⟩ := hv.meet _ (edge i) _ (edge j) hne z h1 h2
    simp only at a b
    have per0 : ∀ k, around g (m + (k + g.length)) = around g (m + k) := fun k => by rw [← add_assoc, around_per]
    rcases a with rfl | rfl <;> rcases b with b | b
    · exact ne i j (by omega) (by omega) b
    · exact ne i (j + 1) (by omega) (by omega) b
    · exact ne (i + 1) j (by omega) (by omega) b
    · exact ne (i + 1) (j + 1) (by omega) (by omega) b
  · exact ne i (i + 1) (by omega) (by omega)
  · exact ne (i + 1) (i + 2) (by omega) (by omega)
  · have hne : (around g (m + i), around g (m + (i + 1))) ≠ (around g (m + (i + 1)), around g (m + (i + 1 + 1))) := fun e =>
      ne i (i + 1) (by omega) (by omega) (Prod.mk.inj e).1
    obtain ⟨a, b⟩ := hv.meet _ (edge i) _ (edge (i + 1)) hne z h1 h2
    simp only at a b
    rcases a with a | a
    · exfalso
      rcases b with b | b
      · exact ne i (i + 1) (by omega) (by omega) (a.symm.trans b)
      · exact ne i (i + 2) (by omega) (by omega) (a.symm.trans b)
    · exact a

theorem sum_shift {F : Nat → Int} {n : Nat} (hp : ∀ i, F (i + n) = F i) (m : Nat) :
    ∑ i ∈ Finset.range n, F (m + i) = ∑ i ∈ Finset.range n, F i := by
  induction m with
  | zero => simp
  | succ m ih =>
    rw [← ih]
    have e1 := Finset.sum_range_succ (fun i => F (m + i)) n
    have e2 := Finset.sum_range_succ' (fun i => F (m + i)) n
    rw [hp] at e1
    have e3 : ∀ i, F (m + 1 + i) = F (m + (i + 1)) := fun i => by rw [show m + 1 + i = m + (i + 1) by omega]
    simp only [e3]
    rw [e1] at e2
    simp only [add_zero] at e2
    omega

/-- The turning number. -/
def turning (g : List (Coords K)) : Int :=
  ∑ i ∈ Finset.range g.length, turnL (around g i) (around g (i + 1)) (around g (i + 2))

theorem turning_shift (g : List (Coords K)) (m : Nat) :
    ∑ i ∈ Finset.range g.length, turnL (around g (m + i)) (around g (m + (i + 1))) (around g (m + (i + 2))) = turning g := by
  unfold turning
  rw [← sum_shift (F := fun i => turnL (around g i) (around g (i + 1)) (around g (i + 2))) (fun i => ?_) m]
  · simp only [add_assoc]
  · rw [show i + g.length + 1 = (i + 1) + g.length by omega, show i + g.length + 2 = (i + 2) + g.length by omega]
    simp only [around_per]

theorem exists_lowest : ∀ l : List (Coords K), l ≠ [] → ∃ a ∈ l, ∀ b ∈ l, b ≠ a → below a b
  | [], h => absurd rfl h
  | [a], _ => ⟨a, by simp, by simp⟩
  | a :: b :: l, _ => by
    obtain ⟨c, hc, h⟩ := exists_lowest (b :: l) (by simp)
    by_cases hac : a = c
    · refine ⟨c, List.mem_cons_of_mem _ hc, fun x hx hne => ?_⟩
      rcases List.mem_cons.1 hx with rfl | hx
      · exact absurd hac hne
      · exact h x hx hne
    · rcases below_total hac with k | k
      · refine ⟨a, by simp, fun x hx hne => ?_⟩
        rcases List.mem_cons.1 hx with rfl | hx
        · exact absurd rfl hne
        · by_cases hxc : x = c
          · exact hxc ▸ k
          · exact below_trans k (h x hx hxc)
      · refine ⟨c, List.mem_cons_of_mem _ hc, fun x hx hne => ?_⟩
        rcases List.mem_cons.1 hx with rfl | hx
        · exact k
        · exact h x hx hne

/-- The turning number of a valid polygon can be read off at the lowest vertex. -/
theorem turning_valid {g : List (Coords K)} (hv : ValidPolys [g]) :
    ∃ k, (∀ b ∈ g, b ≠ around g (k + 1) → below (around g (k + 1)) b) ∧
      orient (around g k) (around g (k + 1)) (around g (k + 2)) ≠ 0 ∧
      turning g = if 0 < orient (around g k) (around g (k + 1)) (around g (k + 2)) then 1 else -1 := by
  have h3 : 3 ≤ g.length := hv.three g (by simp)
  have h0 : 0 < g.length := by omega
  have hn : g.Nodup := by simpa using hv.distinct
  obtain ⟨a, ha, hlow⟩ := exists_lowest g (by intro h; simp [h] at h3)
  obtain ⟨m, hm, rfl⟩ := List.mem_iff_getElem.1 ha
  have hm' : around g (m + g.length) = g[m] := by
    rw [around_per]; simp [around, Nat.mod_eq_of_lt hm, hm]
  have S := valid_simple hv (m + g.length)
  have := S.hopf fun i hi hi' => by
    have e := hlow (around g (m + g.length + i)) (around_mem h0 _) (by
      rw [← hm']
      exact fun e => S.ne 0 i hi hi' (by simpa using e.symm))
    rw [← hm'] at e
    simpa using e
  simp only [turning_shift, add_zero] at this
  refine ⟨m + g.length - 1, ?_, ?_⟩
  · rw [show m + g.length - 1 + 1 = m + g.length by omega, hm']
    exact hlow
  · rw [show m + g.length - 1 + 1 = m + g.length by omega, show m + g.length - 1 + 2 = m + g.length + 1 by omega]
    rw [show m + g.length + (g.length - 1) = m + g.length - 1 + g.length by omega, around_per] at this
    exact this

/-! ## The other side -/

theorem crL_sub_crR {a b : Coords K} (ha : Up a ∨ Dn a) (hb : Up b ∨ Dn b) (h : Up a → Dn b → det a b ≠ 0)
    (h' : Dn a → Up b → det a b ≠ 0) : crL a b - crR a b = (if Up a then 1 else 0) - (if Up b then 1 else 0) := by
  rcases ha with ha | ha <;> rcases hb with hb | hb
  · simp [crL, crR, ha, hb, ha.not_dn, hb.not_dn]
  · rcases lt_or_gt_of_ne (h ha hb) with k | k
    · simp [crL, crR, ha, hb, ha.not_dn, hb.not_up, k, not_lt.2 k.le]
    · simp [crL, crR, ha, hb, ha.not_dn, hb.not_up, k, not_lt.2 k.le]
  · rcases lt_or_gt_of_ne (h' ha hb) with k | k
    · simp [crL, crR, ha, hb, ha.not_up, hb.not_dn, k, not_lt.2 k.le]
    · simp [crL, crR, ha, hb, ha.not_up, hb.not_dn, k, not_lt.2 k.le]
  · simp [crL, crR, ha, hb, ha.not_up, hb.not_up]

/-- The turn at a vertex, seen from the other side. -/
def turnR (a b c : Coords K) : Int := crR (vec a b) (vec b c)

theorem turning_right {g : List (Coords K)} (hv : ValidPolys [g]) :
    ∑ i ∈ Finset.range g.length, turnR (around g i) (around g (i + 1)) (around g (i + 2)) = turning g := by
  have S := valid_simple hv 0
  simp only [zero_add] at S
  have step : ∀ i, turnR (around g i) (around g (i + 1)) (around g (i + 2)) =
      turnL (around g i) (around g (i + 1)) (around g (i + 2)) -
        ((if Up (vec (around g i) (around g (i + 1))) then 1 else 0) -
          (if Up (vec (around g (i + 1)) (around g (i + 2))) then 1 else 0)) := by
    intro i
    have t := S.touch i
    have := crL_sub_crR (ud_vec t.1) (ud_vec t.2.1)
      (fun u d => by
        have := det_ne d u fun s r hs hr hx hy => by
          have := t.open r 0 s hr le_rfl hs (by linarith) (by linarith)
          exact this.2.2
        rw [det_anti]
        exact neg_ne_zero.2 this)
      (fun d u => det_ne d u fun s r hs hr hx hy => (t.open s 0 r hs le_rfl hr (by linarith) (by linarith)).1)
    unfold turnR turnL
    omega
  have tel : ∀ m, ∑ i ∈ Finset.range m, (((if Up (vec (around g i) (around g (i + 1))) then 1 else 0) -
          (if Up (vec (around g (i + 1)) (around g (i + 2))) then 1 else 0)) : Int) =
      (if Up (vec (around g 0) (around g 1)) then 1 else 0) - (if Up (vec (around g m) (around g (m + 1))) then 1 else 0) := by
    intro m
    induction m with
    | zero => simp
    | succ m ih => rw [Finset.sum_range_succ, ih, sub_add_sub_cancel]
  simp only [step]
  rw [Finset.sum_sub_distrib, tel]
  have e1 : around g g.length = around g 0 := by simpa using around_per g 0
  have e2 : around g (g.length + 1) = around g 1 := by
    have := around_per g 1
    rwa [add_comm] at this
  rw [e1, e2, sub_self, sub_zero]
  rfl

/-- Going the other way round. -/
theorem turnR_rev (a b c : Coords K) : turnR c b a = - turnL a b c := by
  unfold turnR turnL crR crL
  have e : ∀ u v : Coords K, Dn (vec u v) ↔ Up (vec v u) := fun u v => up_neg.symm
  have d : det (vec c b) (vec b a) = - det (vec a b) (vec b c) := by unfold det vec; ring
  have u1 : Up (vec c b) ↔ Dn (vec b c) := up_neg
  have u2 : Up (vec b a) ↔ Dn (vec a b) := up_neg
  have u3 : Dn (vec c b) ↔ Up (vec b c) := e c b
  have u4 : Dn (vec b a) ↔ Up (vec a b) := e b a
  rw [d]
  simp only [u1, u2, u3, u4, Left.neg_neg_iff, neg_pos]
  by_cases h1 : Up (vec a b) <;> by_cases h2 : Dn (vec b c) <;> by_cases h3 : Dn (vec a b) <;> by_cases h4 : Up (vec b c) <;>
    simp [h1, h2, h3, h4]
  all_goals first
    | exact absurd h3 h1.not_dn
    | exact absurd h2 h4.not_dn
    | (split <;> rfl)

end Tri
