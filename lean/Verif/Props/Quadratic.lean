import Verif.Proof.Cusp
import Verif.Proof.OneChain
import Verif.Proof.Descending
import Verif.Proof.Describe
import Verif.Props.Mesh
import Mathlib.Tactic.NormNum

/-!
# Properties: what the whole triangulation costs (C52)

`fuel` bounds the number of iterations of every single loop, see `Model/Basic.lean`: a run that succeeds with `fuel` has no
loop with `fuel` iterations or more.
-/

namespace Tri

/-- The upper arm of a cusp pointing to the right. -/
def cuspR (i : Nat) : Coords ℚ := ⟨4 * 16 ^ i, 1 / 2 * (1 / 4) ^ i⟩

/-- Its lower arm. -/
def cuspV (i : Nat) : Coords ℚ := ⟨16 ^ i, -(1 / 4) ^ i⟩

/-- The cusp: down the upper arm to the right, and back along the lower arm.  It has `2 k + 2` vertices. -/
def cusp (k : Nat) : List (Coords ℚ) := (List.range (k + 1)).map cuspR ++ ((List.range (k + 1)).map cuspV).reverse

theorem cusp_length (k : Nat) : (cusp k).length = 2 * k + 2 := by
  simp [cusp]; omega

theorem quarter_anti {i j : Nat} (h : i < j) : ((1 : ℚ) / 4) ^ j < (1 / 4) ^ i :=
  pow_lt_pow_right_of_lt_one₀ (by norm_num) (by norm_num) h

theorem cusp_down (k : Nat) : (cusp k).Pairwise fun a b => b.y < a.y := by
  refine List.pairwise_append.2 ⟨?_, ?_, ?_⟩
  · refine List.pairwise_map.2 (List.pairwise_lt_range.imp fun {i j} h => ?_)
    have := quarter_anti h
    simp only [cuspR]; linarith
  · rw [List.pairwise_reverse]
    refine List.pairwise_map.2 (List.pairwise_lt_range.imp fun {i j} h => ?_)
    have := quarter_anti h
    simp only [cuspV]; linarith
  · intro a ha b hb
    rw [List.mem_reverse] at hb
    obtain ⟨i, -, rfl⟩ := List.mem_map.1 ha
    obtain ⟨j, -, rfl⟩ := List.mem_map.1 hb
    have h1 : (0 : ℚ) < (1 / 4) ^ i := by positivity
    have h2 : (0 : ℚ) < (1 / 4) ^ j := by positivity
    simp only [cuspR, cuspV]; linarith

theorem cusp_split (k : Nat) : cusp (k + 1) =
    cuspR 0 :: ((List.range (k + 1)).map (fun i => cuspR (i + 1)) ++ ((List.range (k + 1)).map fun i => cuspV (i + 1)).reverse) ++
      [cuspV 0] := by
  simp only [cusp, List.range_succ_eq_map (n := k + 1), List.map_cons, List.map_map, List.reverse_cons]
  simp [Function.comp_def]

theorem sixteen_ge (i : Nat) : (16 : ℚ) ≤ 16 ^ (i + 1) := by
  have : (1 : ℚ) ≤ 16 ^ i := one_le_pow₀ (by norm_num)
  rw [pow_succ]; linarith

theorem quarter_le (i : Nat) : ((1 : ℚ) / 4) ^ i ≤ 1 := pow_le_one₀ (by norm_num) (by norm_num)

/-- The cusp is a valid polygon. -/
theorem cusp_valid {k : Nat} (hk : 1 ≤ k) : ValidPolys [cusp k] := by
  obtain ⟨k, rfl⟩ : ∃ j, k = j + 1 := ⟨k - 1, by omega⟩
  have hd := cusp_down (k + 1)
  rw [cusp_split] at hd ⊢
  refine descending_valid (by simp) hd fun v hv => ?_
  rcases List.mem_append.1 hv with h | h
  · obtain ⟨i, -, rfl⟩ := List.mem_map.1 h
    have h1 := sixteen_ge i
    have h2 := quarter_le (i + 1)
    simp only [orient, cuspR, cuspV, pow_zero]
    linarith
  · rw [List.mem_reverse] at h
    obtain ⟨i, -, rfl⟩ := List.mem_map.1 h
    have h1 := sixteen_ge i
    have h2 : (0 : ℚ) < (1 / 4) ^ (i + 1) := by positivity
    simp only [orient, cuspR, cuspV, pow_zero]
    linarith

attribute [local instance] exact

theorem cusp_tests (k : Nat) : CuspTests false (fun i => (i, cuspR i)) (fun i => (2 * k + 1 - i, cuspV i)) := by
  have yes : ∀ {a b c : Nat × Coords ℚ}, c.2.y < b.2.y → b.2.y < a.2.y → orient a.2 b.2 c.2 < 0 → earOk false a b c :=
    fun h1 h2 h => earOk_of_orient (.inl h1) (.inl h2) (by simpa using h)
  have no : ∀ {a b c : Nat × Coords ℚ}, c.2.y < b.2.y → b.2.y < a.2.y → 0 < orient a.2 b.2 c.2 → ¬ earOk false a b c := by
    intro a b c h1 h2 h h'
    have := (isLeft_between (c := c.2) (.inl h1) (.inl h2)).2.2.1 h
    rw [earOk] at h'
    rw [h'] at this
    cases this
  have h16 : ∀ i, (0 : ℚ) < 16 ^ i := fun i => by positivity
  have h4 : ∀ i, (0 : ℚ) < (1 / 4) ^ i := fun i => by positivity
  have hm : ∀ i, (0 : ℚ) < 16 ^ i * (1 / 4) ^ i := fun i => mul_pos (h16 i) (h4 i)
  refine ⟨fun i => no ?_ ?_ ?_, fun i => yes ?_ ?_ ?_, fun i => no ?_ ?_ ?_, fun i => yes ?_ ?_ ?_, fun i => no ?_ ?_ ?_,
    fun i => no ?_ ?_ ?_⟩ <;>
    have a1 := h16 i <;> have a2 := h4 i <;> have a3 := hm i <;>
    simp only [orient, cuspR, cuspV, pow_succ] <;>
    generalize (16 : ℚ) ^ i = a at * <;> generalize ((1 : ℚ) / 4) ^ i = b at * <;> nlinarith

theorem cusp_indexed (k : Nat) : indexed (cusp k) =
    upper (fun i => (i, cuspR i)) (k + 1) ++ lower (fun i => (2 * k + 1 - i, cuspV i)) (k + 1) := by
  refine List.ext_getElem (by simp [indexed, cusp, upper, lower]) fun i h1 h2 => ?_
  simp only [indexed, cusp, upper, lower, List.getElem_zip, List.getElem_range, List.getElem_append, List.length_map,
    List.length_range, List.getElem_map, List.getElem_reverse]
  have : i < 2 * k + 2 := by rw [← cusp_length]; simpa [indexed] using h1
  split
  · rfl
  · refine Prod.ext ?_ rfl
    simp only
    omega

/-- The number of iterations that triangulating a cusp takes. -/
theorem cusp_needs {k : Nat} (hk : 1 ≤ k) (cfg : Cfg) (hcfg : cfg.Valid) (F : FanFormat Nat) {fuel' fuel : Nat} {st : St Nat ℚ}
    (hst : trapezoidize cfg fuel' (PolyList.single (cusp k)) id = .ok st) {o : F.O}
    (h : (st.triangulate fuel (PolyList.single (cusp k)) id F).2 = .ok o) : k ^ 2 < fuel := by
  obtain ⟨k, rfl⟩ : ∃ j, k = j + 1 := ⟨k - 1, by omega⟩
  have hd := describes_single (cusp (k + 1)) (id : Coords ℚ → Coords ℚ) (by
    intro h; have := cusp_length (k + 1); rw [h] at this; simp at this)
  rw [List.map_id] at hd
  have hv : ValidPolys [(indexed (cusp (k + 1))).map Prod.snd] := by rw [indexed_snd]; exact cusp_valid hk
  have hdown : (indexed (cusp (k + 1))).Pairwise fun a b => below b.2 a.2 := by
    rw [← List.pairwise_map (f := Prod.snd) (R := fun a b => below b a), indexed_snd]
    exact (cusp_down (k + 1)).imp fun h => .inl h
  have hidx := cusp_indexed (k + 1)
  have hlen : (indexed (cusp (k + 1))).length = 2 * k + 4 := by
    rw [indexed]; simp [cusp_length]; omega
  obtain ⟨x, y, L, hL⟩ : ∃ x y L, indexed (cusp (k + 1)) = x :: y :: L := by
    match h : indexed (cusp (k + 1)) with
    | [] => rw [h] at hlen; simp at hlen
    | [x] => rw [h] at hlen; simp at hlen
    | x :: y :: L => exact ⟨x, y, L, rfl⟩
  have hlast : ((y :: L).getLast (by simp)).2 = cuspV 0 := by
    have h1 : (x :: y :: L).map Prod.snd = cusp (k + 1) := by rw [← hL, indexed_snd]
    rw [cusp_split] at h1
    have h2 := congrArg List.getLast? h1
    rw [List.getLast?_map, List.getLast?_append_of_ne_nil _ (by simp)] at h2
    rw [List.getLast?_cons_cons, List.getLast?_eq_getLast_of_ne_nil (by simp)] at h2
    simpa using h2
  have hx : x.2 = cuspR 0 ∧ y.2 = cuspR 1 := by
    have h1 : (x :: y :: L).map Prod.snd = cusp (k + 1) := by rw [← hL, indexed_snd]
    rw [cusp_split, List.range_succ_eq_map] at h1
    simp only [List.map_cons, List.cons_append, List.cons.injEq] at h1
    exact ⟨h1.1, h1.2.1⟩
  rw [hL] at hd hv hdown hidx
  obtain ⟨M, hR, hl, hE⟩ := one_chain_ends hd hv hdown cfg hcfg F hst h
  rw [hlast, hx.1, hx.2] at hl
  have hleft : isLeftOfLine (cuspV 0) (cuspR 0) (cuspR 1) = false := by
    refine (isLeft_between (.inl ?_) (.inl ?_)).2.2.2 ?_ <;> norm_num [orient, cuspR, cuspV]
  have := hE.cusp (cusp_tests (k + 1)) (k + 1) (hl.trans hleft) hR hidx
  rwa [pow_two]

/-- **C52**: a single polygon with `2 k + 2` vertices on which `build_fans` takes more than `k ^ 2` iterations to triangulate
it, in every run that succeeds: for every shuffle, every schedule and every format.  With `(2 k + 5) ^ 2` iterations every
format that reports no error does succeed. -/
theorem C52_quadratic {k : Nat} (hk : 1 ≤ k) :
    ValidPolys [cusp k] ∧ (cusp k).length = 2 * k + 2 ∧
    ∀ (cfg : Cfg), cfg.Valid → ∀ F : FanFormat Nat,
      (∀ (fuel : Nat) (o : F.O), (triangulate cfg fuel (PolyList.single (cusp k)) id F).2 = .ok o → k ^ 2 < fuel) ∧
      (F.Infallible → ∃ o s, ∀ fuel ≥ (2 * k + 5) ^ 2, triangulate cfg fuel (PolyList.single (cusp k)) id F = (s, .ok o)) := by
  refine ⟨cusp_valid hk, cusp_length k, fun cfg hcfg F => ⟨fun fuel o h => ?_, fun hF => ?_⟩⟩
  swap
  · have hd := describes_single (cusp k) (id : Coords ℚ → Coords ℚ) (by
      intro h; have := cusp_length k; rw [h] at this; simp at this)
    obtain ⟨o, s, h⟩ := (C01_valid_input_succeeds _ _ _ hd (by
      rw [List.map_id, List.map_cons, List.map_nil, indexed_snd]; exact cusp_valid hk) (by simp) cfg hcfg).1 F hF
    refine ⟨o, s, fun fuel hf => h fuel ?_⟩
    have : (PolyList.single (cusp k)).elems.length = 2 * k + 2 := by simp [PolyList.single, cusp_length]
    rw [this]; exact hf
  rcases hst : trapezoidize cfg fuel (PolyList.single (cusp k)) id with e | st
  · rw [triangulate, hst] at h
    cases e <;> cases h
  · rw [triangulate, hst] at h
    exact cusp_needs hk cfg hcfg F hst h

/-- **C52**, in terms of the documented bound: no multiple of `n log n` bounds the number of iterations of the loops on a
single polygon with `n` vertices, so neither does a multiple of `n log* n`.  The polygon does not depend on the run. -/
theorem C52_not_n_log_n (c : Nat) :
    ∃ vs : List (Coords ℚ), ValidPolys [vs] ∧
    ∀ (cfg : Cfg), cfg.Valid → ∀ (F : FanFormat Nat) (fuel : Nat) (o : F.O),
      (triangulate cfg fuel (PolyList.single vs) id F).2 = .ok o → c * (vs.length * Nat.log2 vs.length) < fuel := by
  have hj := Nat.lt_two_pow_self (n := 8 * c)
  have hk : 1 ≤ 2 ^ (16 * c) := Nat.one_le_two_pow
  obtain ⟨h1, h2, h3⟩ := C52_quadratic hk
  refine ⟨cusp (2 ^ (16 * c)), h1, fun cfg hcfg F fuel o h => lt_of_le_of_lt ?_ ((h3 cfg hcfg F).1 fuel o h)⟩
  rw [h2]
  have hlog : Nat.log2 (2 * 2 ^ (16 * c) + 2) < 16 * c + 3 := by
    rw [Nat.log2_lt (by omega), pow_add]
    omega
  have hpow : 2 ^ (16 * c) = 2 ^ (8 * c) * 2 ^ (8 * c) := by rw [← pow_add]; congr 1; omega
  calc c * ((2 * 2 ^ (16 * c) + 2) * Nat.log2 (2 * 2 ^ (16 * c) + 2))
      ≤ c * ((4 * 2 ^ (16 * c)) * (16 * c + 2)) := by gcongr <;> omega
    _ = 2 ^ (16 * c) * ((8 * c) * (8 * c + 1)) := by ring
    _ ≤ 2 ^ (16 * c) * (2 ^ (8 * c) * 2 ^ (8 * c)) := by gcongr <;> omega
    _ = (2 ^ (16 * c)) ^ 2 := by rw [← hpow, pow_two]

/-- C52: the run on a cusp of eight vertices fails with nine iterations per loop, and succeeds with more. -/
example : (triangulate (Cfg.plain (fun _ h => h) true) 9 (PolyList.single (cusp 3)) id (recorder Nat .clockwise)).2.isOk = false ∧
    (triangulate (Cfg.plain (fun _ h => h) true) 40 (PolyList.single (cusp 3)) id (recorder Nat .clockwise)).2.isOk = true := by
  decide +kernel

end Tri
