import Verif.Model.DebugCost
import Verif.Proof.DebugCost
import Verif.Proof.WordsTriRoom
import Verif.Props.Cost
import Verif.Props.CostMany
import Verif.Props.Words

/-!
# C64: the consistency check of debug builds
-/

namespace Tri

section Any

variable {I V C : Type} [Scalar C] [DecidableEq I]

omit [Scalar C] [DecidableEq I] in
/-- **C64.**  Counting the visits does not change what the check of the search structure does. -/
theorem C64_counting_is_erased (st : St I C) (fuel qi : Nat) : (st.checkQueryC fuel qi).map (fun _ => ()) = st.checkQuery fuel qi :=
  checkQueryC_erase st fuel qi

/-- **C64.**  For every input with at most `n` vertices the check of the finished structure ends, without running into a missing node, visits fewer than
`2 ^ (2 * n + 1)` nodes and is at most `2 * n + 1` calls deep (the bound of `checkQueryC`). -/
theorem C64_visits_at_most (cfg : Cfg) (hcfg : cfg.Valid) (p : PolyList I V) (xy : V → Coords C) (fuel n : Nat) (st : St I C)
    (hn : p.elems.length ≤ n) (hf : 2 * n + 3 ≤ fuel) (h : trapezoidize cfg fuel p xy = .ok st) :
    ∃ m < 2 ^ (2 * n + 1), ∀ fuel ≥ 2 * n + 1, st.checkQueryC fuel 0 = .ok m := by
  have hc : conts p.elems ≤ n := (conts_le _).trans hn
  have hr := trapezoidize_ranked cfg hcfg (fuel := fuel) p xy (by unfold enough; omega)
  rw [h] at hr
  obtain ⟨hwf, ht, h1, h2⟩ := hr
  have hck := checkQuery_ranked (E := fun _ => False) hwf ht.deep (2 * n + 1) 0 hwf.root (by omega)
  rw [← checkQueryC_erase] at hck
  rcases hm : st.checkQueryC (2 * n + 1) 0 with e | m
  · rw [hm] at hck
    exact hck.elim
  · refine ⟨m, lt_of_lt_of_le (checkQueryC_deep ht.deep hm) (Nat.pow_le_pow_right (by omega) (by omega)), fun fuel hf => checkQueryC_more hm hf⟩

end Any

attribute [local instance] exact

theorem zigzag_elems (k : Nat) : (PolyList.single (zigzag k)).elems.length = 4 * k + 3 := by
  simp [PolyList.single, zigzag_length]

/-- **C64.**  There are valid polygons with `4 * k + 3` vertices, and an order of their sides that the shuffle can give, for which the check of the finished
structure visits at least `3 ^ k` nodes. -/
theorem C64_exponentially_many_visits (k : Nat) (cfg : Cfg) (hcfg : cfg.Valid) (ho : cfg.order 0 (4 * k + 3) = evenOdd (4 * k + 3)) :
    (zigzag k).length = 4 * k + 3 ∧ ValidPolys [zigzag k] ∧
      ∃ st m, 3 ^ k ≤ m ∧ ∀ fuel ≥ 2 * (4 * k + 3) + 3,
        trapezoidize cfg fuel (PolyList.single (zigzag k)) id = .ok st ∧ st.checkQueryC fuel 0 = .ok m := by
  refine ⟨zigzag_length k, zigzag_valid k, ?_⟩
  obtain ⟨N, l, q, f, hw, hN⟩ := zigzag_ways k cfg.mathN
  have hN := hN cfg rfl ho
  obtain ⟨r, hr, -⟩ := C37_trapezoidation_ends cfg hcfg (PolyList.single (zigzag k)) (id : Coords ℚ → Coords ℚ)
  rw [zigzag_elems] at hr
  have hr' := hr (max N (2 * (4 * k + 3) + 3)) (le_max_right _ _)
  rw [hN _ (le_max_left _ _)] at hr'
  subst hr'
  obtain ⟨m, -, hm⟩ := C64_visits_at_most cfg hcfg (PolyList.single (zigzag k)) (id : Coords ℚ → Coords ℚ) _ (4 * k + 3) l.st
    (zigzag_elems k).le (le_refl _) (hr _ (le_refl _))
  exact ⟨l.st, m, hw.trans (ways_le_checkQueryC (hm _ (le_refl _)) q f), fun fuel hf => ⟨hr fuel hf, hm fuel (by omega)⟩⟩

/-- **C64.**  If `3 ^ k` does not fit in a word then a debug build panics for these polygons, on every such machine and with every format, although they
are valid and the triangulation succeeds with unbounded numbers. -/
theorem C64_valid_polygon_panics (M : Machine) (hM : M.Valid) (k : Nat) (hk : 2 ^ M.bits ≤ 3 ^ k) (cfg : Cfg) (hcfg : cfg.Valid)
    (hdb : cfg.debug = true) (ho : cfg.order 0 (4 * k + 3) = evenOdd (4 * k + 3)) (fuel : Nat) (hf : (4 * k + 6) ^ 2 ≤ fuel) (F : FanFormat Nat) :
    (triangulateW M cfg fuel (PolyList.single (zigzag k)) id F).2 = .error .panic ∧
      (F.Infallible → ∃ o, (triangulate cfg fuel (PolyList.single (zigzag k)) id F).2 = .ok o) := by
  obtain ⟨hlen, hv, st, m, hm, hrun⟩ := C64_exponentially_many_visits k cfg hcfg ho
  have hf' : 2 * (4 * k + 3) + 3 ≤ fuel := by nlinarith
  obtain ⟨h1, h2⟩ := hrun fuel hf'
  constructor
  · have hp : trapezoidizeW M cfg fuel (PolyList.single (zigzag k)) id = .error .panic := by
      rcases (C63_overflow_only_panics M hM cfg hcfg fuel (PolyList.single (zigzag k)) (id : Coords ℚ → Coords ℚ)).1 with h | h
      · exact h
      · rw [h1] at h
        have hc := trapezoidizeW_checked hM cfg fuel (PolyList.single (zigzag k)) (id : Coords ℚ → Coords ℚ)
        rw [h] at hc
        exfalso
        rcases hc with rfl | hc
        · obtain ⟨fuel, rfl⟩ : ∃ n, fuel = n + 1 := ⟨fuel - 1, by omega⟩
          have : (1 : Nat) = m := Except.ok.inj h2
          have := Nat.one_lt_two_pow (n := M.bits) (by have := hM.bits; omega)
          omega
        · unfold St.debugCheckW at hc
          rw [if_pos hdb, hdb] at hc
          obtain ⟨n, h3⟩ : ∃ n, st.checkQueryW M true fuel 0 = .ok n := by
            rcases h3 : st.checkQueryW M true fuel 0 with e | n
            · rw [h3] at hc
              simp only [bind, Except.bind] at hc
              split at hc
              · cases hc
              · split at hc <;> cases hc
            · exact ⟨n, rfl⟩
          obtain ⟨h4, h5⟩ := checkQueryW_count h3
          rw [h2] at h4
          cases h4
          omega
    unfold triangulateW
    rw [hp]
    rfl
  · intro hF
    have hd := describes_single (zigzag k) (id : Coords ℚ → Coords ℚ) (by rintro h; rw [h] at hlen; simp at hlen)
    obtain ⟨o, s, h⟩ := (C01_valid_input_succeeds _ _ _ hd (by simpa [indexed_snd] using hv) (by simp) cfg hcfg).1 F hF
    exact ⟨o, by rw [h fuel (by rw [zigzag_elems]; exact hf)]⟩

/-- **C64.**  The check calls itself for the nodes below a node, so it needs a stack.  `checkQueryC depth` gives `timeout` if this needs more than `depth`
calls at a time.  For `m` triangles below each other more than `m` are needed, in every insertion order. -/
theorem C64_deep_recursion (m : Nat) (cfg : Cfg) (hcfg : cfg.Valid) :
    ValidPolys (triangles m) ∧ ∃ N st, (∀ fuel ≥ N, trapezoidize cfg fuel (PolyList.nested (triangles m)) id = .ok st) ∧
      ∀ depth ≤ m, st.checkQueryC depth 0 = .error .timeout := by
  obtain ⟨N, st, ⟨w, k, hk, q, t, hf⟩, h⟩ := triangles_run m cfg hcfg
  have hrun : ∀ fuel ≥ N, trapezoidize cfg fuel (PolyList.nested (triangles m)) id = .ok st := by
    intro fuel hf
    obtain ⟨c, h, -⟩ := h fuel hf
    rw [← C50_counts_the_code, h]
    rfl
  refine ⟨triangles_valid m, N, st, hrun, fun depth hd => ?_⟩
  obtain ⟨n, -, hn⟩ := C64_visits_at_most cfg hcfg (PolyList.nested (triangles m)) (id : Coords ℚ → Coords ℚ)
    (max N (2 * (PolyList.nested (triangles m)).elems.length + 3)) _ st (le_refl _) (le_max_right _ _) (hrun _ (le_max_left _ _))
  rcases checkQueryC_less (fuel' := depth) (hn (max depth _) (le_max_right _ _)) (le_max_left _ _) with h1 | h1
  · have := hf.le_checkQueryC h1
    omega
  · exact h1

/-! ### The hypotheses are met -/

/-- First all sides with even numbers. -/
def Cfg.strokes (debug : Bool) : Cfg := ⟨fun _ n => evenOdd n, fun _ _ => 1, debug⟩

theorem Cfg.strokes_valid (debug : Bool) : (Cfg.strokes debug).Valid := fun _ n => evenOdd_perm n

/-- With 64 bits a polygon with 167 vertices is enough: a debug build panics, and a build without debug assertions succeeds. -/
example (F : FanFormat Nat) (hF : F.Infallible) (fuel : Nat) (hf : 170 ^ 2 ≤ fuel) :
    (zigzag 41).length = 167 ∧ ValidPolys [zigzag 41] ∧
      (triangulateW machine64 (Cfg.strokes true) fuel (PolyList.single (zigzag 41)) id F).2 = .error .panic ∧
      ∃ o, (triangulateW machine64 (Cfg.strokes false) fuel (PolyList.single (zigzag 41)) id F).2 = .ok o := by
  refine ⟨zigzag_length _, zigzag_valid _, (C64_valid_polygon_panics machine64 (by constructor <;> decide) 41 (by decide) _ (Cfg.strokes_valid _) rfl rfl
    fuel hf F).1, ?_⟩
  have hd := describes_single (zigzag 41) (id : Coords ℚ → Coords ℚ) (by
    intro h; have := zigzag_length 41; rw [h] at this; simp at this)
  exact (C63_valid_input_enough_room machine64 (by constructor <;> decide) _ _ _ hd (by simpa [indexed_snd] using zigzag_valid 41) (by simp) _
    (Cfg.strokes_valid _) fuel 167 (zigzag_elems 41).le (by rw [zigzag_elems]; exact hf) (by decide) (by decide) (by decide) (by decide) (by decide)
    (by decide) (by decide) (by decide) (by decide) (by simp [PolyList.single, zigzag_length]) (by decide) F).2 hF

/-- The same with 32 bits and 87 vertices, and with 16 bits and 47 vertices. -/
example : 2 ^ 32 ≤ 3 ^ 21 ∧ (zigzag 21).length = 87 ∧ 2 ^ 16 ≤ 3 ^ 11 ∧ (zigzag 11).length = 47 :=
  ⟨by decide, zigzag_length _, by decide, zigzag_length _⟩

/-- The check of the structure for eleven vertices counts 125 visits. -/
example : ((trapezoidize (Cfg.strokes true) 25 (PolyList.single (zigzag 2)) id).bind fun st =>
    Res.mapErr TrapErr.internal (st.checkQueryC 25 0)) = .ok 125 := by
  decide +kernel

/-- Two triangles below each other: six calls at a time are not enough, with seven there are 29 visits. -/
example : ((trapezoidize (Cfg.plain (fun _ _ => 1) true) 25 (PolyList.nested (triangles 2)) id).bind fun st =>
    Res.mapErr TrapErr.internal (st.checkQueryC 6 0)) = .error .timeout ∧
    ((trapezoidize (Cfg.plain (fun _ _ => 1) true) 25 (PolyList.nested (triangles 2)) id).bind fun st =>
    Res.mapErr TrapErr.internal (st.checkQueryC 7 0)) = .ok 29 := by
  decide +kernel

end Tri
