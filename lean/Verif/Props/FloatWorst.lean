import Verif.Proof.FloatWorst
import Verif.Props.CostFloat
import Verif.Props.NodesWorst
import Verif.Props.Relations
import Verif.Props.WordsExact

/-!
# Properties: the worst cases with floating point coordinates (C53, C58, C64)

The polygons with large search structures and the polygons with long checks have small whole numbers as coordinates, so what
is shown with exact arithmetic holds for `f32` and `f64`.
-/

namespace Tri

section
variable {I V C D W : Type} [Scalar C] [Scalar D] [DecidableEq I]

/-- **C53**, **C64**: the size of the search structure and the number of visits in its check depend on the coordinates only through
the answers to comparisons and side tests between vertices of the input. -/
theorem C53_nodes_depend_on_answers (cfg : Cfg) (fuel : Nat) (p : PolyList I V) (xy : V → Coords C) (p' : PolyList I W)
    (xy' : W → Coords D) (he : p'.elems = p.elems)
    (ha : SameAnswers (fun i => (p.getVertex i).map xy) (fun i => (p'.getVertex i).map xy')) (st : St I C)
    (h : trapezoidize cfg fuel p xy = .ok st) :
    ∃ st', trapezoidize cfg fuel p' xy' = .ok st' ∧ st'.qs.length = st.qs.length ∧ st'.ts = st.ts ∧
      ∀ fuel qi, st'.checkQueryC fuel qi = st.checkQueryC fuel qi := by
  have hr := structure_answers cfg fuel p xy p' xy' he ha
  rw [h] at hr
  cases h2 : trapezoidize cfg fuel p' xy' with
  | error e => rw [h2] at hr; exact hr.elim
  | ok st' => rw [h2] at hr; exact ⟨st', rfl, hr⟩

end

attribute [local instance] ieee exact

/-- The formats and how many vertices they can number. -/
def SmallEnough (f : FloatFormat) (n : Nat) : Prop := (f = binary64 ∧ n ≤ 2 ^ 25) ∨ (f = binary32 ∧ n ≤ 2 ^ 11)

theorem small_answers {f : FloatFormat} {n : Nat} (hf : SmallEnough f n) (g : List (Coords ℚ))
    (hg : ∀ c ∈ g, ∃ a b : Int, |a| ≤ n ∧ |b| ≤ n ∧ c.x = a ∧ c.y = b) :
    SameAnswers (fun i => ((PolyList.single g).getVertex i).map id)
      (fun i => ((PolyList.single g).getVertex i).map fun v => (id v).toFl f) := by
  have key : ∀ L : Nat, n ≤ 2 ^ L → ∀ i v, (PolyList.single g).getVertex i = some v →
      ∃ m n : Int, |m| ≤ 2 ^ L ∧ |n| ≤ 2 ^ L ∧ (id v).x = m * pow2 0 ∧ (id v).y = n * pow2 0 := by
    intro L hL i v hv
    obtain ⟨a, b, h1, h2, h3, h4⟩ := hg v (List.mem_of_getElem? hv)
    have hL : (n : Int) ≤ 2 ^ L := by exact_mod_cast hL
    have e : pow2 0 = 1 := by decide +kernel
    exact ⟨a, b, h1.trans hL, h2.trans hL, by rw [e, mul_one]; exact h3, by rw [e, mul_one]; exact h4⟩
  rcases hf with ⟨rfl, hn⟩ | ⟨rfl, hn⟩
  · exact grid_answers _ 0 25 (.inl ⟨rfl, rfl, by decide, by decide⟩) _ _ (key 25 hn)
  · exact grid_answers _ 0 11 (.inr ⟨rfl, rfl, by decide, by decide⟩) _ _ (key 11 hn)

theorem zigzag_small (k : Nat) : ∀ c ∈ zigzag k, ∃ a b : Int, |a| ≤ (4 * k + 3 : Nat) ∧ |b| ≤ (4 * k + 3 : Nat) ∧ c.x = a ∧ c.y = b := by
  intro c hc
  simp only [zigzag, List.mem_map, List.mem_range] at hc
  obtain ⟨j, hj, rfl⟩ := hc
  refine ⟨j, if j % 4 = 0 then ((j / 4 : Nat) : Int) - (k + 3) else if j % 4 = 1 then (k + 3) - ((j / 4 : Nat) : Int)
    else if j % 4 = 3 then -1 else if j = 4 * k + 2 then -(k + 3) else 1, ?_, ?_, ?_, ?_⟩
  · rw [abs_le]; omega
  · rw [abs_le]; split_ifs <;> omega
  · simp [zigP]
  · simp only [zigP]
    split_ifs <;> push_cast <;> rfl

theorem comb_small (k : Nat) (hk : 1 ≤ k) : ∀ c ∈ combPoly k (2 * k), ∃ a b : Int, |a| ≤ (4 * k + 2 : Nat) ∧ |b| ≤ (4 * k + 2 : Nat) ∧ c.x = a ∧ c.y = b := by
  intro c hc
  simp only [combPoly, List.mem_map, List.mem_range] at hc
  obtain ⟨j, hj, rfl⟩ := hc
  refine ⟨j, if j = 0 ∨ j = 2 * k + 2 * k + 1 then -2 else if 2 * k ≤ j then ((j - 2 * k : Nat) : Int) else if j % 2 = 1 then (2 * k : Nat) + 1 else -1, ?_, ?_, ?_, ?_⟩
  · rw [abs_le]; omega
  · rw [abs_le]; split_ifs <;> omega
  · simp [combP]
  · simp only [combP]
    split_ifs <;> push_cast <;> rfl

/-- **C53** with floating point coordinates: the polygons with at least `n² / 4` query nodes, for `n` up to `2 ^ 25` with `f64` and up to
`2 ^ 11` with `f32`. -/
theorem C53_quadratically_many_nodes_float (f : FloatFormat) (k : Nat) (hk : 1 ≤ k) (hf : SmallEnough f (4 * k + 2)) (cfg : Cfg) (hcfg : cfg.Valid)
    (ho : cfg.order 0 (4 * k + 2) = startAt (2 * k) (4 * k + 2)) (fuel : Nat) (hfu : 2 * (4 * k + 2) + 3 ≤ fuel) :
    ∃ st, (4 * k + 2) ^ 2 ≤ 4 * st.qs.length ∧
      trapezoidize cfg fuel (PolyList.single (combPoly k (2 * k))) (Coords.toFl f) = .ok st := by
  obtain ⟨-, -, st, h1, h2⟩ := C53_quadratically_many_nodes k hk cfg hcfg ho
  obtain ⟨st', h3, h4, -⟩ := C53_nodes_depend_on_answers cfg fuel _ id _ _ rfl (small_answers hf _ (comb_small k hk)) st (h2 fuel hfu)
  exact ⟨st', by rw [h4]; exact h1, h3⟩

/-- **C58** with floating point coordinates: for these polygons the trapezoidation makes at least `n² / 4 - 3 n` iterations. -/
theorem C58_quadratic_cost_float (f : FloatFormat) (k : Nat) (hk : 1 ≤ k) (hf : SmallEnough f (4 * k + 2)) (cfg : Cfg) (hcfg : cfg.Valid)
    (ho : cfg.order 0 (4 * k + 2) = startAt (2 * k) (4 * k + 2)) (fuel : Nat) (hfu : 2 * (4 * k + 2) + 3 ≤ fuel) :
    (4 * k + 2) ^ 2 ≤ 4 * (trapezoidizeT cfg fuel (PolyList.single (combPoly k (2 * k))) (Coords.toFl f)).1 + 12 * (4 * k + 2) := by
  have h := C58_quadratic_cost k hk cfg hcfg ho fuel hfu
  obtain ⟨-, -, st, -, h2⟩ := C53_quadratically_many_nodes k hk cfg hcfg ho
  have h1 := C50_counts_the_code cfg fuel (PolyList.single (combPoly k (2 * k))) (id : Coords ℚ → Coords ℚ)
  rw [h2 fuel hfu] at h1
  have h3 := (C59_cost_depends_on_answers cfg fuel _ id _ _ rfl (small_answers hf _ (comb_small k hk))).1
  cases h4 : trapezoidizeC cfg fuel (PolyList.single (combPoly k (2 * k))) (id : Coords ℚ → Coords ℚ) with
  | error e => rw [h4] at h1; cases h1
  | ok r =>
    rw [h4] at h3
    cases h5 : trapezoidizeC cfg fuel (PolyList.single (combPoly k (2 * k))) (Coords.toFl f) with
    | error e => rw [show (fun v : Coords ℚ => (id v).toFl f) = Coords.toFl f from rfl, h5] at h3; cases h3
    | ok r' =>
      rw [show (fun v : Coords ℚ => (id v).toFl f) = Coords.toFl f from rfl, h5] at h3
      have h6 := (C58_counts_the_code cfg fuel _ _).2 _ _ h4
      have h7 := (C58_counts_the_code cfg fuel _ _).2 _ _ h5
      rw [h7, Except.ok.inj h3, ← h6]
      exact h

/-- **C64** with floating point coordinates: if `3 ^ k` does not fit in a word then a debug build panics for these polygons, with coordinates in
`f64` or `f32`, with every format, although they are valid and the triangulation succeeds with unbounded counters. -/
theorem C64_valid_polygon_panics_float (f : FloatFormat) (M : Machine) (hM : M.Valid) (k : Nat) (hf : SmallEnough f (4 * k + 3))
    (hk : 2 ^ M.bits ≤ 3 ^ k) (cfg : Cfg) (hcfg : cfg.Valid)
    (hdb : cfg.debug = true) (ho : cfg.order 0 (4 * k + 3) = evenOdd (4 * k + 3)) (fuel : Nat) (hfu : (4 * k + 6) ^ 2 ≤ fuel) (F : FanFormat Nat) :
    (triangulateW M cfg fuel (PolyList.single (zigzag k)) (Coords.toFl f) F).2 = .error .panic ∧
      (F.Infallible → ∃ o, (triangulate cfg fuel (PolyList.single (zigzag k)) (Coords.toFl f) F).2 = .ok o) := by
  have hans := small_answers hf _ (zigzag_small k)
  obtain ⟨-, -, st, m, hm, hrun⟩ := C64_exponentially_many_visits k cfg hcfg ho
  obtain ⟨h1, h2⟩ := hrun fuel (by nlinarith)
  obtain ⟨st', h3, -, -, h4⟩ := C53_nodes_depend_on_answers cfg fuel _ id _ _ rfl hans st h1
  constructor
  · have hp : trapezoidizeW M cfg fuel (PolyList.single (zigzag k)) (Coords.toFl f) = .error .panic := by
      rcases (C63_overflow_only_panics M hM cfg hcfg fuel (PolyList.single (zigzag k)) (Coords.toFl f)).1 with h | h
      · exact h
      · have h := ((C63_succeeds_exactly_if M hM cfg hcfg fuel (PolyList.single (zigzag k)) (Coords.toFl f)
          (by rw [zigzag_elems]; nlinarith) st').1 (h.trans h3)).2.2.2.2 hdb m (by rw [h4]; exact h2)
        omega
    unfold triangulateW
    rw [hp]
    rfl
  · intro hF
    obtain ⟨o, h⟩ := (C64_valid_polygon_panics M hM k hk cfg hcfg hdb ho fuel hfu F).2 hF
    refine ⟨o, ?_⟩
    have e := C36_only_answers_matter cfg fuel (PolyList.single (zigzag k)) id (PolyList.single (zigzag k)) _ rfl hans F
    exact (congrArg Prod.snd e).trans h

/-! ### The hypotheses are met -/

/-- `f64` and `f32`, a 64-bit machine, a polygon with 167 vertices. -/
example (f : FloatFormat) (hf : f = binary64 ∨ f = binary32) (F : FanFormat Nat) (fuel : Nat) (hfu : 170 ^ 2 ≤ fuel) :
    (triangulateW machine64 (Cfg.strokes true) fuel (PolyList.single (zigzag 41)) (Coords.toFl f) F).2 = .error .panic :=
  (C64_valid_polygon_panics_float f machine64 (by constructor <;> decide) 41 (by
    rcases hf with rfl | rfl
    · exact .inl ⟨rfl, by decide⟩
    · exact .inr ⟨rfl, by decide⟩) (by decide) _ (Cfg.strokes_valid _) rfl rfl fuel hfu F).1

/-- `f64`, 2002 vertices: more than a million query nodes, and almost a million iterations. -/
example (d : Bool) (fuel : Nat) (hfu : 4007 ≤ fuel) :
    (∃ st, 1002001 ≤ st.qs.length ∧
      trapezoidize (Cfg.late d) fuel (PolyList.single (combPoly 500 1000)) (Coords.toFl binary64) = .ok st) ∧
    995995 ≤ (trapezoidizeT (Cfg.late d) fuel (PolyList.single (combPoly 500 1000)) (Coords.toFl binary64)).1 := by
  have h1 := C53_quadratically_many_nodes_float binary64 500 (by decide) (.inl ⟨rfl, by decide⟩) (Cfg.late d) (Cfg.late_valid d) rfl fuel hfu
  have h2 := C58_quadratic_cost_float binary64 500 (by decide) (.inl ⟨rfl, by decide⟩) (Cfg.late d) (Cfg.late_valid d) rfl fuel hfu
  rw [show 2 * 500 = 1000 from rfl] at h2
  obtain ⟨st, h3, h4⟩ := h1
  exact ⟨⟨st, by omega, h4⟩, by omega⟩

end Tri
