import Mathlib.Data.List.Permutation
import Verif.Proof.Float
import Verif.Proof.FuelRun
import Verif.Proof.Hang
import Verif.Proof.Rename
import Verif.Props.Mesh
import Verif.Props.Ending

/-!
# C41, C42, C43: floating point coordinates
-/

namespace Tri

section
variable {I V : Type} [DecidableEq I]

attribute [local instance] ieee exact

/-- **C41.**  Floating point coordinates of the usual size (products of differences do not overflow).  If every side
test is either computed without rounding or clear, that is, the two products it compares differ by more than
four units in the last place of their magnitudes, then a run with these coordinates is the run with exact
arithmetic: same outcome and same storage, whatever the format, the order, the schedule and the build. -/
theorem C41_clear_input_is_exact (f : FloatFormat) (hf : f.Usual) (cfg : Cfg) (fuel : Nat) (p : PolyList I V)
    (xy : V → Coords ℚ) (hs : ∀ i v, p.getVertex i = some v → f.Sound (xy v))
    (hc : ∀ i j k u v w, p.getVertex i = some u → p.getVertex j = some v → p.getVertex k = some w →
      xy u ≠ xy v → (xy w).y ≠ (xy v).y → (xy w).y ≠ (xy u).y →
      f.Clear (xy u) (xy v) (xy w) ∨ f.NoRounding (xy u) (xy v) (xy w))
    (F : FanFormat I) :
    triangulate cfg fuel p (fun v => (xy v).toFl f) F = triangulate cfg fuel p xy F :=
  triangulate_answers cfg fuel p xy p _ rfl (answers_toFl hf p xy hs hc) F

/-- A triangle; among its coordinates are the numbers of `f64` nearest to `0.1`, `0.3` and `0.7`. -/
def tenths : List (Coords ℚ) :=
  [⟨0, 0⟩, ⟨1, 3602879701896397 * pow2 (-55)⟩, ⟨5404319552844595 * pow2 (-54), 6305039478318694 * pow2 (-53)⟩]

theorem tenths_mem {i : Nat} {v : Coords ℚ} (h : (PolyList.single tenths).getVertex i = some v) : v ∈ tenths :=
  List.mem_of_getElem? h

/-- The coordinates of `tenths` are numbers of `f64`. -/
theorem tenths_sound (i : Nat) (v : Coords ℚ) (h : (PolyList.single tenths).getVertex i = some v) : binary64.Sound v := by
  have fit : ∀ (m k : Int), |m| ≤ 2 ^ 53 → -1074 ≤ k → |(m : ℚ) * pow2 k| ≤ pow2 (1 : Nat) →
      binary64.Fits (m * pow2 k) ∧ |(m : ℚ) * pow2 k| ≤ pow2 (1 : Nat) := fun m k h1 h2 h3 => ⟨⟨m, k, rfl, h1, h2⟩, h3⟩
  have h := tenths_mem h
  have e0 : binary64.Fits 0 ∧ |(0 : ℚ)| ≤ pow2 (1 : Nat) := by
    simpa using fit 0 0 (by decide) (by decide) (by decide +kernel)
  have e1 : binary64.Fits 1 ∧ |(1 : ℚ)| ≤ pow2 (1 : Nat) := by
    have h : (1 : ℚ) = ((1 : Int) : ℚ) * pow2 0 := by decide +kernel
    rw [h]
    exact fit 1 0 (by decide) (by decide) (by decide +kernel)
  have e2 := fit 3602879701896397 (-55) (by decide) (by decide) (by decide +kernel)
  have e3 := fit 5404319552844595 (-54) (by decide) (by decide) (by decide +kernel)
  have e4 := fit 6305039478318694 (-53) (by decide) (by decide) (by decide +kernel)
  simp only [tenths, List.mem_cons, List.not_mem_nil, or_false] at h
  rcases h with rfl | rfl | rfl
  · exact ⟨e0.1, e0.1, 1, by decide, e0.2, e0.2⟩
  · exact ⟨e1.1, e2.1, 1, by decide, e1.2, e2.2⟩
  · exact ⟨e3.1, e4.1, 1, by decide, e3.2, e4.2⟩

/-- The side tests of `tenths` are clear. -/
theorem tenths_clear (i j k : Nat) (u v w : Coords ℚ) (hu : (PolyList.single tenths).getVertex i = some u)
    (hv : (PolyList.single tenths).getVertex j = some v) (hw : (PolyList.single tenths).getVertex k = some w)
    (h1 : u ≠ v) (h2 : w.y ≠ v.y) (h3 : w.y ≠ u.y) : binary64.Clear u v w := by
  have h : ∀ u ∈ tenths, ∀ v ∈ tenths, ∀ w ∈ tenths, u ≠ v → w.y ≠ v.y → w.y ≠ u.y →
      4 * pow2 (-53) * (|(sideProducts u v w).1| + |(sideProducts u v w).2|) + pow2 (-1074) <
        |(sideProducts u v w).1 - (sideProducts u v w).2| := by decide +kernel
  exact h u (tenths_mem hu) v (tenths_mem hv) w (tenths_mem hw) h1 h2 h3

/-- The numbers of `tenths` are not on a coarse grid, and its side tests are clear. -/
example (cfg : Cfg) (fuel : Nat) (F : FanFormat Nat) :
    triangulate cfg fuel (PolyList.single tenths) (Coords.toFl binary64) F =
      triangulate cfg fuel (PolyList.single tenths) id F :=
  C41_clear_input_is_exact binary64 usual64 cfg fuel _ id tenths_sound
    (fun i j k u v w hu hv hw h1 h2 h3 => .inl (tenths_clear i j k u v w hu hv hw h1 h2 h3)) F

/-- **C41** on a grid: if all coordinates are integers of at most `L` bits, with `2 L + 2` not more than the precision,
times one power of two, then the run is the run with exact arithmetic. -/
theorem C41_grid_is_exact (f : FloatFormat) (hf : f.Usual) (k : Int) (L : Nat) (hp : 2 * L + 2 ≤ f.p)
    (hk : f.emin ≤ k ∧ f.emin ≤ 2 * k ∧ 2 * ((L : Int) + k) + 6 ≤ f.emax) (cfg : Cfg) (fuel : Nat) (p : PolyList I V)
    (xy : V → Coords ℚ) (hg : ∀ i v, p.getVertex i = some v →
      ∃ m n : Int, |m| ≤ 2 ^ L ∧ |n| ≤ 2 ^ L ∧ (xy v).x = m * pow2 k ∧ (xy v).y = n * pow2 k)
    (F : FanFormat I) :
    triangulate cfg fuel p (fun v => (xy v).toFl f) F = triangulate cfg fuel p xy F :=
  C41_clear_input_is_exact f hf cfg fuel p xy (fun i v h => grid_sound hf hp hk.1 hk.2.2 (hg i v h))
    (fun i j l u v w hu hv hw _ _ _ => .inr (grid_exact hp hk.1 hk.2.1 (hg i u hu) (hg j v hv) (hg l w hw))) F

/-- **C42.**  `f64` on a grid: polygons that are valid, with coordinates `m * 2 ^ k` for integers of at most 25 bits and
`-537 ≤ k ≤ 484`, are triangulated successfully, and every point is covered as it should be.  For `f32`: at most 11
bits and `-74 ≤ k ≤ 50`.  The fans are those of a run with exact arithmetic, so whatever is said about the latter holds. -/
theorem C42_grid_polygons (f : FloatFormat) (k : Int) (L : Nat)
    (hf : (f = binary64 ∧ L = 25 ∧ -537 ≤ k ∧ k ≤ 484) ∨ (f = binary32 ∧ L = 11 ∧ -74 ≤ k ∧ k ≤ 50))
    (p : PolyList I V) (xy : V → Coords ℚ) (gs : List (List (I × Coords ℚ)))
    (hd : Describes p xy gs) (hv : ValidPolys (gs.map (List.map Prod.snd))) (hne : gs ≠ [])
    (hg : ∀ i v, p.getVertex i = some v →
      ∃ m n : Int, |m| ≤ 2 ^ L ∧ |n| ≤ 2 ^ L ∧ (xy v).x = m * pow2 k ∧ (xy v).y = n * pow2 k)
    (cfg : Cfg) (hcfg : cfg.Valid) :
    (∀ F : FanFormat I, F.Infallible → ∃ o s, ∀ fuel ≥ (p.elems.length + 3) ^ 2,
      triangulate cfg fuel p (fun v => (xy v).toFl f) F = (s, .ok o)) ∧
    (∀ w fans, Returns cfg p (fun v => (xy v).toFl f) w fans ↔ Returns cfg p xy w fans) ∧
    ∃ fans, Returns cfg p (fun v => (xy v).toFl f) .counterclockwise fans ∧
      (∀ t ∈ fans.flatMap fanTriangles, 0 ≤ orient (place p xy t.1) (place p xy t.2.1) (place p xy t.2.2)) ∧
      ((fans.flatMap fanTriangles).map fun t => orient (place p xy t.1) (place p xy t.2.1) (place p xy t.2.2)).sum =
        regionArea (gs.map (List.map Prod.snd)) ∧
      ∀ q, ((fans.flatMap fanTriangles).filter fun t => InTriangle (placed p xy t) q).length ≤ 1 ∧
        ((∀ e ∈ (gs.map (List.map Prod.snd)).flatMap cycleEdges, ¬ OnSeg e q) →
          (Inside (gs.map (List.map Prod.snd)) q ↔ ∃ t ∈ fans.flatMap fanTriangles,
            orient (place p xy t.1) (place p xy t.2.1) (place p xy t.2.2) ≠ 0 ∧ InHull (placed p xy t) q)) := by
  have hrun : ∀ fuel (F : FanFormat I), triangulate cfg fuel p (fun v => (xy v).toFl f) F = triangulate cfg fuel p xy F := by
    intro fuel F
    rcases hf with ⟨rfl, rfl, h1, h2⟩ | ⟨rfl, rfl, h1, h2⟩
    · exact C41_grid_is_exact binary64 usual64 k 25 (by decide) (by simp only [binary64]; omega) cfg fuel p xy hg F
    · exact C41_grid_is_exact binary32 usual32 k 11 (by decide) (by simp only [binary32]; omega) cfg fuel p xy hg F
  obtain ⟨h1, h2⟩ := C01_valid_input_succeeds p xy gs hd hv hne cfg hcfg
  refine ⟨fun F hF => ?_, fun w fans => by simp only [Returns, hrun], ?_⟩
  · obtain ⟨o, s, h⟩ := h1 F hF
    exact ⟨o, s, fun fuel hf => by rw [hrun, h fuel hf]⟩
  · obtain ⟨fans, hr⟩ := h2 .counterclockwise
    refine ⟨fans, ⟨hr.1, ?_⟩, fun t ht => (C03_counterclockwise p xy gs hd hv hne cfg hcfg fans hr t ht).1,
      (C04_areas_add_up p xy gs hd hv hne cfg hcfg fans hr).1, fun q => ?_⟩
    · obtain ⟨N, hN⟩ := hr.2
      exact ⟨N, fun fuel hf => by rw [hrun]; exact hN fuel hf⟩
    · have := C02_every_point p xy gs hd hv hne cfg hcfg fans hr q
      exact ⟨this.1, this.2.2⟩

/-- C41, C42: the hypotheses hold for the square with a hole, in `f64` and in `f32`. -/
example : (∃ fans, Returns (Cfg.plain (fun _ _ => 0) true) (PolyList.nested holed) (Coords.toFl binary64) .counterclockwise fans) ∧
    ∃ fans, Returns (Cfg.plain (fun _ _ => 0) true) (PolyList.nested holed) (Coords.toFl binary32) .counterclockwise fans := by
  have grid : ∀ L : Nat, 11 ≤ L → ∀ i v, (PolyList.nested holed).getVertex i = some v →
      ∃ m n : Int, |m| ≤ 2 ^ L ∧ |n| ≤ 2 ^ L ∧ v.x = m * pow2 0 ∧ v.y = n * pow2 0 := by
    intro L hL i v h
    have hm : v ∈ holed.flatten := by
      obtain ⟨g, h1, h2⟩ := Option.bind_eq_some_iff.1 (show (holed[i.1]?.bind fun p => p[i.2]?) = some v from h)
      exact List.mem_flatten.2 ⟨g, List.mem_of_getElem? h1, List.mem_of_getElem? h2⟩
    have h1 : ∀ v ∈ holed.flatten, |v.x.num| ≤ 2 ^ 11 ∧ |v.y.num| ≤ 2 ^ 11 ∧ v.x = v.x.num * pow2 0 ∧ v.y = v.y.num * pow2 0 := by
      decide +kernel
    obtain ⟨a, b, c, d⟩ := h1 v hm
    have : (2 : Int) ^ 11 ≤ 2 ^ L := by exact_mod_cast Nat.pow_le_pow_right (by decide) hL
    exact ⟨_, _, a.trans this, b.trans this, c, d⟩
  obtain ⟨-, -, fans, h, -⟩ := C42_grid_polygons binary64 0 25 (.inl ⟨rfl, rfl, by decide, by decide⟩) _ _ _ holed_describes holed_valid
    holed_ne (grid 25 (by decide)) _ (Cfg.plain_valid (fun _ _ => 0) true)
  obtain ⟨-, -, fans', h', -⟩ := C42_grid_polygons binary32 0 11 (.inr ⟨rfl, rfl, by decide, by decide⟩) _ _ _ holed_describes holed_valid
    holed_ne (grid 11 (by decide)) _ (Cfg.plain_valid (fun _ _ => 0) true)
  exact ⟨⟨fans, h⟩, fans', h'⟩

end

section Hang

variable {I C : Type} [Scalar C]

/-- A chain of four vertices with no ear goes round in circles. -/
theorem orbit_step (w : Winding) (l : Bool) (a b c d : I × Coords C) (h1 : (l == isLeftOfLine c.2 a.2 b.2) = false)
    (h2 : (l == isLeftOfLine d.2 b.2 c.2) = false) (k : Nat) :
    Mono.buildFans (m := TrM I) w (k + 3) ⟨[a, b, c, d], 2, 2, l⟩ = Mono.buildFans w k ⟨[a, b, c, d], 2, 2, l⟩ := by
  have c1 : Mono.canTriangulate (⟨[a, b, c, d], 2, 2, l⟩ : Mono I C) = .ok false := by
    rw [← h1]; rfl
  have c2 : Mono.canTriangulate (⟨[a, b, c, d], 3, 3, l⟩ : Mono I C) = .ok false := by
    rw [← h2]; rfl
  have s1 : ∀ k, Mono.buildFans (m := TrM I) w (k + 1) ⟨[a, b, c, d], 2, 2, l⟩ = Mono.buildFans w k ⟨[a, b, c, d], 3, 3, l⟩ := by
    intro k
    show ((FanM.lift (Mono.canTriangulate (⟨[a, b, c, d], 2, 2, l⟩ : Mono I C)) >>= _) >>= _ : TrM I Unit) = _
    rw [c1]; rfl
  have s2 : ∀ k, Mono.buildFans (m := TrM I) w (k + 1) ⟨[a, b, c, d], 3, 3, l⟩ = Mono.buildFans w k ⟨[a, b, c, d], 4, 4, l⟩ := by
    intro k
    show ((FanM.lift (Mono.canTriangulate (⟨[a, b, c, d], 3, 3, l⟩ : Mono I C)) >>= _) >>= _ : TrM I Unit) = _
    rw [c2]; rfl
  rw [s1, s2]; rfl

theorem orbit_timeout (w : Winding) (l : Bool) (a b c d : I × Coords C) (h1 : (l == isLeftOfLine c.2 a.2 b.2) = false)
    (h2 : (l == isLeftOfLine d.2 b.2 c.2) = false) (k : Nat) :
    Mono.buildFans (m := TrM I) w k ⟨[a, b, c, d], 2, 2, l⟩ = ⟨[], .error .timeout⟩ := by
  induction k using Nat.strongRecOn with
  | _ k ih =>
    match k with
    | 0 => rfl
    | 1 =>
      have c1 : Mono.canTriangulate (⟨[a, b, c, d], 2, 2, l⟩ : Mono I C) = .ok false := by
        rw [← h1]; rfl
      show ((FanM.lift (Mono.canTriangulate (⟨[a, b, c, d], 2, 2, l⟩ : Mono I C)) >>= _) >>= _ : TrM I Unit) = _
      rw [c1]; rfl
    | 2 =>
      have c1 : Mono.canTriangulate (⟨[a, b, c, d], 2, 2, l⟩ : Mono I C) = .ok false := by
        rw [← h1]; rfl
      have c2 : Mono.canTriangulate (⟨[a, b, c, d], 3, 3, l⟩ : Mono I C) = .ok false := by
        rw [← h2]; rfl
      show ((FanM.lift (Mono.canTriangulate (⟨[a, b, c, d], 2, 2, l⟩ : Mono I C)) >>= _) >>= _ : TrM I Unit) = _
      rw [c1]
      show ((FanM.lift (Mono.canTriangulate (⟨[a, b, c, d], 3, 3, l⟩ : Mono I C)) >>= _) >>= _ : TrM I Unit) = _
      rw [c2]; rfl
    | k + 3 => rw [orbit_step w l a b c d h1 h2]; exact ih k (by omega)

end Hang

section Witness

attribute [local instance] ieee

/-- A point near `(1/2, 1/2)`; its coordinates are neighbouring numbers of `f64`. -/
def nearHalf (i j : Int) : Coords ℚ := ⟨1 / 2 + i * pow2 (-53), 1 / 2 + j * pow2 (-53)⟩

/-- A simple quadrilateral with coordinates in `f64`. -/
def slowQuad : List (Coords ℚ) := [⟨12, 12⟩, nearHalf 0 11, nearHalf 2 9, nearHalf 1 8]

/-- A triangle with coordinates in `f64`, of positive area. -/
def badTriangle : List (Coords ℚ) := [nearHalf 3 7, nearHalf 4 1, ⟨24, 24⟩]

/-- A simple quadrilateral with coordinates in `f64`. -/
def badQuad : List (Coords ℚ) := [nearHalf 8 4, nearHalf 10 8, ⟨12, 12⟩, nearHalf 5 3]

/-- The insertion order `o`, with the values of `math_n` for three or four vertices (`math.rs:15-21`). -/
def orderCfg (o : List Nat) (dbg : Bool) : Cfg := ⟨fun _ len => if len = o.length then o else List.range len, mathN4, dbg⟩

theorem orderCfg_valid {n : Nat} {o : List Nat} (h : o.Perm (List.range n)) (dbg : Bool) : (orderCfg o dbg).Valid := by
  intro k len
  have hl : o.length = n := by simpa using h.length_eq
  show (if len = o.length then o else List.range len).Perm _
  split
  · rename_i hh
    rw [hh, hl]
    exact h
  · exact .refl _

/-- The three polygons are valid, and their coordinates are numbers of `f64`. -/
theorem witnesses_valid : ∀ g ∈ [slowQuad, badTriangle, badQuad], ValidPolys [g] ∧ ∀ c ∈ g, binary64.Sound c := by
  have h1 : ∀ g ∈ [slowQuad, badTriangle, badQuad], polysOk [g] := by decide +kernel
  have key : ∀ c : Coords ℚ, (∃ i j : Int, c = nearHalf i j ∧ |i| ≤ 16 ∧ |j| ≤ 16) ∨ (∃ i : Int, c = ⟨i, i⟩ ∧ |i| ≤ 24) →
      binary64.Sound c := by
    rintro c (⟨i, j, rfl, hi, hj⟩ | ⟨i, rfl, hi⟩)
    · have fit : ∀ i : Int, |i| ≤ 16 → binary64.Fits (1 / 2 + i * pow2 (-53)) ∧ |1 / 2 + i * pow2 (-53)| ≤ pow2 (1 : Nat) := by
        intro i hi
        have e : pow2 (-53) * 2 ^ 53 = 1 := by rw [pow2_eq]; norm_num
        have p0 := pow2_pos (-53)
        have hi' : |(i : ℚ)| ≤ 16 := by rw [← Int.cast_abs]; exact_mod_cast hi
        rw [abs_le] at hi hi'
        refine ⟨⟨2 ^ 52 + i, -53, ?_, ?_, by decide⟩, ?_⟩
        · push_cast; linarith
        · rw [abs_le]; constructor <;> simp only [binary64] <;> omega
        · have : pow2 (1 : Nat) = 2 := by rw [pow2_nat]; norm_num
          rw [this, abs_le]
          have : pow2 (-53) ≤ 1 / 32 := by nlinarith
          constructor <;> nlinarith
      exact ⟨(fit i hi).1, (fit j hj).1, 1, by decide, (fit i hi).2, (fit j hj).2⟩
    · have fit : binary64.Fits (i : ℚ) ∧ |(i : ℚ)| ≤ pow2 (5 : Nat) := by
        have hi' : |(i : ℚ)| ≤ 24 := by rw [← Int.cast_abs]; exact_mod_cast hi
        refine ⟨⟨i, 0, by rw [pow2_eq]; simp, hi.trans (by simp [binary64]), by decide⟩, ?_⟩
        have : pow2 (5 : Nat) = 32 := by rw [pow2_nat]; norm_num
        rw [this]; linarith
      exact ⟨fit.1, fit.1, 5, by decide, fit.2, fit.2⟩
  refine fun g hg => ⟨polysOk_sound (h1 g hg), fun c hc => key c ?_⟩
  simp only [List.mem_cons, List.not_mem_nil, or_false] at hg
  rcases hg with rfl | rfl | rfl <;>
    simp only [slowQuad, badTriangle, badQuad, List.mem_cons, List.not_mem_nil, or_false] at hc
  · rcases hc with rfl | rfl | rfl | rfl
    · exact .inr ⟨12, rfl, by decide⟩
    · exact .inl ⟨_, _, rfl, by decide, by decide⟩
    · exact .inl ⟨_, _, rfl, by decide, by decide⟩
    · exact .inl ⟨_, _, rfl, by decide, by decide⟩
  · rcases hc with rfl | rfl | rfl
    · exact .inl ⟨_, _, rfl, by decide, by decide⟩
    · exact .inl ⟨_, _, rfl, by decide, by decide⟩
    · exact .inr ⟨24, rfl, by decide⟩
  · rcases hc with rfl | rfl | rfl | rfl
    · exact .inl ⟨_, _, rfl, by decide, by decide⟩
    · exact .inl ⟨_, _, rfl, by decide, by decide⟩
    · exact .inr ⟨12, rfl, by decide⟩
    · exact .inl ⟨_, _, rfl, by decide, by decide⟩

/-- The only chain of the first quadrilateral. -/
def slowChain : MonoB Nat (Fl binary64) :=
  ⟨(0, (⟨12, 12⟩ : Coords ℚ).toFl _),
    [(1, (nearHalf 0 11).toFl _), (2, (nearHalf 2 9).toFl _), (3, (nearHalf 1 8).toFl _)], true, true⟩

theorem slowChain_stuck (w : Winding) (k : Nat) :
    finishMonotone (m := TrM Nat) w k slowChain = ⟨[], .error .timeout⟩ := by
  have h0 : isLeftOfLine ((nearHalf 1 8).toFl binary64) ((⟨12, 12⟩ : Coords ℚ).toFl binary64) ((nearHalf 0 11).toFl binary64) =
      true := by decide +kernel
  have h1 : isLeftOfLine ((nearHalf 2 9).toFl binary64) ((⟨12, 12⟩ : Coords ℚ).toFl binary64) ((nearHalf 0 11).toFl binary64) =
      false := by decide +kernel
  have h2 : isLeftOfLine ((nearHalf 1 8).toFl binary64) ((nearHalf 0 11).toFl binary64) ((nearHalf 2 9).toFl binary64) =
      false := by decide +kernel
  have hb : slowChain.build = .ok (some ⟨[(0, (⟨12, 12⟩ : Coords ℚ).toFl _), (1, (nearHalf 0 11).toFl _),
      (2, (nearHalf 2 9).toFl _), (3, (nearHalf 1 8).toFl _)], 2, 2, true⟩) := by
    rw [← h0]; rfl
  unfold finishMonotone
  rw [hb]
  exact orbit_timeout w true _ _ _ _ (by simp only [h1]; rfl) (by simp only [h2]; rfl) k

/-- **C43.**  With `f64`, valid input is not always triangulated.  There is a simple quadrilateral for which
`triangulate` runs forever, whatever the insertion order, the build and the format; there is a triangle of
positive area for which it returns an error in every order; and there is a simple quadrilateral for which it
returns, in every order, two triangles one of which is clockwise and outside. -/
theorem C43_rounding_breaks_valid_input :
    (∀ g ∈ [slowQuad, badTriangle, badQuad], ValidPolys [g] ∧ ∀ c ∈ g, binary64.Sound c) ∧
    (∀ o : List Nat, o.Perm (List.range 4) → ∀ dbg (F : FanFormat Nat) fuel,
      triangulate (orderCfg o dbg) fuel (PolyList.single slowQuad) (Coords.toFl binary64) F = (F.unused, .error .timeout)) ∧
    (∀ o : List Nat, o.Perm (List.range 3) → ∀ dbg, ∃ e, ∀ fuel ≥ 40,
      (triangulate (orderCfg o dbg) fuel (PolyList.single badTriangle) (Coords.toFl binary64)
        (recorder Nat .counterclockwise)).2 = .error (.err e)) ∧
    (∀ o : List Nat, o.Perm (List.range 4) → ∀ dbg, ∀ fuel ≥ 40,
      (triangulate (orderCfg o dbg) fuel (PolyList.single badQuad) (Coords.toFl binary64)
        (recorder Nat .counterclockwise)).2 = .ok [.newFan 2 3 0, .extend 1]) ∧
    (orient (badQuad.getD 2 ⟨0, 0⟩) (badQuad.getD 0 ⟨0, 0⟩) (badQuad.getD 1 ⟨0, 0⟩) < 0 ∧
      ∃ q, ¬ Inside [badQuad] q ∧ InTriangle (badQuad.getD 2 ⟨0, 0⟩, badQuad.getD 0 ⟨0, 0⟩, badQuad.getD 1 ⟨0, 0⟩) q) := by
  have perm : ∀ {n : Nat} {P : List Nat → Prop}, (∀ o ∈ (List.range n).permutations', P o) → ∀ o, o.Perm (List.range n) → P o :=
    fun h o ho => h o (List.mem_permutations'.2 ho)
  refine ⟨witnesses_valid, ?_, ?_, ?_, ?_⟩
  · refine perm (P := fun o => ∀ dbg (F : FanFormat Nat) fuel, _) fun o ho dbg F fuel => ?_
    have h : ∀ o ∈ (List.range 4).permutations', ∀ dbg, hangCheck (orderCfg o dbg) (PolyList.single slowQuad)
        (Coords.toFl binary64) 12 12 slowChain = true := by decide +kernel
    exact run_hangs (h o ho dbg) slowChain_stuck F fuel
  · refine perm (P := fun o => ∀ dbg, _) fun o ho dbg => ?_
    have h : ∀ o ∈ (List.range 3).permutations', ∀ dbg, (match (triangulate (orderCfg o dbg) 40
        (PolyList.single badTriangle) (Coords.toFl binary64) (recorder Nat .counterclockwise)).2 with
      | .error (.err _) => true | _ => false) = true := by decide +kernel
    have h := h o ho dbg
    split at h
    · rename_i e he
      exact ⟨e, fun fuel hf => by rw [triangulate_more _ _ _ _ hf (by rw [he]; simp), he]⟩
    · cases h
  · refine perm (P := fun o => ∀ dbg, _) fun o ho dbg => ?_
    have h : ∀ o ∈ (List.range 4).permutations', ∀ dbg, (triangulate (orderCfg o dbg) 40 (PolyList.single badQuad)
        (Coords.toFl binary64) (recorder Nat .counterclockwise)).2 = .ok [.newFan 2 3 0, .extend 1] := by decide +kernel
    exact fun fuel hf => by rw [triangulate_more _ _ _ _ hf (by rw [h o ho dbg]; simp), h o ho dbg]
  · refine ⟨by decide +kernel, ⟨(badQuad.map (·.x)).sum / 3 - (nearHalf 5 3).x / 3, (badQuad.map (·.y)).sum / 3 - (nearHalf 5 3).y / 3⟩, by decide +kernel, by decide +kernel⟩

end Witness

end Tri
