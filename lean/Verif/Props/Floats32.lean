import Verif.Props.Floats

/-!
# Properties: what rounding does with `f32` (C43)

The polygons of `Floats.lean`, with the precision of `f32` instead of `f64`.
-/

namespace Tri

attribute [local instance] ieee

/-- A point near `(1/2, 1/2)`; its coordinates are neighbouring numbers of `f32`. -/
def nearHalf32 (i j : Int) : Coords ℚ := ⟨1 / 2 + i * pow2 (-24), 1 / 2 + j * pow2 (-24)⟩

/-- A simple quadrilateral with coordinates in `f32`. -/
def slowQuad32 : List (Coords ℚ) := [⟨12, 12⟩, nearHalf32 0 11, nearHalf32 2 9, nearHalf32 1 8]

/-- A triangle with coordinates in `f32`, of positive area. -/
def badTriangle32 : List (Coords ℚ) := [nearHalf32 3 7, nearHalf32 4 1, ⟨24, 24⟩]

/-- A simple quadrilateral with coordinates in `f32`. -/
def badQuad32 : List (Coords ℚ) := [nearHalf32 8 4, nearHalf32 10 8, ⟨12, 12⟩, nearHalf32 5 3]

/-- The three polygons are valid, and their coordinates are numbers of `f32`. -/
theorem witnesses_valid32 : ∀ g ∈ [slowQuad32, badTriangle32, badQuad32], ValidPolys [g] ∧ ∀ c ∈ g, binary32.Sound c := by
  have h1 : ∀ g ∈ [slowQuad32, badTriangle32, badQuad32], polysOk [g] := by decide +kernel
  have key : ∀ c : Coords ℚ, (∃ i j : Int, c = nearHalf32 i j ∧ |i| ≤ 16 ∧ |j| ≤ 16) ∨ (∃ i : Int, c = ⟨i, i⟩ ∧ |i| ≤ 24) →
      binary32.Sound c := by
    rintro c (⟨i, j, rfl, hi, hj⟩ | ⟨i, rfl, hi⟩)
    · have fit : ∀ i : Int, |i| ≤ 16 → binary32.Fits (1 / 2 + i * pow2 (-24)) ∧ |1 / 2 + i * pow2 (-24)| ≤ pow2 (1 : Nat) := by
        intro i hi
        have e : pow2 (-24) * 2 ^ 24 = 1 := by rw [pow2_eq]; norm_num
        have p0 := pow2_pos (-24)
        have hi' : |(i : ℚ)| ≤ 16 := by rw [← Int.cast_abs]; exact_mod_cast hi
        rw [abs_le] at hi hi'
        refine ⟨⟨2 ^ 23 + i, -24, ?_, ?_, by decide⟩, ?_⟩
        · push_cast; linarith
        · rw [abs_le]; constructor <;> simp only [binary32] <;> omega
        · have : pow2 (1 : Nat) = 2 := by rw [pow2_nat]; norm_num
          rw [this, abs_le]
          have : pow2 (-24) ≤ 1 / 32 := by nlinarith
          constructor <;> nlinarith
      exact ⟨(fit i hi).1, (fit j hj).1, 1, by decide, (fit i hi).2, (fit j hj).2⟩
    · have fit : binary32.Fits (i : ℚ) ∧ |(i : ℚ)| ≤ pow2 (5 : Nat) := by
        have hi' : |(i : ℚ)| ≤ 24 := by rw [← Int.cast_abs]; exact_mod_cast hi
        refine ⟨⟨i, 0, by rw [pow2_eq]; simp, hi.trans (by simp [binary32]), by decide⟩, ?_⟩
        have : pow2 (5 : Nat) = 32 := by rw [pow2_nat]; norm_num
        rw [this]; linarith
      exact ⟨fit.1, fit.1, 5, by decide, fit.2, fit.2⟩
  refine fun g hg => ⟨polysOk_sound (h1 g hg), fun c hc => key c ?_⟩
  simp only [List.mem_cons, List.not_mem_nil, or_false] at hg
  rcases hg with rfl | rfl | rfl <;>
    simp only [slowQuad32, badTriangle32, badQuad32, List.mem_cons, List.not_mem_nil, or_false] at hc
  · rcases hc with rfl | rfl | rfl | rfl
    · exact .inr ⟨12, rfl, by decide⟩
    · exact .inl ⟨_, _, rfl, by decide, by decide⟩
    · exact .inl ⟨_, _, rfl, by decide, by decide⟩
    · exact .inl ⟨_, _, rfl, by decide, by decide⟩
  · rcases hc with rfl | rfl | rfl
    · exact .inl ⟨_, _, rfl, by decide, by decide⟩
    · exact .inl ⟨_, _, rfl, by decide, by decide⟩
    · exact .inr ⟨24, rfl, by decide⟩
  · rcases hc with rfl | rfl | rfl | rfl
    · exact .inl ⟨_, _, rfl, by decide, by decide⟩
    · exact .inl ⟨_, _, rfl, by decide, by decide⟩
    · exact .inr ⟨12, rfl, by decide⟩
    · exact .inl ⟨_, _, rfl, by decide, by decide⟩

/-- The only chain of the first quadrilateral. -/
def slowChain32 : MonoB Nat (Fl binary32) :=
  ⟨(0, (⟨12, 12⟩ : Coords ℚ).toFl _),
    [(1, (nearHalf32 0 11).toFl _), (2, (nearHalf32 2 9).toFl _), (3, (nearHalf32 1 8).toFl _)], true, true⟩

theorem slowChain32_stuck (w : Winding) (k : Nat) :
    finishMonotone (m := TrM Nat) w k slowChain32 = ⟨[], .error .timeout⟩ := by
  have h0 : isLeftOfLine ((nearHalf32 1 8).toFl binary32) ((⟨12, 12⟩ : Coords ℚ).toFl binary32) ((nearHalf32 0 11).toFl binary32) =
      true := by decide +kernel
  have h1 : isLeftOfLine ((nearHalf32 2 9).toFl binary32) ((⟨12, 12⟩ : Coords ℚ).toFl binary32) ((nearHalf32 0 11).toFl binary32) =
      false := by decide +kernel
  have h2 : isLeftOfLine ((nearHalf32 1 8).toFl binary32) ((nearHalf32 0 11).toFl binary32) ((nearHalf32 2 9).toFl binary32) =
      false := by decide +kernel
  have hb : slowChain32.build = .ok (some ⟨[(0, (⟨12, 12⟩ : Coords ℚ).toFl _), (1, (nearHalf32 0 11).toFl _),
      (2, (nearHalf32 2 9).toFl _), (3, (nearHalf32 1 8).toFl _)], 2, 2, true⟩) := by
    rw [← h0]; rfl
  unfold finishMonotone
  rw [hb]
  exact orbit_timeout w true _ _ _ _ (by simp only [h1]; rfl) (by simp only [h2]; rfl) k

/-- **C43.**  With `f32`, valid input is not always triangulated.  There is a simple quadrilateral for which
`triangulate` runs forever, whatever the insertion order, the build and the format; there is a triangle of
positive area for which it returns an error in every order; and there is a simple quadrilateral for which it
returns, in every order, two triangles one of which is clockwise and outside. -/
theorem C43_rounding_breaks_valid_input_f32 :
    (∀ g ∈ [slowQuad32, badTriangle32, badQuad32], ValidPolys [g] ∧ ∀ c ∈ g, binary32.Sound c) ∧
    (∀ o : List Nat, o.Perm (List.range 4) → ∀ dbg (F : FanFormat Nat) fuel,
      triangulate (orderCfg o dbg) fuel (PolyList.single slowQuad32) (Coords.toFl binary32) F = (F.unused, .error .timeout)) ∧
    (∀ o : List Nat, o.Perm (List.range 3) → ∀ dbg, ∃ e, ∀ fuel ≥ 40,
      (triangulate (orderCfg o dbg) fuel (PolyList.single badTriangle32) (Coords.toFl binary32)
        (recorder Nat .counterclockwise)).2 = .error (.err e)) ∧
    (∀ o : List Nat, o.Perm (List.range 4) → ∀ dbg, ∀ fuel ≥ 40,
      (triangulate (orderCfg o dbg) fuel (PolyList.single badQuad32) (Coords.toFl binary32)
        (recorder Nat .counterclockwise)).2 = .ok [.newFan 2 3 0, .extend 1]) ∧
    (orient (badQuad32.getD 2 ⟨0, 0⟩) (badQuad32.getD 0 ⟨0, 0⟩) (badQuad32.getD 1 ⟨0, 0⟩) < 0 ∧
      ∃ q, ¬ Inside [badQuad32] q ∧ InTriangle (badQuad32.getD 2 ⟨0, 0⟩, badQuad32.getD 0 ⟨0, 0⟩, badQuad32.getD 1 ⟨0, 0⟩) q) := by
  have perm : ∀ {n : Nat} {P : List Nat → Prop}, (∀ o ∈ (List.range n).permutations', P o) → ∀ o, o.Perm (List.range n) → P o :=
    fun h o ho => h o (List.mem_permutations'.2 ho)
  refine ⟨witnesses_valid32, ?_, ?_, ?_, ?_⟩
  · refine perm (P := fun o => ∀ dbg (F : FanFormat Nat) fuel, _) fun o ho dbg F fuel => ?_
    have h : ∀ o ∈ (List.range 4).permutations', ∀ dbg, hangCheck (orderCfg o dbg) (PolyList.single slowQuad32)
        (Coords.toFl binary32) 12 12 slowChain32 = true := by decide +kernel
    exact run_hangs (h o ho dbg) slowChain32_stuck F fuel
  · refine perm (P := fun o => ∀ dbg, _) fun o ho dbg => ?_
    have h : ∀ o ∈ (List.range 3).permutations', ∀ dbg, (match (triangulate (orderCfg o dbg) 40
        (PolyList.single badTriangle32) (Coords.toFl binary32) (recorder Nat .counterclockwise)).2 with
      | .error (.err _) => true | _ => false) = true := by decide +kernel
    have h := h o ho dbg
    split at h
    · rename_i e he
      exact ⟨e, fun fuel hf => by rw [triangulate_more _ _ _ _ hf (by rw [he]; simp), he]⟩
    · cases h
  · refine perm (P := fun o => ∀ dbg, _) fun o ho dbg => ?_
    have h : ∀ o ∈ (List.range 4).permutations', ∀ dbg, (triangulate (orderCfg o dbg) 40 (PolyList.single badQuad32)
        (Coords.toFl binary32) (recorder Nat .counterclockwise)).2 = .ok [.newFan 2 3 0, .extend 1] := by decide +kernel
    exact fun fuel hf => by rw [triangulate_more _ _ _ _ hf (by rw [h o ho dbg]; simp), h o ho dbg]
  · refine ⟨by decide +kernel, ⟨(badQuad32.map (·.x)).sum / 3 - (nearHalf32 5 3).x / 3, (badQuad32.map (·.y)).sum / 3 - (nearHalf32 5 3).y / 3⟩, by decide +kernel, by decide +kernel⟩

end Tri
