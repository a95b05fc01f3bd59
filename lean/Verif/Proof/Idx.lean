import Verif.Model.Words

/-!
# `Idx<T>` as a machine word
-/

namespace Tri

section Idx

variable {ε : Type} {w : Nat}

theorem uadd_toNat (debug : Bool) (M : Machine) (hw : M.bits = w) (a b : BitVec w) :
    (uadd debug a b : Res ε (BitVec w)).map BitVec.toNat = M.add debug a.toNat b.toNat := by
  unfold uadd Machine.add
  rw [hw]
  split
  · rename_i h
    show Except.ok _ = _
    rw [BitVec.toNat_add, Nat.mod_eq_of_lt h]
  · split
    · rfl
    · show Except.ok _ = _
      rw [BitVec.toNat_add]

theorem usize_toNat (i : Idx w) : i.usize.toNat + 1 = i.1.toNat := by
  obtain ⟨b, hb⟩ := i
  have hpos : 0 < b.toNat := Nat.pos_of_ne_zero fun h => hb (BitVec.eq_of_toNat_eq (by simpa using h))
  have hw : w ≠ 0 := by rintro rfl; have := b.isLt; simp at this; omega
  have h1 : (1 : BitVec w).toNat = 1 := by
    simp [BitVec.toNat_ofNat, Nat.mod_eq_of_lt (Nat.one_lt_two_pow hw)]
  show (b - 1).toNat + 1 = b.toNat
  rw [BitVec.toNat_sub_of_le (by rw [BitVec.le_def, h1]; exact hpos), h1]
  omega

theorem new_toNat (debug : Bool) (M : Machine) (hw : M.bits = w) (hpos : 0 < w) (i : BitVec w) :
    (Idx.new debug i : Res ε (Idx w)).map (fun j => j.usize.toNat) = M.new debug i.toNat := by
  have h1 : (1 : BitVec w).toNat = 1 := by
    have : w ≠ 0 := by omega
    simp [BitVec.toNat_ofNat, Nat.mod_eq_of_lt (Nat.one_lt_two_pow this)]
  unfold Idx.new uadd Machine.new
  rw [hw, h1]
  by_cases h : i.toNat + 1 < 2 ^ w
  · rw [if_pos h, if_pos h]
    have h2 : (i + 1).toNat = i.toNat + 1 := by rw [BitVec.toNat_add, h1, Nat.mod_eq_of_lt h]
    have h3 : i + 1 ≠ 0 := by
      intro e
      rw [e] at h2
      simp at h2
    show Except.map _ (if h : i + 1 = 0 then _ else _) = _
    rw [dif_neg h3]
    show Except.ok _ = _
    have := usize_toNat (⟨i + 1, h3⟩ : Idx w)
    simp only [h2] at this
    show Except.ok (Idx.usize (⟨i + 1, h3⟩ : Idx w)).toNat = _
    congr 1
    omega
  · rw [if_neg h, if_neg h]
    cases debug with
    | true => rfl
    | false =>
      have h3 : i + 1 = 0 := by
        apply BitVec.eq_of_toNat_eq
        have := i.isLt
        rw [BitVec.toNat_add, h1, show i.toNat + 1 = 2 ^ w by omega]
        simp
      show Except.map _ (if h : i + 1 = 0 then _ else _) = _
      rw [dif_pos h3]
      rfl

theorem usize_lt (i : Idx w) : i.usize.toNat + 1 < 2 ^ w := by
  rw [usize_toNat]
  exact i.1.isLt

theorem Idx.ext_usize {i j : Idx w} : i = j ↔ i.usize.toNat = j.usize.toNat := by
  have hi := usize_toNat i
  have hj := usize_toNat j
  constructor
  · rintro rfl
    rfl
  · intro h
    exact Subtype.ext (BitVec.eq_of_toNat_eq (by omega))

theorem new_small (debug : Bool) (i : BitVec w) (hi : i.toNat + 1 < 2 ^ w) :
    ∃ j : Idx w, (Idx.new debug i : Res ε (Idx w)) = .ok j ∧ j.usize.toNat = i.toNat := by
  have hw : 0 < w := by
    rcases Nat.eq_zero_or_pos w with rfl | h
    · simp at hi
    · exact h
  have h := new_toNat (ε := ε) debug ⟨w, 0, 0, 0, 0, 0, 0, 0, 0, 0⟩ rfl hw i
  unfold Machine.new at h
  rw [if_pos hi] at h
  generalize (Idx.new debug i : Res ε (Idx w)) = r at h
  rcases r with e | j
  · cases h
  · exact ⟨j, rfl, Except.ok.inj h⟩

end Idx

end Tri
