import Mathlib.Data.List.Nodup
import Verif.Proof.Safe

/-!
# Nexuses as lists of trapezoids
-/

set_option linter.unusedSectionVars false

namespace Tri

variable {I C : Type}

namespace Nexus

/-- The dividers of direction `dir`. -/
def divs (n : Nexus I C) (dir : Dir) : List Divider := n.dividers.toList.filter fun d => d.dir = dir

theorem iter_eq (n : Nexus I C) (dir : Dir) :
    n.iterTrapezoids dir = n.leftmost dir :: (n.divs dir).map (·.tiRight) := by
  unfold iterTrapezoids divs
  rcases n.dividers with _ | d0 | ⟨d0, d1⟩
  · rfl
  · by_cases h0 : d0.dir = dir <;> simp [Zot.toList, h0]
  · by_cases h0 : d0.dir = dir <;> by_cases h1 : d1.dir = dir <;> simp [Zot.toList, h0, h1]

theorem filterDividers_toList (n : Nexus I C) (dir : Dir) : (n.filterDividers dir).toList = n.divs dir := by
  unfold filterDividers divs
  rcases n.dividers with _ | d0 | ⟨d0, d1⟩
  · rfl
  · by_cases h0 : d0.dir = dir <;> simp [Zot.first, Zot.second, Zot.fromOptions, Zot.toList, Option.filter, h0]
  · by_cases h0 : d0.dir = dir <;> by_cases h1 : d1.dir = dir <;>
      simp [Zot.first, Zot.second, Zot.fromOptions, Zot.toList, Option.filter, h0, h1]

theorem zot_last (z : Zot Divider) : z.last = z.toList.getLast? := by
  rcases z with _ | d0 | ⟨d0, d1⟩ <;> rfl

theorem filterDividers_last (n : Nexus I C) (dir : Dir) : (n.filterDividers dir).last = (n.divs dir).getLast? := by
  rw [zot_last, filterDividers_toList]

theorem mem_divs {n : Nexus I C} {dir : Dir} {d : Divider} :
    d ∈ n.divs dir ↔ d ∈ n.dividers.toList ∧ d.dir = dir := by
  simp [divs]

/-- `x` becomes `y`. -/
def rn (x y z : Nat) : Nat := if z = x then y else z

/-- Every `x` becomes `y`. -/
def ren (n : Nexus I C) (x y : Nat) : Nexus I C where
  vi := n.vi
  c := n.c
  tiUpleft := rn x y n.tiUpleft
  tiDownleft := rn x y n.tiDownleft
  dividers := n.dividers.map fun d => { d with tiRight := rn x y d.tiRight }

theorem zot_map_toList {α β : Type} (f : α → β) (z : Zot α) : (z.map f).toList = z.toList.map f := by
  cases z <;> rfl

theorem ren_divs (n : Nexus I C) (x y : Nat) (dir : Dir) :
    (n.ren x y).divs dir = (n.divs dir).map fun d => { d with tiRight := rn x y d.tiRight } := by
  unfold divs ren
  simp only [zot_map_toList]
  rw [List.filter_map]
  rfl

theorem ren_iter (n : Nexus I C) (x y : Nat) (dir : Dir) :
    (n.ren x y).iterTrapezoids dir = (n.iterTrapezoids dir).map (rn x y) := by
  rw [iter_eq, iter_eq, ren_divs]
  cases dir <;> simp [leftmost, ren]

theorem replace_run {n : Nexus I C} {x y : Nat} (hn : (n.iterTrapezoids .asc ++ n.iterTrapezoids .desc).Nodup)
    (hx : x ∈ n.iterTrapezoids .asc ++ n.iterTrapezoids .desc) : n.replaceTrapezoid x y = .ok (n.ren x y) := by
  obtain ⟨vi, c, u, d, z⟩ := n
  simp only [iterTrapezoids, leftmost] at hn hx
  simp only [replaceTrapezoid, ren, rn]
  rcases z with _ | d0 | ⟨d0, d1⟩
  · simp at hn hx ⊢
    by_cases h1 : u = x
    · subst h1; simp [Zot.map, Ne.symm hn]
    · have : x = d := by tauto
      subst this; simp [Zot.map, h1]
  · obtain ⟨s0, t0, b0⟩ := d0
    by_cases h1 : u = x
    · subst h1
      cases b0 <;> simp at hn hx ⊢ <;> simp [Zot.map]
      all_goals constructor
      all_goals intro h; subst h; simp at hn
    · by_cases h2 : d = x
      · subst h2
        rw [if_neg h1, if_pos rfl, if_neg h1, if_pos rfl]
        cases b0 <;> simp at hn ⊢ <;> simp [Zot.map]
        all_goals intro h; subst h; simp at hn
      · have : t0 = x := by
          cases b0 <;> simp at hx <;> tauto
        subst this
        simp [h1, h2, Zot.map]
  · obtain ⟨s0, t0, b0⟩ := d0
    obtain ⟨s1, t1, b1⟩ := d1
    have hall : u ≠ d ∧ u ≠ t0 ∧ u ≠ t1 ∧ d ≠ t0 ∧ d ≠ t1 ∧ t0 ≠ t1 := by
      cases b0 <;> cases b1 <;> simp at hn <;> (refine ⟨?_, ?_, ?_, ?_, ?_, ?_⟩ <;> intro h <;> subst h <;> simp at hn)
    have hx' : x = u ∨ x = d ∨ x = t0 ∨ x = t1 := by
      cases b0 <;> cases b1 <;> simp at hx <;> tauto
    obtain ⟨h1, h2, h3, h4, h5, h6⟩ := hall
    rcases hx' with rfl | rfl | rfl | rfl
    · simp [Zot.map, h1.symm, h2.symm, h3.symm]
    · simp [Zot.map, h1, h4.symm, h5.symm]
    · simp [Zot.map, h2, h4, h6.symm]
    · simp [Zot.map, h3, h5, h6]

end Nexus

end Tri
