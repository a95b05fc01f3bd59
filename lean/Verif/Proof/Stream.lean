import Verif.Model.Stream
import Verif.Proof.Fuel
import Verif.Props.Ending
import Mathlib.Data.List.Basic

/-!
# Reading an index iterator one element at a time
-/

set_option linter.unusedSectionVars false

namespace Tri

variable {I V C : Type} [Scalar C] [DecidableEq I]

/-- The first `n` elements, if there are so many; after the end the elements are `some .newPolygon`. -/
def IndexIter.firstFrom (it : IndexIter I) (a n : Nat) : List (Option (Elem I)) :=
  (List.range n).map fun i => (it.nth (a + i)).getD (some .newPolygon)

theorem IndexIter.firstFrom_succ (it : IndexIter I) (a n : Nat) :
    it.firstFrom a (n + 1) = (it.nth a).getD (some .newPolygon) :: it.firstFrom (a + 1) n := by
  unfold firstFrom
  rw [List.range_succ_eq_map, List.map_cons, List.map_map]
  simp only [Nat.add_zero, List.cons.injEq, true_and]
  refine List.map_congr_left fun i _ => ?_
  simp only [Function.comp]
  rw [Nat.add_assoc, Nat.add_comm 1]

/-- The loop with an iterator that goes on for `n` elements and then ends. -/
theorem buildIter_ends (cfg : Cfg) (fuel : Nat) (p : PolyList I V) (xy : V → Coords C) (it : IndexIter I) (n a k : Nat)
    (hk : n < k) (h : ∀ i < n, (it.nth (a + i)).isSome) (he : it.nth (a + n) = none) (l : St.BuildLoop I C) :
    St.buildIter cfg fuel p xy it k (it.after a) l =
      (it.firstFrom a n ++ [some Elem.newPolygon]).foldlM (St.buildStep cfg fuel p xy) l := by
  induction n generalizing a k l with
  | zero =>
    obtain ⟨k, rfl⟩ : ∃ m, k = m + 1 := ⟨k - 1, by omega⟩
    unfold St.buildIter
    have h1 : it.next (it.after a) = (none, it.after (a + 1)) := Prod.ext he rfl
    rw [h1]
    simp [IndexIter.firstFrom]
  | succ n ih =>
    obtain ⟨k, rfl⟩ : ∃ m, k = m + 1 := ⟨k - 1, by omega⟩
    unfold St.buildIter
    have h0 := h 0 (by omega)
    rw [Nat.add_zero] at h0
    obtain ⟨e, he0⟩ := Option.isSome_iff_exists.1 h0
    rw [IndexIter.firstFrom_succ, he0]
    have h1 : it.next (it.after a) = (some e, it.after (a + 1)) := Prod.ext he0 rfl
    rw [h1]
    simp only [Option.getD_some, List.cons_append, List.foldlM_cons]
    congr 1
    funext l'
    exact ih (a + 1) k (by omega) (fun i hi => by rw [Nat.add_right_comm a 1 i]; exact h (i + 1) (by omega))
      (by rw [Nat.add_right_comm a 1 n]; exact he) l'

/-- The loop with an iterator that goes on. -/
theorem buildIter_endless (cfg : Cfg) (fuel : Nat) (p : PolyList I V) (xy : V → Coords C) (it : IndexIter I)
    (h : ∀ i, (it.nth i).isSome) (a k : Nat) (l : St.BuildLoop I C) :
    St.buildIter cfg fuel p xy it k (it.after a) l =
      (it.firstFrom a k).foldlM (St.buildStep cfg fuel p xy) l >>= fun _ => .error .timeout := by
  induction k generalizing a l with
  | zero => rfl
  | succ k ih =>
    unfold St.buildIter
    obtain ⟨e, he0⟩ := Option.isSome_iff_exists.1 (h a)
    rw [IndexIter.firstFrom_succ, he0]
    have h1 : it.next (it.after a) = (some e, it.after (a + 1)) := Prod.ext he0 rfl
    rw [h1]
    simp only [Option.getD_some, List.foldlM_cons, bind_assoc]
    congr 1
    funext l'
    exact ih (a + 1) l'

theorem IndexIter.nested_collect (pss : List (List V)) (n : Nat) : ∀ (k : Nat) (es : List (Elem (Nat × Nat))), es.length < n →
    VecVecIter.collect pss n ((nested pss).after k) = es →
    (∀ i (h : i < es.length), (nested pss).nth (k + i) = some (some es[i])) ∧ (nested pss).nth (k + es.length) = none := by
  induction n with
  | zero => intro k es h; omega
  | succ n ih =>
    intro k es hl hc
    rw [show VecVecIter.collect pss (n + 1) ((nested pss).after k) = match VecVecIter.next pss ((nested pss).after k) with
      | (none, _) => []
      | (some e, it') => e :: VecVecIter.collect pss n it' from rfl] at hc
    have hn : (nested pss).nth k = (VecVecIter.next pss ((nested pss).after k)).1.map some := rfl
    have ha : (nested pss).after (k + 1) = (VecVecIter.next pss ((nested pss).after k)).2 := rfl
    rcases hx : VecVecIter.next pss ((nested pss).after k) with ⟨o, s'⟩
    rw [hx] at hc hn ha
    cases o with
    | none =>
      simp only at hc
      subst hc
      exact ⟨fun i h => by simp at h, hn⟩
    | some e =>
      simp only at hc
      subst hc
      simp only [List.length_cons] at hl
      obtain ⟨h1, h2⟩ := ih (k + 1) (VecVecIter.collect pss n s') (by omega) (by rw [ha])
      refine ⟨fun i h => ?_, ?_⟩
      · cases i with
        | zero => rw [Nat.add_zero, hn]; rfl
        | succ i =>
          rw [show k + (i + 1) = k + 1 + i by omega, h1 i (by simpa using h)]
          rfl
      · rw [List.length_cons, show ∀ m, k + (m + 1) = k + 1 + m by intro m; omega]
        exact h2

end Tri
