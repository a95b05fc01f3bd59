import Verif.Model.Triangulate

/-!
# More steps do not change a trapezoidation that ended
-/

set_option linter.unusedSectionVars false

namespace Tri

variable {I V C : Type}

/-- `r'` is `r`, unless `r` ran out of steps. -/
def FLe {ε α : Type} (r r' : Res ε α) : Prop := r = .error .timeout ∨ r' = r

namespace FLe

variable {ε ε' α β : Type}

theorem refl (r : Res ε α) : FLe r r := .inr rfl

theorem out (r : Res ε α) : FLe (.error .timeout) r := .inl rfl

theorem bind {r r' : Res ε α} {f f' : α → Res ε β} (h : FLe r r') (hf : ∀ a, FLe (f a) (f' a)) :
    FLe (r >>= f) (r' >>= f') := by
  rcases h with rfl | rfl
  · exact .inl rfl
  · cases r' with
    | error e => exact .inr rfl
    | ok a => exact hf a

theorem bind' {r : Res ε α} {f f' : α → Res ε β} (hf : ∀ a, FLe (f a) (f' a)) :
    FLe (r >>= f) (r >>= f') := bind (refl r) hf

theorem ite {c : Prop} [Decidable c] {r r' s s' : Res ε α} (h : FLe r r') (h' : FLe s s') :
    FLe (if c then r else s) (if c then r' else s') := by
  split
  · exact h
  · exact h'

theorem mapErr {f : ε → ε'} {r r' : Res ε α} (h : FLe r r') : FLe (Res.mapErr f r) (Res.mapErr f r') := by
  rcases h with rfl | rfl
  · exact .inl rfl
  · exact .inr rfl

theorem foldlM {σ : Type} {f f' : σ → α → Res ε σ} (h : ∀ s a, FLe (f s a) (f' s a)) (l : List α)
    (s : σ) : FLe (l.foldlM f s) (l.foldlM f' s) := by
  induction l generalizing s with
  | nil => exact refl _
  | cons a l ih =>
    rw [List.foldlM_cons, List.foldlM_cons]
    exact bind (h s a) fun s => ih s

end FLe

section
variable [Scalar C]

theorem find_fle (qs : List (QueryNode C)) (c : Coords C) {k n : Nat} (h : k ≤ n) (qi : Nat) :
    FLe (St.find qs c k qi) (St.find qs c n qi) := by
  induction k generalizing n qi with
  | zero => exact .out _
  | succ k ih =>
    obtain ⟨n, rfl⟩ : ∃ m, n = m + 1 := ⟨n - 1, by omega⟩
    unfold St.find
    refine FLe.bind' fun q => ?_
    cases q with
    | branch l r b => exact ih (by omega) _
    | sink ti => exact .refl _

end

theorem checkQuery_fle (st : St I C) {k n : Nat} (h : k ≤ n) (qi : Nat) :
    FLe (st.checkQuery k qi) (st.checkQuery n qi) := by
  induction k generalizing n qi with
  | zero => exact .out _
  | succ k ih =>
    obtain ⟨n, rfl⟩ : ∃ m, n = m + 1 := ⟨n - 1, by omega⟩
    unfold St.checkQuery
    refine FLe.bind' fun q => ?_
    cases q with
    | branch l r b => exact FLe.bind (ih (by omega) _) fun _ => ih (by omega) _
    | sink ti => exact .refl _

theorem debugCheck_fle (cfg : Cfg) (st : St I C) {k n : Nat} (h : k ≤ n) :
    FLe (st.debugCheck cfg k) (st.debugCheck cfg n) := by
  unfold St.debugCheck St.checkConsistency
  refine FLe.ite ?_ (.refl _)
  exact FLe.bind' fun _ => FLe.bind' fun _ => checkQuery_fle st h 0

variable [Scalar C] [DecidableEq I]

theorem addVertexVL_fle (cfg : Cfg) (p : PolyList I V) (xy : V → Coords C) (st : St I C)
    (vls : List (VLoc I C)) (vli : Nat) (vi : I) (qi : Nat) {k n : Nat} (h : k ≤ n) :
    FLe (St.addVertexVL cfg k p xy st vls vli vi qi) (St.addVertexVL cfg n p xy st vls vli vi qi) := by
  unfold St.addVertexVL St.addVertex
  refine FLe.bind (FLe.bind' fun c => FLe.bind (find_fle _ _ h _) fun r => FLe.bind' fun st' =>
    FLe.bind (debugCheck_fle cfg st' h) fun _ => .refl _) fun _ => .refl _

theorem addEnds_fle (cfg : Cfg) (p : PolyList I V) (xy : V → Coords C) (st : St I C)
    (vls : List (VLoc I C)) (si : Nat) {k n : Nat} (h : k ≤ n) :
    FLe (St.addEnds cfg k p xy st vls si) (St.addEnds cfg n p xy st vls si) := by
  unfold St.addEnds
  refine FLe.bind' fun vl0 => FLe.bind' fun vl1 => ?_
  have hv := fun (st : St I C) vls vli vi qi => addVertexVL_fle cfg p xy st vls vli vi qi h
  cases vl0 <;> cases vl1
  · exact FLe.ite (FLe.bind (hv ..) fun _ => FLe.bind (hv ..) fun _ => .refl _)
      (FLe.bind (hv ..) fun _ => FLe.bind (hv ..) fun _ => .refl _)
  · exact FLe.bind (hv ..) fun _ => .refl _
  · exact FLe.bind (hv ..) fun _ => .refl _
  · exact .refl _

theorem addSegmentLoop_fle (si : Nat) (s : Segment C) (l : St.SegLoop I C) {k n : Nat} (h : k ≤ n) :
    FLe (St.addSegmentLoop si s k l) (St.addSegmentLoop si s n l) := by
  induction k generalizing n l with
  | zero => exact .out _
  | succ k ih =>
    obtain ⟨n, rfl⟩ : ∃ m, n = m + 1 := ⟨n - 1, by omega⟩
    unfold St.addSegmentLoop
    exact FLe.ite (.refl _) (FLe.bind' fun l' => ih l' (by omega))

theorem addSegment_fle (cfg : Cfg) (st : St I C) (a b : Nat) (c d : Coords C) {k n : Nat} (h : k ≤ n) :
    FLe (st.addSegment cfg k a b c d) (st.addSegment cfg n a b c d) := by
  unfold St.addSegment
  exact FLe.bind' fun l => FLe.bind (addSegmentLoop_fle _ _ l h) fun l => FLe.bind' fun ns =>
    FLe.bind (debugCheck_fle cfg _ h) fun _ => .refl _

theorem addNthSegment_fle (cfg : Cfg) (p : PolyList I V) (xy : V → Coords C) (st : St I C)
    (vls : List (VLoc I C)) (si : Nat) {k n : Nat} (h : k ≤ n) :
    FLe (St.addNthSegment cfg k p xy st vls si) (St.addNthSegment cfg n p xy st vls si) := by
  unfold St.addNthSegment
  exact FLe.bind (addEnds_fle cfg p xy st vls si h) fun r => FLe.bind' fun n0 => FLe.bind' fun n1 =>
    FLe.bind (FLe.ite (addSegment_fle cfg _ _ _ _ _ h) (addSegment_fle cfg _ _ _ _ _ h)) fun _ => .refl _

theorem walk_fle (st : St I C) (dir : Dir) (c0 c1 : Coords C) (ti : Nat) {k n : Nat} (h : k ≤ n) :
    FLe (st.walk dir c0 c1 k ti) (st.walk dir c0 c1 n ti) := by
  induction k generalizing n ti with
  | zero => exact .out _
  | succ k ih =>
    obtain ⟨n, rfl⟩ : ∃ m, n = m + 1 := ⟨n - 1, by omega⟩
    unfold St.walk
    refine FLe.bind' fun t => FLe.bind' fun done => FLe.ite (.refl _) ?_
    split
    · exact .refl _
    · exact FLe.bind' fun _ => ih _ (by omega)

theorem relocStep_fle (st : St I C) (r : St.Reloc I C) {k n : Nat} (h : k ≤ n) :
    FLe (St.relocStep k st r) (St.relocStep n st r) := by
  unfold St.relocStep
  refine FLe.bind' fun vl => ?_
  cases vl with
  | inserted c ni => exact .refl _
  | pending c vi q =>
    exact FLe.bind' fun ti => FLe.bind (walk_fle st _ _ _ _ h) fun _ => .refl _

theorem relocLoop_fle (st : St I C) (r : St.Reloc I C) {f g k n : Nat} (hf : f ≤ g) (h : k ≤ n) :
    FLe (St.relocLoop f st k r) (St.relocLoop g st n r) := by
  induction k generalizing n r with
  | zero => exact .out _
  | succ k ih =>
    obtain ⟨n, rfl⟩ : ∃ m, n = m + 1 := ⟨n - 1, by omega⟩
    unfold St.relocLoop
    exact FLe.ite (.refl _) (FLe.bind (relocStep_fle st r hf) fun r' => ih r' (by omega))

theorem polyStep_fle (cfg : Cfg) (p : PolyList I V) (xy : V → Coords C) (l : St.PolyLoop I C) (si : Nat)
    {k n : Nat} (h : k ≤ n) :
    FLe (St.polyStep cfg k p xy l si) (St.polyStep cfg n p xy l si) := by
  unfold St.polyStep St.relocate
  exact FLe.bind (addNthSegment_fle cfg p xy _ _ _ h) fun r => FLe.bind' fun pd =>
    FLe.ite (FLe.bind (relocLoop_fle _ _ h h) fun _ => .refl _) (.refl _)

theorem buildStep_fle (cfg : Cfg) (p : PolyList I V) (xy : V → Coords C) (l : St.BuildLoop I C)
    (e : Option (Elem I)) {k n : Nat} (h : k ≤ n) :
    FLe (St.buildStep cfg k p xy l e) (St.buildStep cfg n p xy l e) := by
  rcases e with _ | i | _
  · exact .refl _
  · exact .refl _
  · unfold St.buildStep St.addPolygon
    refine FLe.ite (FLe.ite (.refl _) ?_) (.refl _)
    refine FLe.bind (FLe.mapErr ?_) fun _ => .refl _
    exact FLe.bind (FLe.foldlM (fun s a => polyStep_fle cfg p xy s a h) _ _) fun _ => .refl _

/-- More steps do not change a trapezoidation that ended. -/
theorem trapezoidize_fle (cfg : Cfg) (p : PolyList I V) (xy : V → Coords C) {k n : Nat} (h : k ≤ n) :
    FLe (trapezoidize cfg k p xy) (trapezoidize cfg n p xy) := by
  unfold trapezoidize St.build
  exact FLe.bind (FLe.foldlM (fun s a => buildStep_fle cfg p xy s a h) _ _) fun _ => .refl _

end Tri
