import Verif.Model.Cost

/-!
# The counts do not change the results
-/

namespace Tri

variable {I V C : Type}

/-- A result without its count. -/
def Res.fst {ε α : Type} (x : Res ε (α × Nat)) : Res ε α :=
  match x with
  | .ok (a, _) => .ok a
  | .error e => .error e

@[simp] theorem Res.fst_ok {ε α : Type} (a : α) (n : Nat) : Res.fst (.ok (a, n) : Res ε (α × Nat)) = .ok a := rfl

@[simp] theorem Res.fst_error {ε α : Type} (e : Fault ε) : Res.fst (.error e : Res ε (α × Nat)) = .error e := rfl

theorem Res.fst_bind {ε α β : Type} (x : Res ε (α × Nat)) (f : α × Nat → Res ε (β × Nat)) (g : α → Res ε β)
    (h : ∀ a n, Res.fst (f (a, n)) = g a) : Res.fst (x >>= f) = Res.fst x >>= g := by
  rcases x with e | ⟨a, n⟩
  · rfl
  · exact h a n

theorem Res.fst_bind' {ε α β : Type} (x : Res ε α) (f : α → Res ε (β × Nat)) (g : α → Res ε β)
    (h : ∀ a, Res.fst (f a) = g a) : Res.fst (x >>= f) = x >>= g := by
  rcases x with e | a
  · rfl
  · exact h a

theorem Res.fst_ite {ε α : Type} (c : Prop) [Decidable c] (x y : Res ε (α × Nat)) :
    Res.fst (if c then x else y) = if c then Res.fst x else Res.fst y := by
  split <;> rfl

theorem ite_same {α : Sort _} {c d : Prop} [Decidable c] [Decidable d] {x y x' y' : α} (h : c ↔ d) (hx : x = x')
    (hy : y = y') : (if c then x else y) = if d then x' else y' := by
  subst hx; subst hy
  by_cases hc : c
  · rw [if_pos hc, if_pos (h.1 hc)]
  · rw [if_neg hc, if_neg fun hd => hc (h.2 hd)]

theorem Res.fst_eq_ok {ε α : Type} {x : Res ε (α × Nat)} {a : α} (h : Res.fst x = .ok a) : ∃ n, x = .ok (a, n) := by
  rcases x with e | ⟨b, n⟩
  · cases h
  · cases h; exact ⟨n, rfl⟩

theorem Res.fst_foldlM {ε α β : Type} (f : α × Nat → β → Res ε (α × Nat)) (g : α → β → Res ε α)
    (h : ∀ a n b, Res.fst (f (a, n) b) = g a b) (l : List β) (a : α) (n : Nat) :
    Res.fst (l.foldlM f (a, n)) = l.foldlM g a := by
  induction l generalizing a n with
  | nil => rfl
  | cons b l ih =>
    rw [List.foldlM_cons, List.foldlM_cons, Res.fst_bind _ _ (fun a => l.foldlM g a) (fun a n => ih a n), h]

namespace St

variable [Scalar C]

theorem findC_fst (qs : List (QueryNode C)) (c : Coords C) (fuel qi : Nat) :
    Res.fst (findC qs c fuel qi) = find qs c fuel qi := by
  induction fuel generalizing qi with
  | zero => rfl
  | succ fuel ih =>
    refine Res.fst_bind' _ _ _ fun n => ?_
    cases n with
    | branch l r b =>
      show Res.fst (findC qs c fuel (if b.useLeft c then l else r) >>= _) = _
      rw [Res.fst_bind _ _ (fun a => .ok a) (fun a n => rfl), ih]
      show _ = find qs c fuel (if b.useLeft c then l else r)
      cases find qs c fuel (if b.useLeft c then l else r) <;> rfl
    | sink ti => rfl

theorem addVertexC_fst (cfg : Cfg) (fuel : Nat) (p : PolyList I V) (xy : V → Coords C) (st : St I C) (vi : I) (q : Nat) :
    Res.fst (addVertexC cfg fuel p xy st vi q) = addVertex cfg fuel p xy st vi q := by
  refine Res.fst_bind' _ _ _ fun c => ?_
  rw [← findC_fst]
  refine Res.fst_bind _ _ _ fun a n => ?_
  exact Res.fst_bind' _ _ _ fun st' => Res.fst_bind' _ _ _ fun _ => rfl

variable [DecidableEq I]

theorem addSegmentLoopC_fst (si : Nat) (s : Segment C) (fuel : Nat) (l : SegLoop I C) :
    Res.fst (addSegmentLoopC si s fuel l) = addSegmentLoop si s fuel l := by
  induction fuel generalizing l with
  | zero => rfl
  | succ fuel ih =>
    rw [addSegmentLoopC, addSegmentLoop, Res.fst_ite]
    refine ite_same Iff.rfl rfl ?_
    refine Res.fst_bind' _ _ _ fun l' => ?_
    rw [Res.fst_bind _ _ (fun a => .ok a) (fun a n => rfl), ih]
    cases addSegmentLoop si s fuel l' <;> rfl

theorem addSegmentC_fst (cfg : Cfg) (fuel : Nat) (st : St I C) (a b : Nat) (ca cb : Coords C) :
    Res.fst (addSegmentC cfg fuel st a b ca cb) = addSegment cfg fuel st a b ca cb := by
  refine Res.fst_bind' _ _ _ fun l => ?_
  rw [← addSegmentLoopC_fst]
  refine Res.fst_bind _ _ _ fun l' n => ?_
  exact Res.fst_bind' _ _ _ fun _ => Res.fst_bind' _ _ _ fun _ => rfl

omit [DecidableEq I] in
theorem addVertexVLC_fst (cfg : Cfg) (fuel : Nat) (p : PolyList I V) (xy : V → Coords C) (st : St I C)
    (vls : List (VLoc I C)) (vli : Nat) (vi : I) (qi : Nat) :
    Res.fst (addVertexVLC cfg fuel p xy st vls vli vi qi) = addVertexVL cfg fuel p xy st vls vli vi qi := by
  rw [addVertexVL, ← addVertexC_fst]
  refine Res.fst_bind _ _ _ fun a n => ?_
  exact Res.fst_bind' _ _ _ fun _ => rfl

omit [DecidableEq I] in
theorem addEndsC_fst (cfg : Cfg) (fuel : Nat) (p : PolyList I V) (xy : V → Coords C) (st : St I C)
    (vls : List (VLoc I C)) (si : Nat) :
    Res.fst (addEndsC cfg fuel p xy st vls si) = addEnds cfg fuel p xy st vls si := by
  refine Res.fst_bind' _ _ _ fun vl0 => ?_
  refine Res.fst_bind' _ _ _ fun vl1 => ?_
  rcases vl0 with ⟨c0, i0, q0⟩ | ⟨c0, n0⟩ <;> rcases vl1 with ⟨c1, i1, q1⟩ | ⟨c1, n1⟩
  · dsimp only
    rw [Res.fst_ite]
    refine ite_same Iff.rfl ?_ ?_
    · rw [← addVertexVLC_fst]
      refine Res.fst_bind _ _ _ fun a n => ?_
      dsimp only
      rw [← addVertexVLC_fst]
      exact Res.fst_bind _ _ _ fun a n => rfl
    · rw [← addVertexVLC_fst]
      refine Res.fst_bind _ _ _ fun a n => ?_
      dsimp only
      rw [← addVertexVLC_fst]
      exact Res.fst_bind _ _ _ fun a n => rfl
  · dsimp only
    rw [← addVertexVLC_fst]
    exact Res.fst_bind _ _ _ fun a n => rfl
  · dsimp only
    rw [← addVertexVLC_fst]
    exact Res.fst_bind _ _ _ fun a n => rfl
  · rfl

theorem addNthSegmentC_fst (cfg : Cfg) (fuel : Nat) (p : PolyList I V) (xy : V → Coords C) (st : St I C)
    (vls : List (VLoc I C)) (si : Nat) :
    Res.fst (addNthSegmentC cfg fuel p xy st vls si) = addNthSegment cfg fuel p xy st vls si := by
  rw [addNthSegment, ← addEndsC_fst]
  refine Res.fst_bind _ _ _ fun a n => ?_
  refine Res.fst_bind' _ _ _ fun n0 => ?_
  refine Res.fst_bind' _ _ _ fun n1 => ?_
  rw [← addSegmentC_fst, ← addSegmentC_fst, ← Res.fst_ite]
  exact Res.fst_bind _ _ _ fun a n => rfl

theorem walkC_fst (st : St I C) (dir : Dir) (co ct : Coords C) (fuel ti : Nat) :
    Res.fst (walkC st dir co ct fuel ti) = walk st dir co ct fuel ti := by
  induction fuel generalizing ti with
  | zero => rfl
  | succ fuel ih =>
    refine Res.fst_bind' _ _ _ fun t => ?_
    refine Res.fst_bind' _ _ _ fun done => ?_
    rw [Res.fst_ite]
    refine ite_same Iff.rfl rfl ?_
    cases dir <;> dsimp only
    · cases t.up with
      | none => rfl
      | some ni =>
        refine Res.fst_bind' _ _ _ fun n => ?_
        rw [Res.fst_bind _ _ (fun a => .ok a) (fun a n => rfl), ih]
        cases walk st .asc co ct fuel (n.getTrapezoidBetweenCoords .asc co ct) <;> rfl
    · cases t.down with
      | none => rfl
      | some ni =>
        refine Res.fst_bind' _ _ _ fun n => ?_
        rw [Res.fst_bind _ _ (fun a => .ok a) (fun a n => rfl), ih]
        cases walk st .desc co ct fuel (n.getTrapezoidBetweenCoords .desc co ct) <;> rfl

theorem relocStepC_fst (fuel : Nat) (st : St I C) (r : Reloc I C) :
    Res.fst (relocStepC fuel st r) = relocStep fuel st r := by
  refine Res.fst_bind' _ _ _ fun vl => ?_
  rcases vl with ⟨cT, vi, q⟩ | ⟨c, ni⟩
  · dsimp only
    refine Res.fst_bind' _ _ _ fun ti => ?_
    rw [← walkC_fst]
    refine Res.fst_bind _ _ _ fun ti n => ?_
    exact Res.fst_bind' _ _ _ fun _ => Res.fst_bind' _ _ _ fun _ => rfl
  · exact Res.fst_bind' _ _ _ fun _ => rfl

theorem relocLoopC_fst (fuel : Nat) (st : St I C) (k : Nat) (r : Reloc I C) :
    Res.fst (relocLoopC fuel st k r) = relocLoop fuel st k r := by
  induction k generalizing r with
  | zero => rfl
  | succ k ih =>
    rw [relocLoopC, relocLoop, Res.fst_ite]
    refine ite_same Iff.rfl rfl ?_
    rw [← relocStepC_fst]
    refine Res.fst_bind _ _ _ fun r' n => ?_
    dsimp only
    rw [Res.fst_bind _ _ (fun a => .ok a) (fun a n => rfl), ih]
    cases relocLoop fuel st k r' <;> rfl

theorem polyStepC_fst (cfg : Cfg) (fuel : Nat) (p : PolyList I V) (xy : V → Coords C) (l : PolyLoop I C) (n vi0 : Nat) :
    Res.fst (polyStepC cfg fuel p xy (l, n) vi0) = polyStep cfg fuel p xy l vi0 := by
  rw [polyStep, ← addNthSegmentC_fst]
  refine Res.fst_bind _ _ _ fun a k => ?_
  refine Res.fst_bind' _ _ _ fun pending => ?_
  rw [Res.fst_ite]
  refine ite_same Iff.rfl ?_ rfl
  rw [relocate, ← relocLoopC_fst]
  exact Res.fst_bind _ _ _ fun a k => rfl

theorem addPolygonC_fst (cfg : Cfg) (fuel : Nat) (p : PolyList I V) (xy : V → Coords C) (k : Nat) (st : St I C)
    (vls : List (VLoc I C)) :
    Res.fst (addPolygonC cfg fuel p xy k st vls) = addPolygon cfg fuel p xy k st vls := by
  rw [addPolygon, ← Res.fst_foldlM (polyStepC cfg fuel p xy) _ (polyStepC_fst cfg fuel p xy) _ _ 0]
  exact Res.fst_bind _ _ _ fun a n => rfl

theorem buildStepC_fst (cfg : Cfg) (fuel : Nat) (p : PolyList I V) (xy : V → Coords C) (l : BuildLoop I C) (n : Nat)
    (e : Option (Elem I)) : Res.fst (buildStepC cfg fuel p xy (l, n) e) = buildStep cfg fuel p xy l e := by
  rcases e with _ | i | _
  · rfl
  · exact Res.fst_bind' _ _ _ fun _ => rfl
  · dsimp only [buildStepC, buildStep]
    rw [Res.fst_ite]
    refine ite_same Iff.rfl ?_ rfl
    rw [Res.fst_ite]
    refine ite_same Iff.rfl rfl ?_
    rw [← addPolygonC_fst]
    rcases addPolygonC cfg fuel p xy l.k l.st l.vLookup with (_ | _ | _ | _) | ⟨a, n⟩ <;> rfl

theorem buildC_fst (cfg : Cfg) (fuel : Nat) (p : PolyList I V) (xy : V → Coords C) :
    Res.fst (buildC cfg fuel p xy) = build cfg fuel p xy := by
  rw [build, ← Res.fst_foldlM (buildStepC cfg fuel p xy) _ (buildStepC_fst cfg fuel p xy) _ _ 0]
  exact Res.fst_bind _ _ _ fun a n => rfl

end St

end Tri
