import Verif.Model.CostFail
import Verif.Proof.CostWorst

/-!
# The count that is kept if the run fails

`RelAt k x y`: the run `x` in `Cnt` ends like `y`, and if it succeeds then its count and `k` add up to that of `y`.
`Bd B P x`: the count of `x` is at most `B`, however it ends, and `P` holds of the result if it succeeds.
-/

set_option linter.unusedSectionVars false

namespace Tri

open Finset Cnt

namespace Cnt

variable {ε δ α β : Type}

def RelAt (k : Nat) (x : Cnt ε α) (y : Res ε (α × Nat)) : Prop :=
  match y with
  | .ok (a, m) => ∃ j, x = (j, .ok a) ∧ m = k + j
  | .error e => x.2 = .error e

theorem RelAt.pure {k m : Nat} {a : α} (h : m = k) : RelAt k (Pure.pure a : Cnt ε α) (.ok (a, m)) :=
  ⟨0, rfl, h⟩

theorem RelAt.err {k : Nat} {e : Fault ε} : RelAt k (of (.error e) : Cnt ε α) (.error e) := rfl

theorem RelAt.of {k : Nat} {r : Res ε α} {f : α → Cnt ε β} {g : α → Res ε (β × Nat)}
    (h : ∀ a, RelAt k (f a) (g a)) : RelAt k (Cnt.of r >>= f) (r >>= g) := by
  rcases r with e | a
  · rfl
  · have := h a
    show RelAt k (0 + (f a).1, (f a).2) (g a)
    rw [Nat.zero_add]
    exact this

theorem RelAt.tick {k : Nat} {f : Unit → Cnt ε β} {y : Res ε (β × Nat)}
    (h : RelAt (k + 1) (f ()) y) : RelAt k (Cnt.tick >>= f) y := by
  rcases y with e | ⟨b, m⟩
  · exact h
  · obtain ⟨j, h1, h2⟩ := h
    refine ⟨1 + j, ?_, by omega⟩
    show (1 + (f ()).1, (f ()).2) = _
    rw [h1]

theorem RelAt.bind {k : Nat} {x : Cnt ε α} {y : Res ε (α × Nat)} {f : α → Cnt ε β}
    {g : α × Nat → Res ε (β × Nat)} (h : RelAt 0 x y) (hf : ∀ a j, RelAt (k + j) (f a) (g (a, j))) :
    RelAt k (x >>= f) (y >>= g) := by
  obtain ⟨n, x⟩ := x
  rcases y with e | ⟨a, m⟩
  · have h : x = .error e := h
    subst h
    rfl
  · obtain ⟨j, h1, h2⟩ := h
    obtain ⟨rfl, rfl⟩ := Prod.mk.inj h1
    obtain rfl : m = n := by omega
    have := hf a m
    show RelAt k (m + (f a).1, (f a).2) (g (a, m))
    generalize g (a, m) = z at this ⊢
    rcases z with e | ⟨b, l⟩
    · exact this
    · obtain ⟨j, h1, h2⟩ := this
      exact ⟨m + j, by rw [h1], by omega⟩

theorem RelAt.tail {k : Nat} {x : Cnt ε α} {y : Res ε (α × Nat)} {g : α × Nat → Res ε (α × Nat)}
    (h : RelAt 0 x y) (hf : ∀ a j, g (a, j) = .ok (a, k + j)) : RelAt k x (y >>= g) := by
  rcases y with e | ⟨a, m⟩
  · exact h
  · obtain ⟨j, h1, h2⟩ := h
    show RelAt k x (g (a, m))
    rw [hf]
    exact ⟨j, h1, by omega⟩

theorem RelAt.ite {k : Nat} {x x' : Cnt ε α} {y y' : Res ε (α × Nat)} {c : Prop} [Decidable c]
    (h : RelAt k x y) (h' : RelAt k x' y') : RelAt k (if c then x else x') (if c then y else y') := by
  split <;> assumption

theorem RelAt.mapErr {x : Cnt ε α} {y : Res ε (α × Nat)} {f : ε → δ} (h : RelAt 0 x y) :
    RelAt 0 (Cnt.mapErr f x) (Res.mapErr f y) := by
  obtain ⟨n, x⟩ := x
  rcases y with e | ⟨a, m⟩
  · have h : x = .error e := h
    subst h
    cases e <;> rfl
  · obtain ⟨j, h1, h2⟩ := h
    obtain ⟨rfl, rfl⟩ := Prod.mk.inj h1
    exact ⟨n, rfl, h2⟩

theorem RelAt.foldlM {s : α → β → Cnt ε α} {t : α × Nat → β → Res ε (α × Nat)}
    (h : ∀ a n b, RelAt n (s a b) (t (a, n) b)) (l : List β) (a : α) (n : Nat) :
    RelAt n (l.foldlM s a) (l.foldlM t (a, n)) := by
  induction l generalizing a n with
  | nil => exact .pure rfl
  | cons b l ih =>
    rw [List.foldlM_cons, List.foldlM_cons]
    have hb := h a n b
    generalize hx : s a b = x at hb
    obtain ⟨i, x⟩ := x
    generalize t (a, n) b = y at hb
    rcases y with e | ⟨a', m⟩
    · have hb : x = .error e := hb
      subst hb
      rfl
    · obtain ⟨j, h1, h2⟩ := hb
      obtain ⟨rfl, rfl⟩ := Prod.mk.inj h1
      subst h2
      have := ih a' (n + i)
      show RelAt n (i + (l.foldlM s a').1, (l.foldlM s a').2) (l.foldlM t (a', n + i))
      generalize l.foldlM t (a', n + i) = z at this ⊢
      rcases z with e | ⟨b, l'⟩
      · exact this
      · obtain ⟨j, h1, h2⟩ := this
        exact ⟨i + j, by rw [h1], by omega⟩

theorem RelAt.snd {k : Nat} {x : Cnt ε α} {y : Res ε (α × Nat)} (h : RelAt k x y) : x.2 = Res.fst y := by
  rcases y with e | ⟨a, m⟩
  · exact h
  · obtain ⟨j, h1, -⟩ := h
    rw [h1]
    rfl

/-! ## More steps -/

/-- `x` is `y`, or was cut off before. -/
def TLe (x y : Cnt ε α) : Prop := x = y ∨ (x.1 ≤ y.1 ∧ x.2 = .error .timeout)

theorem TLe.refl (x : Cnt ε α) : TLe x x := .inl rfl

theorem TLe.out (y : Cnt ε α) : TLe (of (.error .timeout)) y := .inr ⟨Nat.zero_le _, rfl⟩

theorem le_bind (x : Cnt ε α) (f : α → Cnt ε β) : x.1 ≤ (x >>= f).1 := by
  obtain ⟨n, e | a⟩ := x
  · exact Nat.le_refl n
  · exact Nat.le_add_right n _

theorem TLe.bind {x y : Cnt ε α} {f g : α → Cnt ε β} (h : TLe x y) (hf : ∀ a, TLe (f a) (g a)) :
    TLe (x >>= f) (y >>= g) := by
  rcases h with rfl | ⟨h1, h2⟩
  · obtain ⟨n, e | a⟩ := x
    · exact .refl _
    · rcases hf a with h | ⟨h1, h2⟩
      · left
        show (n + (f a).1, (f a).2) = (n + (g a).1, (g a).2)
        rw [h]
      · exact .inr ⟨Nat.add_le_add_left h1 n, h2⟩
  · obtain ⟨n, x⟩ := x
    have h2 : x = .error .timeout := h2
    subst h2
    exact .inr ⟨Nat.le_trans h1 (le_bind y g), rfl⟩

theorem TLe.bind' {x : Cnt ε α} {f g : α → Cnt ε β} (hf : ∀ a, TLe (f a) (g a)) :
    TLe (x >>= f) (x >>= g) := TLe.bind (.refl _) hf

theorem TLe.ofFLe {x y : Res ε α} (h : FLe x y) : TLe (of x) (of y) := by
  rcases h with h | h
  · exact .inr ⟨Nat.le_refl _, h⟩
  · exact .inl (by rw [h])

theorem TLe.ite {x x' y y' : Cnt ε α} {c : Prop} [Decidable c]
    (h : TLe x y) (h' : TLe x' y') : TLe (if c then x else x') (if c then y else y') := by
  split <;> assumption

theorem TLe.mapErr {x y : Cnt ε α} {f : ε → δ} (h : TLe x y) : TLe (Cnt.mapErr f x) (Cnt.mapErr f y) := by
  rcases h with rfl | ⟨h1, h2⟩
  · exact .refl _
  · exact .inr ⟨h1, by show Res.mapErr f x.2 = _; rw [h2]; rfl⟩

theorem TLe.foldlM {s t : α → β → Cnt ε α} (h : ∀ a b, TLe (s a b) (t a b)) (l : List β) (a : α) :
    TLe (l.foldlM s a) (l.foldlM t a) := by
  induction l generalizing a with
  | nil => exact .refl _
  | cons b l ih =>
    rw [List.foldlM_cons, List.foldlM_cons]
    exact TLe.bind (h a b) ih

/-! ## Bounds -/

def Bd (B : Nat) (P : α → Prop) (x : Cnt ε α) : Prop := x.1 ≤ B ∧ ∀ a, x.2 = .ok a → P a

theorem Bd.bind {B B₁ B₂ : Nat} {P : α → Prop} {Q : β → Prop} {x : Cnt ε α} {f : α → Cnt ε β}
    (h : Bd B₁ P x) (hf : ∀ a, P a → Bd B₂ Q (f a)) (hB : B₁ + B₂ ≤ B) : Bd B Q (x >>= f) := by
  obtain ⟨n, e | a⟩ := x
  · exact ⟨Nat.le_trans h.1 (by omega), fun _ h => by cases h⟩
  · obtain ⟨h1, h2⟩ := h
    have := hf a (h2 a rfl)
    exact ⟨Nat.le_trans (Nat.add_le_add h1 this.1) hB, this.2⟩

theorem Bd.of {B : Nat} {Q : β → Prop} {r : Res ε α} {f : α → Cnt ε β}
    (hf : ∀ a, r = .ok a → Bd B Q (f a)) : Bd B Q (Cnt.of r >>= f) :=
  Bd.bind (B₁ := 0) (P := fun a => r = .ok a) ⟨Nat.le_refl _, fun _ h => h⟩ hf (by omega)

theorem Bd.tick {B : Nat} {Q : β → Prop} {f : Unit → Cnt ε β} (h : Bd B Q (f ())) : Bd (B + 1) Q (Cnt.tick >>= f) :=
  Bd.bind (B₁ := 1) (P := fun _ => True) ⟨Nat.le_refl _, fun _ _ => trivial⟩ (fun _ _ => h) (by omega)

theorem Bd.ret {B : Nat} {Q : α → Prop} {a : α} (h : Q a) : Bd B Q (Pure.pure a : Cnt ε α) :=
  ⟨Nat.zero_le _, fun _ e => by cases e; exact h⟩

theorem Bd.err {B : Nat} {Q : α → Prop} {e : Fault ε} : Bd B Q (Cnt.of (.error e) : Cnt ε α) :=
  ⟨Nat.zero_le _, fun _ e => by cases e⟩

theorem Bd.ite {B : Nat} {Q : α → Prop} {x y : Cnt ε α} {c : Prop} [Decidable c]
    (h : c → Bd B Q x) (h' : ¬ c → Bd B Q y) : Bd B Q (if c then x else y) := by
  split
  · exact h ‹_›
  · exact h' ‹_›

/-- What holds of the results of the code holds of those with a count. -/
theorem Bd.of_ens {B : Nat} {E : Fault ε → Prop} {P : α → Prop} {x : Cnt ε α} {y : Res ε α} (hxy : x.2 = y)
    (h : Ens E P y) (hB : x.1 ≤ B) : Bd B P x :=
  ⟨hB, fun a e => h.of_ok (by rw [← hxy, e])⟩

/-- The count of a whole `for` loop: `Inv rest a n` holds with the elements still to come and the count so far. -/
theorem foldlM_le {B : Nat} {s : α → β → Cnt ε α} (Inv : List β → α → Nat → Prop)
    (h : ∀ b rest a n, Inv (b :: rest) a n → n + (s a b).1 ≤ B ∧
      ∀ a', (s a b).2 = .ok a' → Inv rest a' (n + (s a b).1)) (l : List β) (a : α) (n : Nat) (hn : n ≤ B)
    (hi : Inv l a n) : n + (l.foldlM s a).1 ≤ B := by
  induction l generalizing a n with
  | nil => exact hn
  | cons b l ih =>
    rw [List.foldlM_cons]
    obtain ⟨h1, h2⟩ := h b l a n hi
    generalize s a b = x at h1 h2
    obtain ⟨m, e | a'⟩ := x
    · exact h1
    · have := ih a' (n + m) h1 (h2 a' rfl)
      show n + (m + (l.foldlM s a').1) ≤ B
      omega

end Cnt

variable {I V C : Type} [Scalar C]

/-! ## The count agrees with that of `Model/Cost.lean` -/

theorem findT_rel (qs : List (QueryNode C)) (c : Coords C) (fuel qi : Nat) :
    RelAt 0 (St.findT qs c fuel qi) (St.findC qs c fuel qi) := by
  induction fuel generalizing qi with
  | zero => exact .err
  | succ k ih =>
    unfold St.findT St.findC
    refine .tick (.of fun q => ?_)
    cases q with
    | branch l r b => exact .tail (ih _) fun a j => by rw [Nat.zero_add, Nat.add_comm 1]
    | sink ti => exact .pure rfl

variable [DecidableEq I]

theorem addVertexVLT_rel (cfg : Cfg) (fuel : Nat) (p : PolyList I V) (xy : V → Coords C) (st : St I C)
    (vls : List (VLoc I C)) (vli : Nat) (vi : I) (qi : Nat) :
    RelAt 0 (St.addVertexVLT cfg fuel p xy st vls vli vi qi) (St.addVertexVLC cfg fuel p xy st vls vli vi qi) := by
  unfold St.addVertexVLT St.addVertexVLC St.addVertexT St.addVertexC
  exact .bind (.of fun c => .bind (findT_rel ..) fun r j => .of fun st' => .of fun _ => .pure (by omega)) fun r j =>
    .of fun vl => .pure (by omega)

theorem addEndsT_rel (cfg : Cfg) (fuel : Nat) (p : PolyList I V) (xy : V → Coords C) (st : St I C)
    (vls : List (VLoc I C)) (si : Nat) :
    RelAt 0 (St.addEndsT cfg fuel p xy st vls si) (St.addEndsC cfg fuel p xy st vls si) := by
  unfold St.addEndsT St.addEndsC
  refine .of fun vl0 => .of fun vl1 => ?_
  have hv := fun (st : St I C) vls vli vi qi => addVertexVLT_rel cfg fuel p xy st vls vli vi qi
  cases vl0 <;> cases vl1
  · exact .ite (.bind (hv ..) fun _ _ => .bind (hv ..) fun _ _ => .pure (by omega))
      (.bind (hv ..) fun _ _ => .bind (hv ..) fun _ _ => .pure (by omega))
  · exact .bind (hv ..) fun _ _ => .pure (by omega)
  · exact .bind (hv ..) fun _ _ => .pure (by omega)
  · exact .pure rfl

theorem addSegmentLoopT_rel (si : Nat) (s : Segment C) (l : St.SegLoop I C) (fuel : Nat) :
    RelAt 0 (St.addSegmentLoopT si s fuel l) (St.addSegmentLoopC si s fuel l) := by
  induction fuel generalizing l with
  | zero => exact .err
  | succ k ih =>
    unfold St.addSegmentLoopT St.addSegmentLoopC
    exact .ite (.pure rfl) (.tick (.of fun l' => .tail (ih l') fun a j => by rw [Nat.zero_add, Nat.add_comm 1]))

theorem addSegmentT_rel (cfg : Cfg) (fuel : Nat) (st : St I C) (a b : Nat) (c d : Coords C) :
    RelAt 0 (st.addSegmentT cfg fuel a b c d) (st.addSegmentC cfg fuel a b c d) := by
  unfold St.addSegmentT St.addSegmentC
  exact .of fun l => .bind (addSegmentLoopT_rel ..) fun l j => .of fun ns => .of fun _ => .pure (by omega)

theorem addNthSegmentT_rel (cfg : Cfg) (fuel : Nat) (p : PolyList I V) (xy : V → Coords C) (st : St I C)
    (vls : List (VLoc I C)) (si : Nat) :
    RelAt 0 (St.addNthSegmentT cfg fuel p xy st vls si) (St.addNthSegmentC cfg fuel p xy st vls si) := by
  unfold St.addNthSegmentT St.addNthSegmentC
  exact .bind (addEndsT_rel ..) fun r j => .of fun n0 => .of fun n1 =>
    .bind (.ite (addSegmentT_rel ..) (addSegmentT_rel ..)) fun _ _ => .pure (by omega)

theorem walkT_rel (st : St I C) (dir : Dir) (c0 c1 : Coords C) (ti fuel : Nat) :
    RelAt 0 (st.walkT dir c0 c1 fuel ti) (st.walkC dir c0 c1 fuel ti) := by
  induction fuel generalizing ti with
  | zero => exact .err
  | succ k ih =>
    unfold St.walkT St.walkC
    refine .tick (.of fun t => .of fun done => .ite (.pure rfl) ?_)
    obtain ⟨o, ho⟩ : ∃ o, o = (match dir with | .asc => t.up | .desc => t.down) := ⟨_, rfl⟩
    cases dir <;> cases o <;> simp only at ho ⊢ <;> rw [← ho]
    · exact .err
    · exact .of fun n => .tail (ih _) fun a j => by rw [Nat.zero_add, Nat.add_comm 1]
    · exact .err
    · exact .of fun n => .tail (ih _) fun a j => by rw [Nat.zero_add, Nat.add_comm 1]

theorem relocStepT_rel (fuel : Nat) (st : St I C) (r : St.Reloc I C) :
    RelAt 0 (St.relocStepT fuel st r) (St.relocStepC fuel st r) := by
  unfold St.relocStepT St.relocStepC
  refine .of fun vl => ?_
  cases vl with
  | inserted c ni => exact .of fun n => .pure rfl
  | pending c vi q =>
    exact .of fun ti => .bind (walkT_rel ..) fun ti j => .of fun u => .of fun t => .pure (by omega)

theorem relocLoopT_rel (fuel : Nat) (st : St I C) (k : Nat) (r : St.Reloc I C) :
    RelAt 0 (St.relocLoopT fuel st k r) (St.relocLoopC fuel st k r) := by
  induction k generalizing r with
  | zero => exact .err
  | succ k ih =>
    unfold St.relocLoopT St.relocLoopC
    exact .ite (.pure rfl) (.tick (.bind (relocStepT_rel ..) fun r' j => .tail (ih r') fun a i => by
      rw [show 0 + 1 + j + i = j + i + 1 by omega]))

theorem polyStepT_rel (cfg : Cfg) (fuel : Nat) (p : PolyList I V) (xy : V → Coords C) (l : St.PolyLoop I C) (n si : Nat) :
    RelAt n (St.polyStepT cfg fuel p xy l si) (St.polyStepC cfg fuel p xy (l, n) si) := by
  unfold St.polyStepT St.polyStepC St.relocateT St.relocateC
  exact .tick (.bind (addNthSegmentT_rel ..) fun r j => .of fun pd =>
    .ite (.bind (relocLoopT_rel ..) fun vls i => .pure (by omega)) (.pure (by omega)))

theorem addPolygonT_rel (cfg : Cfg) (fuel : Nat) (p : PolyList I V) (xy : V → Coords C) (k : Nat) (st : St I C)
    (vls : List (VLoc I C)) :
    RelAt 0 (St.addPolygonT cfg fuel p xy k st vls) (St.addPolygonC cfg fuel p xy k st vls) := by
  unfold St.addPolygonT St.addPolygonC
  exact .bind (.foldlM (fun a n b => polyStepT_rel cfg fuel p xy a n b) _ _ _) fun l j => .pure (by omega)

theorem buildStepT_rel (cfg : Cfg) (fuel : Nat) (p : PolyList I V) (xy : V → Coords C) (l : St.BuildLoop I C) (n : Nat)
    (e : Option (Elem I)) :
    RelAt n (St.buildStepT cfg fuel p xy l e) (St.buildStepC cfg fuel p xy (l, n) e) := by
  rcases e with _ | i | _
  · exact .err
  · exact .of fun c => .pure rfl
  · unfold St.buildStepT St.buildStepC
    exact .ite (.ite .err (.bind (.mapErr (addPolygonT_rel ..)) fun st j => .pure (by omega))) (.pure rfl)

theorem trapezoidizeT_rel (cfg : Cfg) (fuel : Nat) (p : PolyList I V) (xy : V → Coords C) :
    RelAt 0 (trapezoidizeT cfg fuel p xy) (trapezoidizeC cfg fuel p xy) := by
  unfold trapezoidizeT trapezoidizeC St.buildT St.buildC
  exact .bind (.foldlM (fun a n b => buildStepT_rel cfg fuel p xy a n b) _ _ _) fun l j => .pure (by omega)

theorem addNthSegmentT_snd (cfg : Cfg) (fuel : Nat) (p : PolyList I V) (xy : V → Coords C) (st : St I C)
    (vls : List (VLoc I C)) (si : Nat) :
    (St.addNthSegmentT cfg fuel p xy st vls si).2 = St.addNthSegment cfg fuel p xy st vls si :=
  (addNthSegmentT_rel cfg fuel p xy st vls si).snd.trans (St.addNthSegmentC_fst ..)

theorem relocStepT_snd (fuel : Nat) (st : St I C) (r : St.Reloc I C) :
    (St.relocStepT fuel st r).2 = St.relocStep fuel st r :=
  (relocStepT_rel fuel st r).snd.trans (St.relocStepC_fst ..)

theorem polyStepT_snd (cfg : Cfg) (fuel : Nat) (p : PolyList I V) (xy : V → Coords C) (l : St.PolyLoop I C) (si : Nat) :
    (St.polyStepT cfg fuel p xy l si).2 = St.polyStep cfg fuel p xy l si :=
  (polyStepT_rel cfg fuel p xy l 0 si).snd.trans (St.polyStepC_fst ..)

theorem buildStepT_snd (cfg : Cfg) (fuel : Nat) (p : PolyList I V) (xy : V → Coords C) (l : St.BuildLoop I C)
    (e : Option (Elem I)) : (St.buildStepT cfg fuel p xy l e).2 = St.buildStep cfg fuel p xy l e :=
  (buildStepT_rel cfg fuel p xy l 0 e).snd.trans (St.buildStepC_fst ..)

theorem trapezoidizeT_snd (cfg : Cfg) (fuel : Nat) (p : PolyList I V) (xy : V → Coords C) :
    (trapezoidizeT cfg fuel p xy).2 = trapezoidize cfg fuel p xy :=
  (trapezoidizeT_rel cfg fuel p xy).snd.trans (St.buildC_fst cfg fuel p xy)

theorem trapezoidizeT_count {cfg : Cfg} {fuel : Nat} {p : PolyList I V} {xy : V → Coords C} {st : St I C} {k : Nat}
    (h : trapezoidizeC cfg fuel p xy = .ok (st, k)) : (trapezoidizeT cfg fuel p xy).1 = k := by
  have := trapezoidizeT_rel cfg fuel p xy
  rw [h] at this
  obtain ⟨j, h1, h2⟩ := this
  rw [h1]
  omega

/-! ## More steps do not lower the count -/

theorem findT_tle (qs : List (QueryNode C)) (c : Coords C) {k n : Nat} (h : k ≤ n) (qi : Nat) :
    TLe (St.findT qs c k qi) (St.findT qs c n qi) := by
  induction k generalizing n qi with
  | zero => exact .out _
  | succ k ih =>
    obtain ⟨n, rfl⟩ : ∃ m, n = m + 1 := ⟨n - 1, by omega⟩
    unfold St.findT
    refine TLe.bind' fun _ => TLe.bind' fun q => ?_
    cases q with
    | branch l r b => exact ih (by omega) _
    | sink ti => exact .refl _

theorem addVertexVLT_tle (cfg : Cfg) (p : PolyList I V) (xy : V → Coords C) (st : St I C)
    (vls : List (VLoc I C)) (vli : Nat) (vi : I) (qi : Nat) {k n : Nat} (h : k ≤ n) :
    TLe (St.addVertexVLT cfg k p xy st vls vli vi qi) (St.addVertexVLT cfg n p xy st vls vli vi qi) := by
  unfold St.addVertexVLT St.addVertexT
  refine TLe.bind (TLe.bind' fun c => TLe.bind (findT_tle _ _ h _) fun r => TLe.bind' fun st' =>
    TLe.bind (TLe.ofFLe (debugCheck_fle cfg st' h)) fun _ => .refl _) fun _ => .refl _

theorem addEndsT_tle (cfg : Cfg) (p : PolyList I V) (xy : V → Coords C) (st : St I C)
    (vls : List (VLoc I C)) (si : Nat) {k n : Nat} (h : k ≤ n) :
    TLe (St.addEndsT cfg k p xy st vls si) (St.addEndsT cfg n p xy st vls si) := by
  unfold St.addEndsT
  refine TLe.bind' fun vl0 => TLe.bind' fun vl1 => ?_
  have hv := fun (st : St I C) vls vli vi qi => addVertexVLT_tle cfg p xy st vls vli vi qi h
  cases vl0 <;> cases vl1
  · exact TLe.ite (TLe.bind (hv ..) fun _ => TLe.bind (hv ..) fun _ => .refl _)
      (TLe.bind (hv ..) fun _ => TLe.bind (hv ..) fun _ => .refl _)
  · exact TLe.bind (hv ..) fun _ => .refl _
  · exact TLe.bind (hv ..) fun _ => .refl _
  · exact .refl _

theorem addSegmentLoopT_tle (si : Nat) (s : Segment C) (l : St.SegLoop I C) {k n : Nat} (h : k ≤ n) :
    TLe (St.addSegmentLoopT si s k l) (St.addSegmentLoopT si s n l) := by
  induction k generalizing n l with
  | zero => exact .out _
  | succ k ih =>
    obtain ⟨n, rfl⟩ : ∃ m, n = m + 1 := ⟨n - 1, by omega⟩
    unfold St.addSegmentLoopT
    exact TLe.ite (.refl _) (TLe.bind' fun _ => TLe.bind' fun l' => ih l' (by omega))

theorem addSegmentT_tle (cfg : Cfg) (st : St I C) (a b : Nat) (c d : Coords C) {k n : Nat} (h : k ≤ n) :
    TLe (st.addSegmentT cfg k a b c d) (st.addSegmentT cfg n a b c d) := by
  unfold St.addSegmentT
  exact TLe.bind' fun l => TLe.bind (addSegmentLoopT_tle _ _ l h) fun l => TLe.bind' fun ns =>
    TLe.bind (TLe.ofFLe (debugCheck_fle cfg _ h)) fun _ => .refl _

theorem addNthSegmentT_tle (cfg : Cfg) (p : PolyList I V) (xy : V → Coords C) (st : St I C)
    (vls : List (VLoc I C)) (si : Nat) {k n : Nat} (h : k ≤ n) :
    TLe (St.addNthSegmentT cfg k p xy st vls si) (St.addNthSegmentT cfg n p xy st vls si) := by
  unfold St.addNthSegmentT
  exact TLe.bind (addEndsT_tle cfg p xy st vls si h) fun r => TLe.bind' fun n0 => TLe.bind' fun n1 =>
    TLe.bind (TLe.ite (addSegmentT_tle cfg _ _ _ _ _ h) (addSegmentT_tle cfg _ _ _ _ _ h)) fun _ => .refl _

theorem walkT_tle (st : St I C) (dir : Dir) (c0 c1 : Coords C) (ti : Nat) {k n : Nat} (h : k ≤ n) :
    TLe (st.walkT dir c0 c1 k ti) (st.walkT dir c0 c1 n ti) := by
  induction k generalizing n ti with
  | zero => exact .out _
  | succ k ih =>
    obtain ⟨n, rfl⟩ : ∃ m, n = m + 1 := ⟨n - 1, by omega⟩
    unfold St.walkT
    refine TLe.bind' fun _ => TLe.bind' fun t => TLe.bind' fun done => TLe.ite (.refl _) ?_
    split
    · exact .refl _
    · exact TLe.bind' fun _ => ih _ (by omega)

theorem relocStepT_tle (st : St I C) (r : St.Reloc I C) {k n : Nat} (h : k ≤ n) :
    TLe (St.relocStepT k st r) (St.relocStepT n st r) := by
  unfold St.relocStepT
  refine TLe.bind' fun vl => ?_
  cases vl with
  | inserted c ni => exact .refl _
  | pending c vi q =>
    exact TLe.bind' fun ti => TLe.bind (walkT_tle st _ _ _ _ h) fun _ => .refl _

theorem relocLoopT_tle (st : St I C) (r : St.Reloc I C) {f g k n : Nat} (hf : f ≤ g) (h : k ≤ n) :
    TLe (St.relocLoopT f st k r) (St.relocLoopT g st n r) := by
  induction k generalizing n r with
  | zero => exact .out _
  | succ k ih =>
    obtain ⟨n, rfl⟩ : ∃ m, n = m + 1 := ⟨n - 1, by omega⟩
    unfold St.relocLoopT
    exact TLe.ite (.refl _) (TLe.bind' fun _ => TLe.bind (relocStepT_tle st r hf) fun r' => ih r' (by omega))

theorem polyStepT_tle (cfg : Cfg) (p : PolyList I V) (xy : V → Coords C) (l : St.PolyLoop I C) (si : Nat)
    {k n : Nat} (h : k ≤ n) :
    TLe (St.polyStepT cfg k p xy l si) (St.polyStepT cfg n p xy l si) := by
  unfold St.polyStepT St.relocateT
  exact TLe.bind' fun _ => TLe.bind (addNthSegmentT_tle cfg p xy _ _ _ h) fun r => TLe.bind' fun pd =>
    TLe.ite (TLe.bind (relocLoopT_tle _ _ h h) fun _ => .refl _) (.refl _)

theorem buildStepT_tle (cfg : Cfg) (p : PolyList I V) (xy : V → Coords C) (l : St.BuildLoop I C)
    (e : Option (Elem I)) {k n : Nat} (h : k ≤ n) :
    TLe (St.buildStepT cfg k p xy l e) (St.buildStepT cfg n p xy l e) := by
  rcases e with _ | i | _
  · exact .refl _
  · exact .refl _
  · unfold St.buildStepT St.addPolygonT
    refine TLe.ite (TLe.ite (.refl _) ?_) (.refl _)
    refine TLe.bind (TLe.mapErr ?_) fun _ => .refl _
    exact TLe.bind (TLe.foldlM (fun s a => polyStepT_tle cfg p xy s a h) _ _) fun _ => .refl _

theorem trapezoidizeT_tle (cfg : Cfg) (p : PolyList I V) (xy : V → Coords C) {k n : Nat} (h : k ≤ n) :
    TLe (trapezoidizeT cfg k p xy) (trapezoidizeT cfg n p xy) := by
  unfold trapezoidizeT St.buildT
  exact TLe.bind (TLe.foldlM (fun s a => buildStepT_tle cfg p xy s a h) _ _) fun _ => .refl _

/-! ## The count leaves no loop out -/

namespace Cnt

variable {ε δ α β : Type}

/-- If `x` was not cut off and made less than `G` steps then `y` is `x`. -/
def CovAt (G : Nat) (x y : Cnt ε α) : Prop := x.2 ≠ .error .timeout → x.1 < G → y = x

theorem CovAt.refl (G : Nat) (x : Cnt ε α) : CovAt G x x := fun _ _ => rfl

theorem CovAt.out (G : Nat) (y : Cnt ε α) : CovAt G (of (.error .timeout)) y := fun h => absurd rfl h

theorem CovAt.mono {G H : Nat} {x y : Cnt ε α} (h : CovAt H x y) (hG : G ≤ H) : CovAt G x y :=
  fun h1 h2 => h h1 (by omega)

theorem CovAt.bind {G : Nat} {x y : Cnt ε α} {f g : α → Cnt ε β} (h : CovAt G x y) (hf : ∀ a, CovAt G (f a) (g a)) :
    CovAt G (x >>= f) (y >>= g) := by
  intro h1 h2
  have hxy : y = x := by
    refine h (fun he => h1 ?_) (Nat.lt_of_le_of_lt (le_bind x f) h2)
    obtain ⟨n, e | a⟩ := x
    · cases he; rfl
    · cases he
  subst hxy
  obtain ⟨n, e | a⟩ := y
  · rfl
  · have h2 : n + (f a).1 < G := h2
    have := hf a h1 (by omega)
    show (n + (g a).1, (g a).2) = (n + (f a).1, (f a).2)
    rw [this]

theorem CovAt.bind' {G : Nat} {x : Cnt ε α} {f g : α → Cnt ε β} (hf : ∀ a, CovAt G (f a) (g a)) :
    CovAt G (x >>= f) (x >>= g) := CovAt.bind (.refl _ _) hf

theorem CovAt.tick {G : Nat} {f g : Unit → Cnt ε β} (h : CovAt G (f ()) (g ())) :
    CovAt (G + 1) (Cnt.tick >>= f) (Cnt.tick >>= g) := by
  intro h1 h2
  have h2 : 1 + (f ()).1 < G + 1 := h2
  have := h h1 (by omega)
  show (1 + (g ()).1, (g ()).2) = (1 + (f ()).1, (f ()).2)
  rw [this]

theorem CovAt.ite {G : Nat} {x x' y y' : Cnt ε α} {c : Prop} [Decidable c]
    (h : CovAt G x y) (h' : CovAt G x' y') : CovAt G (if c then x else x') (if c then y else y') := by
  split <;> assumption

theorem CovAt.mapErr {G : Nat} {x y : Cnt ε α} {f : ε → δ} (h : CovAt G x y) :
    CovAt G (Cnt.mapErr f x) (Cnt.mapErr f y) := by
  intro h1 h2
  have : x.2 ≠ .error .timeout := fun he => h1 (by show Res.mapErr f x.2 = _; rw [he]; rfl)
  rw [h this h2]

theorem CovAt.foldlM {G : Nat} {s t : α → β → Cnt ε α} (h : ∀ a b, CovAt G (s a b) (t a b)) (l : List β) (a : α) :
    CovAt G (l.foldlM s a) (l.foldlM t a) := by
  induction l generalizing a with
  | nil => exact .refl _ _
  | cons b l ih =>
    rw [List.foldlM_cons, List.foldlM_cons]
    exact CovAt.bind (h a b) ih

end Cnt

theorem findT_cov (qs : List (QueryNode C)) (c : Coords C) (k n qi : Nat) :
    CovAt n (St.findT qs c k qi) (St.findT qs c n qi) := by
  induction k generalizing n qi with
  | zero => exact .out _ _
  | succ k ih =>
    cases n with
    | zero => exact fun _ h => absurd h (Nat.not_lt_zero _)
    | succ n =>
      unfold St.findT
      refine CovAt.tick (CovAt.bind' fun q => ?_)
      cases q with
      | branch l r b => exact ih _ _
      | sink ti => exact .refl _ _

theorem addVertexVLT_cov (cfg : Cfg) (hd : cfg.debug = false) (p : PolyList I V) (xy : V → Coords C) (st : St I C)
    (vls : List (VLoc I C)) (vli : Nat) (vi : I) (qi : Nat) (k n : Nat) :
    CovAt n (St.addVertexVLT cfg k p xy st vls vli vi qi) (St.addVertexVLT cfg n p xy st vls vli vi qi) := by
  unfold St.addVertexVLT St.addVertexT
  refine CovAt.bind (CovAt.bind' fun c => CovAt.bind (findT_cov _ _ _ _ _) fun r => CovAt.bind' fun st' => ?_)
    fun _ => .refl _ _
  have e : st'.debugCheck cfg k = st'.debugCheck cfg n := by simp [St.debugCheck, hd]
  rw [e]
  exact .refl _ _

theorem addEndsT_cov (cfg : Cfg) (hd : cfg.debug = false) (p : PolyList I V) (xy : V → Coords C) (st : St I C)
    (vls : List (VLoc I C)) (si : Nat) (k n : Nat) :
    CovAt n (St.addEndsT cfg k p xy st vls si) (St.addEndsT cfg n p xy st vls si) := by
  unfold St.addEndsT
  refine CovAt.bind' fun vl0 => CovAt.bind' fun vl1 => ?_
  have hv : ∀ (st : St I C) vls vli vi qi, CovAt n (St.addVertexVLT cfg k p xy st vls vli vi qi)
      (St.addVertexVLT cfg n p xy st vls vli vi qi) := fun st vls vli vi qi => addVertexVLT_cov cfg hd p xy st vls vli vi qi k n
  generalize St.addVertexVLT cfg k p xy = X at hv ⊢
  generalize St.addVertexVLT cfg n p xy = Y at hv ⊢
  cases vl0 <;> cases vl1
  · exact CovAt.ite (CovAt.bind (hv _ _ _ _ _) fun _ => CovAt.bind (hv _ _ _ _ _) fun _ => .refl _ _)
      (CovAt.bind (hv _ _ _ _ _) fun _ => CovAt.bind (hv _ _ _ _ _) fun _ => .refl _ _)
  · exact CovAt.bind (hv _ _ _ _ _) fun _ => .refl _ _
  · exact CovAt.bind (hv _ _ _ _ _) fun _ => .refl _ _
  · exact .refl _ _

theorem addSegmentLoopT_cov (si : Nat) (s : Segment C) (l : St.SegLoop I C) (k n : Nat) :
    CovAt n (St.addSegmentLoopT si s k l) (St.addSegmentLoopT si s n l) := by
  induction k generalizing n l with
  | zero => exact .out _ _
  | succ k ih =>
    cases n with
    | zero => exact fun _ h => absurd h (Nat.not_lt_zero _)
    | succ n =>
      unfold St.addSegmentLoopT
      exact CovAt.ite (.refl _ _) (CovAt.tick (CovAt.bind' fun l' => ih l' _))

theorem addSegmentT_cov (cfg : Cfg) (hd : cfg.debug = false) (st : St I C) (a b : Nat) (c d : Coords C) (k n : Nat) :
    CovAt n (st.addSegmentT cfg k a b c d) (st.addSegmentT cfg n a b c d) := by
  unfold St.addSegmentT
  refine CovAt.bind' fun l => CovAt.bind (addSegmentLoopT_cov _ _ l _ _) fun l => CovAt.bind' fun ns => ?_
  have e : ({ l.st with ns := ns } : St I C).debugCheck cfg k = ({ l.st with ns := ns } : St I C).debugCheck cfg n := by
    simp [St.debugCheck, hd]
  simp only [e]
  exact .refl _ _

theorem addNthSegmentT_cov (cfg : Cfg) (hd : cfg.debug = false) (p : PolyList I V) (xy : V → Coords C) (st : St I C)
    (vls : List (VLoc I C)) (si : Nat) (k n : Nat) :
    CovAt n (St.addNthSegmentT cfg k p xy st vls si) (St.addNthSegmentT cfg n p xy st vls si) := by
  unfold St.addNthSegmentT
  exact CovAt.bind (addEndsT_cov cfg hd p xy st vls si _ _) fun r => CovAt.bind' fun n0 => CovAt.bind' fun n1 =>
    CovAt.bind (CovAt.ite (addSegmentT_cov cfg hd _ _ _ _ _ _ _) (addSegmentT_cov cfg hd _ _ _ _ _ _ _)) fun _ => .refl _ _

theorem walkT_cov (st : St I C) (dir : Dir) (c0 c1 : Coords C) (ti : Nat) (k n : Nat) :
    CovAt n (st.walkT dir c0 c1 k ti) (st.walkT dir c0 c1 n ti) := by
  induction k generalizing n ti with
  | zero => exact .out _ _
  | succ k ih =>
    cases n with
    | zero => exact fun _ h => absurd h (Nat.not_lt_zero _)
    | succ n =>
      unfold St.walkT
      refine CovAt.tick (CovAt.bind' fun t => CovAt.bind' fun done => CovAt.ite (.refl _ _) ?_)
      split
      · exact .refl _ _
      · exact CovAt.bind' fun _ => ih _ _

theorem relocStepT_cov (st : St I C) (r : St.Reloc I C) (k n : Nat) :
    CovAt n (St.relocStepT k st r) (St.relocStepT n st r) := by
  unfold St.relocStepT
  refine CovAt.bind' fun vl => ?_
  cases vl with
  | inserted c ni => exact .refl _ _
  | pending c vi q =>
    exact CovAt.bind' fun ti => CovAt.bind (walkT_cov st _ _ _ _ _ _) fun _ => .refl _ _

theorem relocLoopT_cov (st : St I C) (r : St.Reloc I C) (f : Nat) {g : Nat} (k : Nat) {n : Nat} (h : n ≤ g) :
    CovAt n (St.relocLoopT f st k r) (St.relocLoopT g st n r) := by
  induction k generalizing n r with
  | zero => exact .out _ _
  | succ k ih =>
    cases n with
    | zero => exact fun _ h => absurd h (Nat.not_lt_zero _)
    | succ n =>
      unfold St.relocLoopT
      exact CovAt.ite (.refl _ _) (CovAt.tick (CovAt.bind ((relocStepT_cov st r _ _).mono (by omega)) fun r' =>
        ih r' (by omega)))

theorem polyStepT_cov (cfg : Cfg) (hd : cfg.debug = false) (p : PolyList I V) (xy : V → Coords C) (l : St.PolyLoop I C)
    (si : Nat) (k n : Nat) :
    CovAt n (St.polyStepT cfg k p xy l si) (St.polyStepT cfg n p xy l si) := by
  unfold St.polyStepT St.relocateT
  exact CovAt.bind' fun _ => CovAt.bind (addNthSegmentT_cov cfg hd p xy _ _ _ _ _) fun r => CovAt.bind' fun pd =>
    CovAt.ite (CovAt.bind (relocLoopT_cov _ _ _ _ (Nat.le_refl _)) fun _ => .refl _ _) (.refl _ _)

theorem buildStepT_cov (cfg : Cfg) (hd : cfg.debug = false) (p : PolyList I V) (xy : V → Coords C) (l : St.BuildLoop I C)
    (e : Option (Elem I)) (k n : Nat) :
    CovAt n (St.buildStepT cfg k p xy l e) (St.buildStepT cfg n p xy l e) := by
  rcases e with _ | i | _
  · exact .refl _ _
  · exact .refl _ _
  · unfold St.buildStepT St.addPolygonT
    refine CovAt.ite (CovAt.ite (.refl _ _) ?_) (.refl _ _)
    refine CovAt.bind (CovAt.mapErr ?_) fun _ => .refl _ _
    exact CovAt.bind (CovAt.foldlM (fun s a => polyStepT_cov cfg hd p xy s a _ _) _ _) fun _ => .refl _ _

/-- A run with more steps than the count ends the same, so each loop made at most as many steps. -/
theorem trapezoidizeT_cov (cfg : Cfg) (hd : cfg.debug = false) (p : PolyList I V) (xy : V → Coords C) (k n : Nat) :
    CovAt n (trapezoidizeT cfg k p xy) (trapezoidizeT cfg n p xy) := by
  unfold trapezoidizeT St.buildT
  exact CovAt.bind (CovAt.foldlM (fun s a => buildStepT_cov cfg hd p xy s a _ _) _ _) fun _ => .refl _ _

/-! ## Bounds -/

theorem findT_le (qs : List (QueryNode C)) (c : Coords C) (fuel qi : Nat) :
    Bd fuel (fun _ => True) (St.findT qs c fuel qi) := by
  induction fuel generalizing qi with
  | zero => exact .err
  | succ k ih =>
    unfold St.findT
    refine .tick (.of fun q _ => ?_)
    cases q with
    | branch l r b => exact ih _
    | sink ti => exact .ret trivial

theorem addSegmentLoopT_le (si : Nat) (s : Segment C) (l : St.SegLoop I C) (fuel : Nat) :
    Bd fuel (fun _ => True) (St.addSegmentLoopT si s fuel l) := by
  induction fuel generalizing l with
  | zero => exact .err
  | succ k ih =>
    unfold St.addSegmentLoopT
    exact .ite (fun _ => .ret trivial) fun _ => .tick (.of fun l' _ => ih l')

theorem walkT_le (st : St I C) (dir : Dir) (c0 c1 : Coords C) (ti fuel : Nat) :
    Bd fuel (fun _ => True) (st.walkT dir c0 c1 fuel ti) := by
  induction fuel generalizing ti with
  | zero => exact .err
  | succ k ih =>
    unfold St.walkT
    refine .tick (.of fun t _ => .of fun d _ => .ite (fun _ => .ret trivial) fun _ => ?_)
    split
    · exact .err
    · exact .of fun n _ => ih _

theorem addVertexVLT_le (cfg : Cfg) (fuel : Nat) (p : PolyList I V) (xy : V → Coords C) (st : St I C)
    (vls : List (VLoc I C)) (vli : Nat) (vi : I) (qi : Nat) :
    Bd fuel (fun _ => True) (St.addVertexVLT cfg fuel p xy st vls vli vi qi) := by
  unfold St.addVertexVLT St.addVertexT
  refine .bind (B₁ := fuel) (B₂ := 0) (P := fun _ => True) (.of fun c _ => .bind (B₂ := 0) (findT_le ..)
    (fun r _ => .of fun _ _ => .of fun _ _ => .ret trivial) (by omega)) (fun r _ => .of fun _ _ => .ret trivial) (by omega)

theorem addEndsT_le (cfg : Cfg) (fuel : Nat) (p : PolyList I V) (xy : V → Coords C) (st : St I C)
    (vls : List (VLoc I C)) (si : Nat) :
    Bd (2 * fuel) (fun _ => True) (St.addEndsT cfg fuel p xy st vls si) := by
  unfold St.addEndsT
  refine .of fun vl0 _ => .of fun vl1 _ => ?_
  have hv := fun (st : St I C) vls vli vi qi => addVertexVLT_le cfg fuel p xy st vls vli vi qi
  cases vl0 <;> cases vl1
  · exact .ite (fun _ => .bind (B₂ := fuel) (hv ..) (fun _ _ => .bind (B₂ := 0) (hv ..) (fun _ _ => .ret trivial) (by omega))
        (by omega))
      (fun _ => .bind (B₂ := fuel) (hv ..) (fun _ _ => .bind (B₂ := 0) (hv ..) (fun _ _ => .ret trivial) (by omega)) (by omega))
  · exact .bind (B₂ := 0) (hv ..) (fun _ _ => .ret trivial) (by omega)
  · exact .bind (B₂ := 0) (hv ..) (fun _ _ => .ret trivial) (by omega)
  · exact .ret trivial

theorem addSegmentT_le (cfg : Cfg) (fuel : Nat) (st : St I C) (a b : Nat) (c d : Coords C) :
    Bd fuel (fun _ => True) (st.addSegmentT cfg fuel a b c d) := by
  unfold St.addSegmentT
  exact .of fun l _ => .bind (B₂ := 0) (addSegmentLoopT_le ..) (fun r _ => .of fun _ _ => .of fun _ _ => .ret trivial)
    (by omega)

theorem addNthSegmentT_le (cfg : Cfg) (fuel : Nat) (p : PolyList I V) (xy : V → Coords C) (st : St I C)
    (vls : List (VLoc I C)) (si : Nat) :
    Bd (3 * fuel) (fun _ => True) (St.addNthSegmentT cfg fuel p xy st vls si) := by
  unfold St.addNthSegmentT
  exact .bind (B₂ := fuel) (addEndsT_le cfg fuel p xy st vls si) (fun r _ => .of fun n0 _ => .of fun n1 _ =>
    .bind (B₁ := fuel) (B₂ := 0) (P := fun _ => True) (.ite (fun _ => addSegmentT_le ..) fun _ => addSegmentT_le ..)
      (fun _ _ => .ret trivial) (by omega)) (by omega)

theorem relocStepT_le (fuel : Nat) (st : St I C) (r : St.Reloc I C) :
    Bd fuel (fun _ => True) (St.relocStepT fuel st r) := by
  unfold St.relocStepT
  refine .of fun vl _ => ?_
  cases vl with
  | inserted c ni => exact .of fun n _ => .ret trivial
  | pending c vi q =>
    exact .of fun ti _ => .bind (B₂ := 0) (walkT_le ..) (fun ti _ => .of fun u _ => .of fun t _ => .ret trivial) (by omega)

variable {A : I × Coords C → Prop}

/-- A relocation visits each vertex of the polygon at most once. -/
theorem relocLoopT_le {N : Nat} {st : St I C} (h : WF A st) (ht : Tidy N st) {fuel : Nat}
    (hf : st.ns.length + 1 < fuel) {vs : List (I × Coords C)} {L : Nat} (k : Nat)
    (r : St.Reloc I C) (hvl : VlsOK st.keys st.qs.length vs r.vls) (hloc : RLocOK st r.loc)
    (hpos : 0 < r.vls.length) (hL : r.unlocated = ahead r.vls r.target L) :
    Bd (L * (fuel + 1)) (fun _ => True) (St.relocLoopT fuel st k r) := by
  induction k generalizing r L with
  | zero => exact .err
  | succ k ih =>
    unfold St.relocLoopT
    refine .ite (fun _ => .ret trivial) fun h0 => ?_
    cases L with
    | zero => exact absurd hL h0
    | succ L =>
      rw [Nat.add_mul, Nat.one_mul, ← Nat.add_assoc]
      refine .tick (.bind (Bd.of_ens (relocStepT_snd ..)
        (relocStep_ranked (E := fun _ => True) (fun _ => trivial) h ht hf r hvl hloc hpos h0 hL) (relocStepT_le ..).1)
        (fun r' h' => ?_) (Nat.le_of_eq (Nat.add_comm _ _)))
      obtain ⟨h1, h2, h3, h4⟩ := h'
      exact ih r' h1 h2 (by rw [h3]; exact hpos) h4

/-- What one pass of the loop of `add_polygon` costs, however it ends. -/
theorem polyStepT_le {N : Nat} (cfg : Cfg) {fuel : Nat}
    (hf : enough N ≤ fuel) (p : PolyList I V) (xy : V → Coords C)
    {vs : List (I × Coords C)} (hvs : ∀ v ∈ vs, Src A p xy v) (hlen : 2 ≤ vs.length) {st0 : St I C}
    {done : List Nat} {l : St.PolyLoop I C} (h : PolyInv A vs st0 done l) (ht : Tidy N l.st)
    (hn : st0.ns.length + vs.length ≤ N) (hs : st0.ss.length + done.length < N)
    {si : Nat} (hsi : si < vs.length) :
    (St.polyStepT cfg fuel p xy l si).1 ≤
      1 + 3 * fuel + if l.i = l.nextUpdate then vs.length * (fuel + 1) else 0 := by
  have hsz : l.st.ns.length + (pend l.vls).length = st0.ns.length + vs.length := by
    have := h.perm.length_eq
    simpa [List.length_append, keys_length] using this
  have hss : l.st.ss.length = st0.ss.length + done.length := by
    obtain ⟨segs, h1, h2⟩ := h.ss
    rw [h1, List.length_append, h2.length_eq]
  have big := enough_big N
  refine And.left (b := ∀ a, _ → True) (?_ : Bd _ (fun _ => True) _)
  unfold St.polyStepT
  rw [Nat.add_assoc, Nat.add_comm 1]
  refine .tick (.bind (Bd.of_ens (addNthSegmentT_snd ..) ((addNthSegment_ranked (E := fun _ => True) (fun _ => trivial) h.wf
    ht cfg (fun _ => trivial) hf p xy hvs h.ok (by omega) (by omega) hlen hsi).with
    (addNthSegment_safe h.wf cfg fuel p xy hvs h.ok hlen si)) (addNthSegmentT_le ..).1) ?_ (Nat.le_refl _))
  rintro ⟨st', vls', added⟩ ⟨ht', hn', hp⟩
  simp only at ht' hn' hp ⊢
  have hsz' : st'.ns.length + (pend vls').length = st0.ns.length + vs.length := by
    have := hn'.perm.length_eq
    simp only [List.length_append, keys_length] at this
    omega
  have hpd := h.pending
  refine .of fun pd hpd' => ?_
  have hpd' := (Ens.subP_le (E := fun _ => True) (a := l.pending) (b := added) (by omega)).of_ok hpd'
  refine .ite (fun hu => ?_) fun hu => .ret trivial
  have hl := hn'.ok.len
  have hposn : 0 < st'.ns.length := by
    obtain ⟨s, a, b, e1, e2, e3, e4⟩ := hn'.ss
    have := lt_of_get e4.1
    rw [keys_length] at this
    omega
  rw [if_pos hu]
  refine .bind (B₂ := 0) (relocLoopT_le hn'.wf ht' (L := vls'.length) (by omega) fuel _ hn'.ok hposn
      (by show 0 < vls'.length; omega) ?_) (fun x hx => .ret trivial) (by rw [hl]; omega)
  show pd = ahead vls' si vls'.length
  rw [ahead_cycle _ _ (by omega)]
  omega

theorem addPolygonT_le {N : Nat} {st : St I C} (h : WF A st) (ht : Tidy N st)
    (cfg : Cfg) (hcfg : cfg.Valid) {fuel : Nat}
    (hf : enough N ≤ fuel) (p : PolyList I V) (xy : V → Coords C) (k : Nat)
    {vs : List (I × Coords C)} (hvs : ∀ v ∈ vs, Src A p xy v) (hlen : 2 ≤ vs.length)
    (hn : st.ns.length + vs.length ≤ N) (hs : st.ss.length + vs.length ≤ N) :
    (St.addPolygonT cfg fuel p xy k st (startLocs vs)).1 ≤ vs.length * (1 + 3 * fuel) +
        relocations cfg vs.length * (vs.length * (fuel + 1)) := by
  have hol : (cfg.order k vs.length).length = vs.length := by
    rw [(hcfg k vs.length).length_eq, List.length_range]
  refine And.left (b := ∀ a, _ → True) (?_ : Bd _ (fun _ => True) _)
  unfold St.addPolygonT
  have hl : (startLocs vs).length = vs.length := by simp [startLocs]
  rw [hl]
  have h0 : PolyInv A vs st [] ⟨st, startLocs vs, vs.length, 0, 1, cfg.mathN vs.length 1⟩ := by
    refine ⟨h, ⟨hl, ?_⟩, List.prefix_refl _, ?_, by simp, ?_, ⟨[], by simp, .nil⟩⟩
    · intro i v vl h1 h2
      simp only [startLocs, List.getElem?_map, h1, Option.map_some, Option.some.injEq] at h2
      subst h2
      exact ⟨rfl, h.root⟩
    · show (st.keys ++ pend (startLocs vs)).Perm _
      rw [pend_startLocs]
    · show _ = (pend (startLocs vs)).length
      rw [pend_startLocs]
  let m := cfg.mathN vs.length
  refine .bind (B₂ := 0) (P := fun _ => True) ⟨?_, fun _ _ => trivial⟩ (fun _ _ => .ret trivial) (Nat.le_refl _)
  have key := foldlM_le (B := vs.length * (1 + 3 * fuel) + relocations cfg vs.length * (vs.length * (fuel + 1)))
    (s := St.polyStepT cfg fuel p xy) (fun rest (l : St.PolyLoop I C) n => Tidy N l.st ∧ ∃ done,
    cfg.order k vs.length = done ++ rest ∧ PolyInv A vs st done l ∧ l.i = done.length ∧
    (l.updateCount, l.nextUpdate) = (sched m done.length).2 ∧
    n ≤ done.length * (1 + 3 * fuel) +
      ((range done.length).filter fun i => relocAt m i = true).card * (vs.length * (fuel + 1))) ?_ _ _ 0 (Nat.zero_le _)
      ⟨ht, [], rfl, h0, rfl, rfl, Nat.zero_le _⟩
  · rw [Nat.zero_add] at key
    exact key
  · rintro a rest l n ⟨ht, done, hd, hi, hii, hsc, hcost⟩
    have hmem : a ∈ cfg.order k vs.length := by rw [hd]; simp
    have ha : a < vs.length := List.mem_range.1 ((hcfg k vs.length).subset hmem)
    have hdl : done.length < vs.length := by
      rw [hd] at hol
      simp only [List.length_append, List.length_cons] at hol
      omega
    have hstep := polyStepT_le cfg hf p xy hvs hlen hi ht hn (by omega) ha
    generalize hj : (St.polyStepT cfg fuel p xy l a).1 = j at hstep ⊢
    have hup : l.updateCount = (sched m done.length).2.1 := congrArg Prod.fst hsc
    have hnx : l.nextUpdate = (sched m done.length).2.2 := congrArg Prod.snd hsc
    have e : (done ++ [a]).length = done.length + 1 := by simp
    have hcount : n + j ≤ (done ++ [a]).length * (1 + 3 * fuel) +
        ((range (done ++ [a]).length).filter fun i => relocAt m i = true).card * (vs.length * (fuel + 1)) := by
      rw [e, Finset.range_add_one, Finset.filter_insert]
      have hra : relocAt m done.length = true ↔ l.i = l.nextUpdate := by
        rw [relocAt, hii, hnx]; simp
      by_cases hu : l.i = l.nextUpdate
      · rw [if_pos hu] at hstep
        rw [if_pos (hra.2 hu), Finset.card_insert_of_notMem (by simp)]
        rw [Nat.add_mul, Nat.add_mul]
        omega
      · rw [if_neg hu] at hstep
        rw [if_neg fun h => hu (hra.1 h)]
        rw [Nat.add_mul]
        omega
    refine ⟨hcount.trans ?_, fun l' hl' => ?_⟩
    · refine Nat.add_le_add (Nat.mul_le_mul_right _ (by omega)) (Nat.mul_le_mul_right _ ?_)
      unfold relocations
      exact Finset.card_le_card (Finset.filter_subset_filter _ (Finset.range_subset_range.2 (by omega)))
    · rw [polyStepT_snd] at hl'
      obtain ⟨h1, h2⟩ := ((polyStep_ranked (E := fun _ => True) (fun _ => trivial) cfg (fun _ => trivial) hf p xy hvs hlen hi
        ht hn (by omega) ha).with (polyStep_safe cfg fuel p xy hvs hlen hi a)).of_ok hl'
      have h34 : l'.i = l.i + 1 ∧ (l'.updateCount, l'.nextUpdate) = (if l.i = l.nextUpdate then
          (l.updateCount + 1, cfg.mathN l'.vls.length (l.updateCount + 1)) else (l.updateCount, l.nextUpdate)) := by
        have hr := polyStepT_rel cfg fuel p xy l 0 a
        have hc := polyStepC_le cfg hf p xy hvs hlen hi ht hn (by omega) ha 0
        have hs := hr.snd
        rw [polyStepT_snd, hl'] at hs
        generalize St.polyStepC cfg fuel p xy (l, 0) a = y at hc hs
        rcases y with e | ⟨l'', j'⟩
        · cases hs
        · cases hs
          exact ⟨hc.1, hc.2.1⟩
      obtain ⟨h3, h4⟩ := h34
      refine ⟨h1, done ++ [a], by simp [hd], h2, by simp [h3, hii], ?_, hcount⟩
      rw [h4, List.length_append, List.length_singleton, sched, hii, hup, hnx, h2.ok.len]
      split <;> rfl

theorem buildStepT_le (cfg : Cfg) (hcfg : cfg.Valid) {fuel : Nat} (p : PolyList I V)
    (xy : V → Coords C) (hf : enough (conts p.elems) ≤ fuel) {R : Nat}
    (hR : ∀ len ≤ conts p.elems, relocations cfg len ≤ R) {e : Option (Elem I)}
    {rest : List (Option (Elem I))} {l : St.BuildLoop I C} {n : Nat} (h : BuildRank p xy (e :: rest) l)
    (hc : n + l.vLookup.length * (1 + 3 * fuel + R * (fuel + 1)) +
        conts (e :: rest) * (1 + 3 * fuel + R * (fuel + 1)) ≤ conts p.elems * (1 + 3 * fuel + R * (fuel + 1))) :
    n + (St.buildStepT cfg fuel p xy l e).1 ≤ conts p.elems * (1 + 3 * fuel + R * (fuel + 1)) ∧
      ∀ l', (St.buildStepT cfg fuel p xy l e).2 = .ok l' → BuildRank p xy rest l' ∧
        n + (St.buildStepT cfg fuel p xy l e).1 + l'.vLookup.length * (1 + 3 * fuel + R * (fuel + 1)) +
        conts rest * (1 + 3 * fuel + R * (fuel + 1)) ≤ conts p.elems * (1 + 3 * fuel + R * (fuel + 1)) := by
  constructor
  · obtain ⟨⟨hwf, vs, hvs, hsrc⟩, ht, hns, hss, -⟩ := h
    have hlv : l.vLookup.length = vs.length := by rw [hvs]; simp [startLocs]
    rcases e with _ | i | _
    · exact (Nat.le_add_right _ _).trans ((Nat.le_add_right _ _).trans hc)
    · have : (St.buildStepT cfg fuel p xy l (some (.cont i))).1 = 0 :=
        Nat.le_zero.1 (Bd.of (B := 0) (Q := fun _ => True) (fun _ _ => Bd.ret trivial)).1
      rw [this]
      exact (Nat.le_add_right _ _).trans ((Nat.le_add_right _ _).trans hc)
    · have he : conts (some .newPolygon :: rest) = conts rest := by simp [conts]
      rw [he] at hns hss
      have key : Bd (l.vLookup.length * (1 + 3 * fuel + R * (fuel + 1))) (fun _ => True)
          (St.buildStepT cfg fuel p xy l (some .newPolygon)) := by
        unfold St.buildStepT
        refine .ite (fun _ => .ite (fun _ => .err) fun hlen => ?_) fun _ => .ret trivial
        refine .bind (B₁ := l.vLookup.length * (1 + 3 * fuel + R * (fuel + 1))) (B₂ := 0) (P := fun _ => True)
          ⟨?_, fun _ _ => trivial⟩ (fun _ _ => .ret trivial) (Nat.le_refl _)
        rw [hvs]
        refine (addPolygonT_le hwf ht cfg hcfg hf p xy l.k hsrc (by omega) (by omega) (by omega)).trans ?_
        rw [← hvs, hlv, Nat.mul_add _ (1 + 3 * fuel) (R * (fuel + 1))]
        have := Nat.mul_le_mul_right (vs.length * (fuel + 1)) (hR vs.length (by omega))
        rw [Nat.mul_left_comm vs.length R]
        omega
      have := key.1
      omega
  · intro l' hl'
    have hr := buildStepT_rel cfg fuel p xy l n e
    have hb := buildStepC_le cfg hcfg p xy hf hR h hc
    generalize St.buildStepC cfg fuel p xy (l, n) e = y at hr hb
    rcases y with e | ⟨l'', m⟩
    · rw [hr] at hl'; cases hl'
    · obtain ⟨j, h1, h2⟩ := hr
      rw [h1] at hl' ⊢
      cases hl'
      rw [h2] at hb
      exact hb

/-- The cost with the least number of passes that suffices, however the run ends. -/
theorem trapezoidizeT_le (cfg : Cfg) (hcfg : cfg.Valid) {fuel : Nat} (p : PolyList I V)
    (xy : V → Coords C) (hf : enough (conts p.elems) ≤ fuel) {R : Nat}
    (hR : ∀ len ≤ conts p.elems, relocations cfg len ≤ R) :
    (trapezoidizeT cfg fuel p xy).1 ≤ conts p.elems * (1 + 3 * fuel + R * (fuel + 1)) := by
  refine And.left (b := ∀ a, _ → True) (?_ : Bd _ (fun _ => True) _)
  unfold trapezoidizeT St.buildT
  generalize hF : 1 + 3 * fuel + R * (fuel + 1) = F
  have hz : conts (p.elems ++ [some .newPolygon]) = conts p.elems := by simp [conts]
  refine .bind (B₂ := 0) (P := fun _ => True) ⟨?_, fun _ _ => trivial⟩ (fun _ _ => .ret trivial) (Nat.le_refl _)
  have key := foldlM_le (B := conts p.elems * F) (s := St.buildStepT cfg fuel p xy)
    (fun rest (l : St.BuildLoop I C) n => BuildRank p xy rest l ∧
      n + l.vLookup.length * F + conts rest * F ≤ conts p.elems * F) (fun b rest a n h => ?_)
    (p.elems ++ [some Elem.newPolygon]) ⟨St.init, [], 0⟩ 0 (Nat.zero_le _) ⟨⟨⟨WF.init, [], rfl, by simp⟩, Tidy.init _, ?_, ?_, ?_⟩, ?_⟩
  · rw [Nat.zero_add] at key
    exact key
  · subst hF
    exact buildStepT_le cfg hcfg p xy hf hR h.1 h.2
  · simp [St.init, conts]
  · simp [St.init, conts]
  · intro e he
    rcases List.mem_append.1 he with h | h
    · exact .inr h
    · exact .inl (List.mem_singleton.1 h)
  · simp [hz]

/-- The cost of every trapezoidation, however it ends. -/
theorem trapezoidizeT_worst (cfg : Cfg) (hcfg : cfg.Valid) (fuel : Nat) (p : PolyList I V)
    (xy : V → Coords C) {R : Nat} (hR : ∀ len ≤ conts p.elems, relocations cfg len ≤ R) :
    (trapezoidizeT cfg fuel p xy).1 ≤
      conts p.elems * (1 + 3 * enough (conts p.elems) + R * (enough (conts p.elems) + 1)) := by
  have hmin := trapezoidizeT_le cfg hcfg p xy (le_refl _) hR
  rcases Nat.le_total fuel (enough (conts p.elems)) with hf | hf
  · rcases trapezoidizeT_tle cfg p xy hf with h0 | h0
    · rw [h0]; exact hmin
    · exact h0.1.trans hmin
  · rcases trapezoidizeT_tle cfg p xy hf with h0 | h0
    · rw [← h0]; exact hmin
    · exfalso
      have h1 := trapezoidize_ranked cfg hcfg p xy (le_refl (enough (conts p.elems)))
      have h2 := h0.2
      rw [trapezoidizeT_snd] at h2
      rw [h2] at h1
      exact h1

end Tri
