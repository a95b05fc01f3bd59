import Verif.Proof.CostWorst

/-!
# The count of a trapezoidation covers every loop

If a run of the counted trapezoidation succeeds, no loop in it needs more iterations than were counted in total.
-/

namespace Tri

variable {I V C : Type}

/-- If `x` succeeds with a count of at most `L` then `y` is `x`. -/
structure Cov {ε α : Type} (L : Nat) (x y : Res ε (α × Nat)) : Prop where
  of : ∀ r, x = .ok r → r.2 ≤ L → y = .ok r

/-- If `x` succeeds then the count is at least `n`. -/
structure Atl {ε α : Type} (n : Nat) (x : Res ε (α × Nat)) : Prop where
  of : ∀ r, x = .ok r → n ≤ r.2

namespace Cov
variable {ε α β γ : Type} {L : Nat}

theorem same (x : Res ε (α × Nat)) : Cov L x x := ⟨fun _ h _ => h⟩

theorem bind {x y : Res ε (α × Nat)} {f g : α × Nat → Res ε (β × Nat)} (h : Cov L x y)
    (hn : ∀ r, Atl r.2 (f r)) (h' : ∀ r, Cov L (f r) (g r)) : Cov L (x >>= f) (y >>= g) := by
  refine ⟨fun s hs hl => ?_⟩
  rcases x with e | r
  · cases hs
  · have h1 := (hn r).of s hs
    rw [h.of r rfl (h1.trans hl)]
    exact (h' r).of s hs hl

theorem bind' {x : Res ε γ} {f g : γ → Res ε (β × Nat)} (h' : ∀ r, Cov L (f r) (g r)) : Cov L (x >>= f) (x >>= g) := by
  refine ⟨fun s hs hl => ?_⟩
  rcases x with e | r
  · cases hs
  · exact (h' r).of s hs hl

theorem ite {c : Prop} [Decidable c] {x x' y y' : Res ε (α × Nat)} (h : Cov L x y) (h' : Cov L x' y') :
    Cov L (if c then x else x') (if c then y else y') := by
  split
  · exact h
  · exact h'

theorem mapErr {δ : Type} {f : ε → δ} {x y : Res ε (α × Nat)} (h : Cov L x y) : Cov L (Res.mapErr f x) (Res.mapErr f y) := by
  refine ⟨fun s hs hl => ?_⟩
  cases hx : x with
  | error e => rw [hx] at hs; rcases e with e | _ | _ | _ <;> cases hs
  | ok r =>
    rw [hx] at hs
    cases hs
    rw [h.of s hx hl]
    rfl

/-- Nothing is claimed of a count that is too large. -/
theorem over {n : Nat} {x y : Res ε (α × Nat)} (h : Atl n x) (hn : L < n) : Cov L x y :=
  ⟨fun r hr hl => absurd (h.of r hr) (by omega)⟩

/-- What comes after a recursive call leaves room for one less. -/
theorem step {x y : Res ε (α × Nat)} {f g : α × Nat → Res ε (β × Nat)} (h : Cov L x y)
    (hn : ∀ r, Atl (r.2 + 1) (f r)) (h' : ∀ r, Cov (L + 1) (f r) (g r)) : Cov (L + 1) (x >>= f) (y >>= g) := by
  refine ⟨fun s hs hl => ?_⟩
  rcases x with e | r
  · cases hs
  · have h1 := (hn r).of s hs
    rw [h.of r rfl (by omega)]
    exact (h' r).of s hs hl

theorem foldlM {σ : Type} {f g : σ × Nat → α → Res ε (σ × Nat)} (hn : ∀ s a, Atl s.2 (f s a)) (h : ∀ s a, Cov L (f s a) (g s a))
    (l : List α) (s : σ × Nat) : Cov L (l.foldlM f s) (l.foldlM g s) ∧ Atl s.2 (l.foldlM f s) := by
  induction l generalizing s with
  | nil => exact ⟨same _, ⟨fun r h => by cases h; exact Nat.le_refl _⟩⟩
  | cons a l ih =>
    rw [List.foldlM_cons, List.foldlM_cons]
    refine ⟨bind (h s a) (fun r => (ih r).2) fun r => (ih r).1, ?_⟩
    refine ⟨fun r hr => ?_⟩
    cases hx : f s a with
    | error e => rw [hx] at hr; cases hr
    | ok t =>
      rw [hx] at hr
      exact ((hn s a).of t hx).trans ((ih t).2.of r hr)

end Cov

namespace Atl
variable {ε α β γ : Type} {n : Nat}

theorem ok {a : α} {k : Nat} (h : n ≤ k) : Atl n (.ok (a, k) : Res ε (α × Nat)) := by
  exact ⟨fun r hr => by cases hr; exact h⟩

theorem error {e : Fault ε} : Atl n (.error e : Res ε (α × Nat)) := by
  exact ⟨fun r hr => by cases hr⟩

theorem bind {x : Res ε γ} {f : γ → Res ε (α × Nat)} (h : ∀ a, Atl n (f a)) : Atl n (x >>= f) := by
  rcases x with e | a
  · exact error
  · exact h a

theorem ite {c : Prop} [Decidable c] {x y : Res ε (α × Nat)} (h : Atl n x) (h' : Atl n y) : Atl n (if c then x else y) := by
  split
  · exact h
  · exact h'

end Atl

section
variable [Scalar C]

theorem findC_pos (qs : List (QueryNode C)) (c : Coords C) (fuel qi : Nat) : Atl 1 (St.findC qs c fuel qi) := by
  cases fuel with
  | zero => exact Atl.error
  | succ k =>
    unfold St.findC
    refine Atl.bind fun q => ?_
    cases q with
    | branch l r b => exact Atl.bind fun r => Atl.ok (by omega)
    | sink ti => exact Atl.ok (Nat.le_refl _)

theorem findC_covers {L : Nat} (qs : List (QueryNode C)) (c : Coords C) (fuel qi : Nat) :
    Cov L (St.findC qs c fuel qi) (St.findC qs c L qi) := by
  induction fuel generalizing qi L with
  | zero => exact ⟨fun r h => by cases h⟩
  | succ k ih =>
    cases L with
    | zero => exact Cov.over (findC_pos ..) (by omega)
    | succ L =>
      unfold St.findC
      refine Cov.bind' fun q => ?_
      cases q with
      | branch l r b => exact Cov.step (ih _) (fun r => Atl.ok (Nat.le_refl _)) fun r => Cov.same _
      | sink ti => exact Cov.same _

variable {cfg : Cfg} (hd : cfg.debug = false)
include hd

theorem addVertexC_covers {L : Nat} (fuel : Nat) (p : PolyList I V) (xy : V → Coords C) (st : St I C) (vi : I) (qi : Nat) :
    Cov L (st.addVertexC cfg fuel p xy vi qi) (st.addVertexC cfg L p xy vi qi) := by
  have hc : ∀ (st : St I C) n, st.debugCheck cfg n = .ok () := fun st n => by simp [St.debugCheck, hd]
  unfold St.addVertexC
  simp only [hc]
  exact Cov.bind' fun c => Cov.bind (findC_covers ..) (fun r => Atl.bind fun _ => Atl.ok (Nat.le_refl _)) fun r => Cov.same _

theorem addVertexVLC_covers {L : Nat} (fuel : Nat) (p : PolyList I V) (xy : V → Coords C) (st : St I C) (vls : List (VLoc I C))
    (vli : Nat) (vi : I) (qi : Nat) :
    Cov L (st.addVertexVLC cfg fuel p xy vls vli vi qi) (st.addVertexVLC cfg L p xy vls vli vi qi) := by
  unfold St.addVertexVLC
  exact Cov.bind (addVertexC_covers hd ..) (fun r => Atl.bind fun _ => Atl.ok (Nat.le_refl _)) fun r => Cov.same _

theorem addEndsC_covers {L : Nat} (fuel : Nat) (p : PolyList I V) (xy : V → Coords C) (st : St I C) (vls : List (VLoc I C))
    (si : Nat) : Cov L (st.addEndsC cfg fuel p xy vls si) (st.addEndsC cfg L p xy vls si) := by
  unfold St.addEndsC
  refine Cov.bind' fun v0 => Cov.bind' fun v1 => ?_
  cases v0 with
  | pending =>
    cases v1 with
    | pending =>
      refine Cov.ite ?_ ?_
      all_goals
        refine Cov.bind (addVertexVLC_covers hd ..) (fun r => Atl.bind fun _ => Atl.ok (Nat.le_add_right _ _)) fun r => ?_
        exact Cov.bind (addVertexVLC_covers hd ..) (fun r => Atl.ok (Nat.le_add_left _ _)) fun r => Cov.same _
    | inserted => exact Cov.bind (addVertexVLC_covers hd ..) (fun r => Atl.ok (Nat.le_refl _)) fun r => Cov.same _
  | inserted =>
    cases v1 with
    | pending => exact Cov.bind (addVertexVLC_covers hd ..) (fun r => Atl.ok (Nat.le_refl _)) fun r => Cov.same _
    | inserted => exact Cov.same _

variable [DecidableEq I]

omit hd in
theorem addSegmentLoopC_covers {L : Nat} (si : Nat) (s : Segment C) (fuel : Nat) (l : St.SegLoop I C) :
    Cov L (St.addSegmentLoopC si s fuel l) (St.addSegmentLoopC si s (L + 1) l) := by
  induction fuel generalizing L l with
  | zero => exact ⟨fun r h => by cases h⟩
  | succ k ih =>
    unfold St.addSegmentLoopC
    refine Cov.ite (Cov.same _) (Cov.bind' fun l' => ?_)
    cases L with
    | zero => exact Cov.over (n := 1) (Atl.bind fun r => Atl.ok (Nat.le_add_left _ _)) (by omega)
    | succ L => exact Cov.step (ih _) (fun r => Atl.ok (Nat.le_refl _)) fun r => Cov.same _

theorem addSegmentC_covers {L : Nat} (fuel : Nat) (st : St I C) (a b : Nat) (c d : Coords C) :
    Cov L (st.addSegmentC cfg fuel a b c d) (st.addSegmentC cfg (L + 1) a b c d) := by
  have hc : ∀ (st : St I C) n, st.debugCheck cfg n = .ok () := fun st n => by simp [St.debugCheck, hd]
  unfold St.addSegmentC
  simp only [hc]
  exact Cov.bind' fun l => Cov.bind (addSegmentLoopC_covers ..) (fun r => Atl.bind fun _ => Atl.ok (Nat.le_refl _))
    fun r => Cov.same _

/-- A count that covers with less fuel also covers with more. -/
theorem addEndsC_covers' {L : Nat} (fuel : Nat) (p : PolyList I V) (xy : V → Coords C) (st : St I C) (vls : List (VLoc I C))
    (si : Nat) : Cov L (st.addEndsC cfg fuel p xy vls si) (st.addEndsC cfg (L + 1) p xy vls si) :=
  ⟨fun r hr hl => (addEndsC_covers hd (L := L + 1) fuel p xy st vls si).of r hr (by omega)⟩

theorem addNthSegmentC_covers {L : Nat} (fuel : Nat) (p : PolyList I V) (xy : V → Coords C) (st : St I C) (vls : List (VLoc I C))
    (si : Nat) : Cov L (st.addNthSegmentC cfg fuel p xy vls si) (st.addNthSegmentC cfg (L + 1) p xy vls si) := by
  unfold St.addNthSegmentC
  refine Cov.bind (addEndsC_covers' hd ..) (fun r => Atl.bind fun _ => Atl.bind fun _ => Atl.bind fun _ => Atl.ok (Nat.le_add_right _ _))
    fun r => Cov.bind' fun n0 => Cov.bind' fun n1 => ?_
  refine Cov.bind (Cov.ite (addSegmentC_covers hd ..) (addSegmentC_covers hd ..)) (fun r => Atl.ok (Nat.le_add_left _ _))
    fun r => Cov.same _

omit hd in
theorem walkC_pos (st : St I C) (dir : Dir) (c0 c1 : Coords C) (fuel ti : Nat) : Atl 1 (st.walkC dir c0 c1 fuel ti) := by
  cases fuel with
  | zero => exact Atl.error
  | succ k =>
    unfold St.walkC
    refine Atl.bind fun t => Atl.bind fun d => Atl.ite (Atl.ok (Nat.le_refl _)) ?_
    cases dir
    · cases t.up with
      | none => exact Atl.error
      | some ni => exact Atl.bind fun n => Atl.bind fun r => Atl.ok (by omega)
    · cases t.down with
      | none => exact Atl.error
      | some ni => exact Atl.bind fun n => Atl.bind fun r => Atl.ok (by omega)

omit hd in
theorem walkC_covers {L : Nat} (st : St I C) (dir : Dir) (c0 c1 : Coords C) (fuel ti : Nat) :
    Cov L (st.walkC dir c0 c1 fuel ti) (st.walkC dir c0 c1 L ti) := by
  induction fuel generalizing ti L with
  | zero => exact ⟨fun r h => by cases h⟩
  | succ k ih =>
    cases L with
    | zero => exact Cov.over (walkC_pos ..) (by omega)
    | succ L =>
      unfold St.walkC
      refine Cov.bind' fun t => Cov.bind' fun d => Cov.ite (Cov.same _) ?_
      cases dir
      · cases t.up with
        | none => exact Cov.same _
        | some ni => exact Cov.bind' fun n => Cov.step (ih _) (fun r => Atl.ok (Nat.le_refl _)) fun r => Cov.same _
      · cases t.down with
        | none => exact Cov.same _
        | some ni => exact Cov.bind' fun n => Cov.step (ih _) (fun r => Atl.ok (Nat.le_refl _)) fun r => Cov.same _

omit hd in
theorem relocStepC_covers {L : Nat} (st : St I C) (fuel : Nat) (r : St.Reloc I C) :
    Cov L (St.relocStepC fuel st r) (St.relocStepC L st r) := by
  unfold St.relocStepC
  refine Cov.bind' fun v => ?_
  cases v with
  | inserted => exact Cov.same _
  | pending =>
    exact Cov.bind' fun ti => Cov.bind (walkC_covers ..) (fun r => Atl.bind fun _ => Atl.bind fun _ => Atl.ok (Nat.le_refl _))
      fun r => Cov.same _

omit hd in
theorem relocLoopC_covers {L : Nat} (st : St I C) (fuel : Nat) (K : Nat) (hK : L ≤ K) (k : Nat) (r : St.Reloc I C) :
    Cov L (St.relocLoopC fuel st k r) (St.relocLoopC K st (L + 1) r) := by
  induction k generalizing L r with
  | zero => exact ⟨fun r h => by cases h⟩
  | succ k ih =>
    unfold St.relocLoopC
    refine Cov.ite (Cov.same _) ?_
    refine Cov.bind ⟨fun s hs hl => (relocStepC_covers st fuel r).of s hs (hl.trans hK)⟩
      (fun r => Atl.bind fun _ => Atl.ok (by omega)) fun r => ?_
    cases L with
    | zero => exact Cov.over (n := 1) (Atl.bind fun r => Atl.ok (Nat.le_add_left _ _)) (by omega)
    | succ L => exact Cov.step (ih (by omega) _) (fun r => Atl.ok (by omega)) fun r => Cov.same _

theorem polyStepC_covers {L : Nat} (fuel : Nat) (p : PolyList I V) (xy : V → Coords C) (ln : St.PolyLoop I C × Nat) (vi0 : Nat) :
    Cov L (St.polyStepC cfg fuel p xy ln vi0) (St.polyStepC cfg L p xy ln vi0) ∧
      Atl (ln.2 + 1) (St.polyStepC cfg fuel p xy ln vi0) := by
  have h1 : Atl (ln.2 + 1) (St.polyStepC cfg fuel p xy ln vi0) := by
    unfold St.polyStepC
    exact Atl.bind fun _ => Atl.bind fun _ => Atl.ite (Atl.bind fun _ => Atl.ok (by omega)) (Atl.ok (by omega))
  refine ⟨?_, h1⟩
  cases L with
  | zero => exact Cov.over h1 (by omega)
  | succ L =>
    unfold St.polyStepC St.relocateC
    refine Cov.step (addNthSegmentC_covers hd ..)
      (fun r => Atl.bind fun _ => Atl.ite (Atl.bind fun _ => Atl.ok (by omega)) (Atl.ok (by omega))) fun r => Cov.bind' fun q => ?_
    refine Cov.ite ?_ (Cov.same _)
    exact Cov.step (relocLoopC_covers _ fuel (L + 1) (Nat.le_succ L) ..) (fun r => Atl.ok (by omega)) fun r => Cov.same _

theorem buildStepC_covers {L : Nat} (fuel : Nat) (p : PolyList I V) (xy : V → Coords C) (ln : St.BuildLoop I C × Nat)
    (e : Option (Elem I)) : Cov L (St.buildStepC cfg fuel p xy ln e) (St.buildStepC cfg L p xy ln e) ∧
      Atl ln.2 (St.buildStepC cfg fuel p xy ln e) := by
  rcases e with _ | i | _
  · exact ⟨Cov.same _, Atl.error⟩
  · exact ⟨Cov.same _, Atl.bind fun _ => Atl.ok (Nat.le_refl _)⟩
  · unfold St.buildStepC St.addPolygonC
    refine ⟨?_, Atl.ite (Atl.ite Atl.error (Atl.bind fun _ => Atl.ok (Nat.le_add_right _ _))) (Atl.ok (Nat.le_refl _))⟩
    refine Cov.ite (Cov.ite (Cov.same _) ?_) (Cov.same _)
    refine Cov.bind (Cov.mapErr ?_) (fun r => Atl.ok (Nat.le_add_left _ _)) fun _ => Cov.same _
    exact Cov.bind (Cov.foldlM (fun s a => ⟨fun r hr => by have := (polyStepC_covers (L := L) hd fuel p xy s a).2.of r hr; omega⟩)
      (fun s a => (polyStepC_covers hd fuel p xy s a).1) _ _).1 (fun r => Atl.ok (Nat.le_refl _)) fun _ => Cov.same _

theorem trapezoidizeC_covers {L : Nat} (fuel : Nat) (p : PolyList I V) (xy : V → Coords C) :
    Cov L (trapezoidizeC cfg fuel p xy) (trapezoidizeC cfg L p xy) := by
  unfold trapezoidizeC St.buildC
  exact Cov.bind (Cov.foldlM (fun s a => (buildStepC_covers (L := L) hd fuel p xy s a).2)
    (fun s a => (buildStepC_covers hd fuel p xy s a).1) _ _).1 (fun r => Atl.ok (Nat.le_refl _)) fun _ => Cov.same _

omit hd in
theorem addPolygonC_atl (hcfg : cfg.Valid) (fuel : Nat) (p : PolyList I V) (xy : V → Coords C) (k : Nat) (st : St I C)
    (vls : List (VLoc I C)) : Atl vls.length (St.addPolygonC cfg fuel p xy k st vls) := by
  have hs : ∀ ln vi0, Atl (ln.2 + 1) (St.polyStepC cfg fuel p xy ln vi0) := fun ln vi0 => by
    unfold St.polyStepC
    exact Atl.bind fun _ => Atl.bind fun _ => Atl.ite (Atl.bind fun _ => Atl.ok (by omega)) (Atl.ok (by omega))
  have hf : ∀ (is : List Nat) ln, Atl (ln.2 + is.length) (is.foldlM (St.polyStepC cfg fuel p xy) ln) := by
    intro is
    induction is with
    | nil => exact fun ln => ⟨fun r hr => by cases hr; exact Nat.le_refl _⟩
    | cons i is ih =>
      intro ln
      refine ⟨fun r hr => ?_⟩
      rw [List.foldlM_cons] at hr
      obtain ⟨ln', h1, h2⟩ := Res.bind_ok hr
      have h3 := (hs ln i).of _ h1
      have h4 := (ih ln').of _ h2
      rw [List.length_cons]
      omega
  refine ⟨fun r hr => ?_⟩
  obtain ⟨ln, h1, h2⟩ := Res.bind_ok hr
  have h3 := (hf _ _).of _ h1
  cases h2
  have h4 := (hcfg k vls.length).length_eq
  rw [List.length_range] at h4
  simp only [h4] at h3
  omega

omit hd in
/-- The loop over the segments is counted. -/
theorem trapezoidizeC_atl (hcfg : cfg.Valid) (fuel : Nat) (p : PolyList I V) (xy : V → Coords C) :
    Atl (conts p.elems) (trapezoidizeC cfg fuel p xy) := by
  have hf : ∀ (es : List (Option (Elem I))) (ln : St.BuildLoop I C × Nat) r,
      es.foldlM (St.buildStepC cfg fuel p xy) ln = .ok r →
        ln.2 + ln.1.vLookup.length + conts es ≤ r.2 + r.1.vLookup.length := by
    intro es
    induction es with
    | nil => intro ln r hr; cases hr; simp [conts]
    | cons e es ih =>
      intro ln r hr
      rw [List.foldlM_cons] at hr
      obtain ⟨ln', h1, h2⟩ := Res.bind_ok hr
      have h3 := ih _ _ h2
      rcases e with _ | i | _
      · cases h1
      · obtain ⟨c, -, h1⟩ := Res.bind_ok h1
        cases h1
        simp only [List.length_append, List.length_cons, List.length_nil] at h3
        simp only [conts, List.countP_cons] at h3 ⊢
        simp only [if_true]
        omega
      · have h4 : conts (some Elem.newPolygon :: es) = conts es := by simp [conts]
        rw [h4]
        simp only [St.buildStepC] at h1
        split at h1
        · split at h1
          · cases h1
          · obtain ⟨x, hx, h1⟩ := Res.bind_ok h1
            cases h1
            have h5 := (addPolygonC_atl hcfg fuel p xy ln.1.k ln.1.st ln.1.vLookup).of x (by
              cases hy : St.addPolygonC cfg fuel p xy ln.1.k ln.1.st ln.1.vLookup with
              | ok y => rw [hy] at hx; cases hx; rfl
              | error e => rw [hy] at hx; cases e <;> cases hx)
            simp only [List.length_nil] at h3
            omega
        · cases h1
          exact h3
  refine ⟨fun r hr => ?_⟩
  obtain ⟨ln, h1, h2⟩ := Res.bind_ok hr
  cases h2
  rw [List.foldlM_append] at h1
  obtain ⟨ln', h3, h4⟩ := Res.bind_ok h1
  have h5 := hf _ _ _ h3
  have h6 := hf _ _ _ h4
  obtain ⟨ln'', h7, h8⟩ := Res.bind_ok (by simpa only [List.foldlM_cons, List.foldlM_nil] using h4)
  cases h8
  have h9 : ln.1.vLookup = [] := by
    simp only [St.buildStepC] at h7
    split at h7
    · split at h7
      · cases h7
      · obtain ⟨x, -, h7⟩ := Res.bind_ok h7
        cases h7
        rfl
    · next hl => cases h7; exact List.eq_nil_of_length_eq_zero (Nat.le_zero.1 (Nat.not_lt.1 hl))
  rw [h9] at h6
  simp only [List.length_nil] at h5 h6
  show _ ≤ ln.2
  omega

end
end Tri
