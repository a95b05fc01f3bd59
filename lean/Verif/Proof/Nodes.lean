import Verif.Model.Cost

/-!
# How many query nodes there are

A vertex adds two query nodes, a segment adds two and one more for every iteration of the loop of `add_segment`.
-/

set_option linter.unusedSectionVars false

namespace Tri

variable {I V C : Type}

theorem Res.bind_ok {ε α β : Type} {x : Res ε α} {f : α → Res ε β} {b : β} (h : (x >>= f) = .ok b) :
    ∃ a, x = .ok a ∧ f a = .ok b := by
  cases x with
  | error e => cases h
  | ok a => exact ⟨a, rfl, h⟩

theorem modP_length {ε α : Type} {xs ys : List α} {i : Nat} {f : α → α} (h : modP (ε := ε) xs i f = .ok ys) :
    ys.length = xs.length := by
  unfold modP at h
  split at h
  · cases h; simp
  · cases h

theorem replaceAt_length {ns ns' : List (Nexus I C)} {o : Option Nat} {a b : Nat} (h : St.replaceAt ns o a b = .ok ns') :
    ns'.length = ns.length := by
  cases o with
  | none => cases h; rfl
  | some i =>
    obtain ⟨n, -, h⟩ := Res.bind_ok h
    obtain ⟨n', -, h⟩ := Res.bind_ok h
    cases h; simp

theorem Nexus.addSegment_length [Scalar C] {ns ns' : List (Nexus I C)} {ss : List (Segment C)} {ni si t : Nat}
    (h : Nexus.addSegment ns ss ni si t = .ok ns') : ns'.length = ns.length := by
  obtain ⟨d, -, h⟩ := Res.bind_ok h
  obtain ⟨n, -, h⟩ := Res.bind_ok h
  split at h
  · cases h; simp
  · obtain ⟨s, -, h⟩ := Res.bind_ok h
    split at h <;> (cases h; simp)
  · cases h

namespace St

/-- From `st` to `st'`, besides two query nodes for every vertex and two for every segment, `k` query nodes were added. -/
def Nodes (st st' : St I C) (k : Nat) : Prop :=
  st'.qs.length + (2 * st.ns.length + 2 * st.ss.length) = st.qs.length + (2 * st'.ns.length + 2 * st'.ss.length) + k

theorem Nodes.refl (st : St I C) : Nodes st st 0 := rfl

theorem Nodes.trans {a b c : St I C} {k k' : Nat} (h : Nodes a b k) (h' : Nodes b c k') : Nodes a c (k + k') := by
  unfold Nodes at *; omega

theorem addVertexAt_nodes {st st' : St I C} {vi : I} {c : Coords C} {q t : Nat} (h : st.addVertexAt vi c q t = .ok st') :
    Nodes st st' 0 := by
  obtain ⟨ql, -, h⟩ := Res.bind_ok h
  obtain ⟨qs, h1, h⟩ := Res.bind_ok h
  obtain ⟨ts, -, h⟩ := Res.bind_ok h
  obtain ⟨t, -, h⟩ := Res.bind_ok h
  obtain ⟨ns, h2, h⟩ := Res.bind_ok h
  cases h
  have h1 := modP_length h1
  have h2 := replaceAt_length h2
  simp only [Nodes, List.length_append, List.length_cons, List.length_nil] at *
  omega

variable [Scalar C]

theorem addVertexC_nodes {cfg : Cfg} {fuel : Nat} {p : PolyList I V} {xy : V → Coords C} {st : St I C} {vi : I} {q : Nat}
    {r : (St I C × Nat) × Nat} (h : st.addVertexC cfg fuel p xy vi q = .ok r) : Nodes st r.1.1 0 := by
  obtain ⟨c, -, h⟩ := Res.bind_ok h
  obtain ⟨⟨⟨qp, t⟩, k⟩, -, h⟩ := Res.bind_ok h
  obtain ⟨st', h1, h⟩ := Res.bind_ok h
  obtain ⟨_, -, h⟩ := Res.bind_ok h
  cases h
  exact addVertexAt_nodes h1

variable [DecidableEq I]

theorem addSegmentStart_nodes {st : St I C} {a b : Nat} {ca cb : Coords C} {l : SegLoop I C}
    (h : addSegmentStart st a b ca cb = .ok l) : Nodes st l.st 0 := by
  obtain ⟨n, -, h⟩ := Res.bind_ok h
  obtain ⟨ti, -, h⟩ := Res.bind_ok h
  obtain ⟨t, -, h⟩ := Res.bind_ok h
  obtain ⟨ql, -, h⟩ := Res.bind_ok h
  obtain ⟨qs, h1, h⟩ := Res.bind_ok h
  obtain ⟨ts, -, h⟩ := Res.bind_ok h
  obtain ⟨t, -, h⟩ := Res.bind_ok h
  obtain ⟨ns, h2, h⟩ := Res.bind_ok h
  obtain ⟨t, -, h⟩ := Res.bind_ok h
  split at h
  · cases h
  · obtain ⟨n, -, h⟩ := Res.bind_ok h
    obtain ⟨ns, h3, h⟩ := Res.bind_ok h
    cases h
    have h1 := modP_length h1
    have h2 := Nexus.addSegment_length h2
    have h3 := replaceAt_length h3
    simp only [Nodes, List.length_append, List.length_cons, List.length_nil] at *
    omega

theorem addSegmentStep_nodes {si : Nat} {s : Segment C} {l l' : SegLoop I C} (h : addSegmentStep si s l = .ok l') :
    Nodes l.st l'.st 1 := by
  obtain ⟨n, -, h⟩ := Res.bind_ok h
  obtain ⟨ti, -, h⟩ := Res.bind_ok h
  obtain ⟨t, -, h⟩ := Res.bind_ok h
  split at h
  · cases h
  · obtain ⟨tl, -, h⟩ := Res.bind_ok h
    obtain ⟨tr, -, h⟩ := Res.bind_ok h
    split at h
    · obtain ⟨ql, -, h⟩ := Res.bind_ok h
      obtain ⟨qs, h1, h⟩ := Res.bind_ok h
      obtain ⟨ts, -, h⟩ := Res.bind_ok h
      obtain ⟨ts, -, h⟩ := Res.bind_ok h
      obtain ⟨ts, -, h⟩ := Res.bind_ok h
      obtain ⟨n, -, h⟩ := Res.bind_ok h
      obtain ⟨ns, h2, h⟩ := Res.bind_ok h
      cases h
      have h1 := modP_length h1
      have h2 := replaceAt_length h2
      simp only [Nodes, List.length_append, List.length_cons, List.length_nil] at *
      omega
    · split at h
      · obtain ⟨ql, -, h⟩ := Res.bind_ok h
        obtain ⟨qs, h1, h⟩ := Res.bind_ok h
        obtain ⟨ts, -, h⟩ := Res.bind_ok h
        obtain ⟨ts, -, h⟩ := Res.bind_ok h
        obtain ⟨ts, -, h⟩ := Res.bind_ok h
        obtain ⟨n, -, h⟩ := Res.bind_ok h
        obtain ⟨ns, h2, h⟩ := Res.bind_ok h
        cases h
        have h1 := modP_length h1
        have h2 := replaceAt_length h2
        simp only [Nodes, List.length_append, List.length_cons, List.length_nil] at *
        omega
      · cases h

theorem addSegmentLoopC_nodes {si : Nat} {s : Segment C} {fuel : Nat} {l : SegLoop I C} {r : SegLoop I C × Nat}
    (h : addSegmentLoopC si s fuel l = .ok r) : Nodes l.st r.1.st r.2 := by
  induction fuel generalizing l r with
  | zero => cases h
  | succ fuel ih =>
    unfold addSegmentLoopC at h
    split at h
    · cases h; exact Nodes.refl _
    · obtain ⟨l', h1, h⟩ := Res.bind_ok h
      obtain ⟨⟨l'', k⟩, h2, h⟩ := Res.bind_ok h
      cases h
      have := (addSegmentStep_nodes h1).trans (ih h2)
      rwa [Nat.add_comm] at this

theorem addSegmentC_nodes {cfg : Cfg} {fuel : Nat} {st : St I C} {a b : Nat} {ca cb : Coords C} {r : St I C × Nat}
    (h : st.addSegmentC cfg fuel a b ca cb = .ok r) : Nodes st r.1 r.2 := by
  obtain ⟨l, h1, h⟩ := Res.bind_ok h
  obtain ⟨⟨l', k⟩, h2, h⟩ := Res.bind_ok h
  obtain ⟨ns, h3, h⟩ := Res.bind_ok h
  obtain ⟨_, -, h⟩ := Res.bind_ok h
  cases h
  have h4 := (addSegmentStart_nodes h1).trans (addSegmentLoopC_nodes h2)
  have h3 := Nexus.addSegment_length h3
  unfold Nodes at *
  simp only at *
  omega

theorem addVertexVLC_nodes {cfg : Cfg} {fuel : Nat} {p : PolyList I V} {xy : V → Coords C} {st : St I C} {vls : List (VLoc I C)}
    {vli : Nat} {vi : I} {q : Nat} {r : (St I C × List (VLoc I C) × Nat) × Nat}
    (h : addVertexVLC cfg fuel p xy st vls vli vi q = .ok r) : Nodes st r.1.1 0 := by
  obtain ⟨⟨⟨st', ni⟩, k⟩, h1, h⟩ := Res.bind_ok h
  obtain ⟨vl, -, h⟩ := Res.bind_ok h
  cases h
  exact addVertexC_nodes h1

theorem addEndsC_nodes {cfg : Cfg} {fuel : Nat} {p : PolyList I V} {xy : V → Coords C} {st : St I C} {vls : List (VLoc I C)}
    {si : Nat} {r : (St I C × List (VLoc I C) × Nat × Nat × Nat) × Nat} (h : addEndsC cfg fuel p xy st vls si = .ok r) :
    Nodes st r.1.1 0 := by
  obtain ⟨vl0, -, h⟩ := Res.bind_ok h
  obtain ⟨vl1, -, h⟩ := Res.bind_ok h
  split at h
  · split at h
    · obtain ⟨⟨⟨st1, vls1, ni⟩, k⟩, h1, h⟩ := Res.bind_ok h
      obtain ⟨⟨⟨st2, vls2, ni'⟩, k'⟩, h2, h⟩ := Res.bind_ok h
      cases h
      exact (addVertexVLC_nodes h1).trans (addVertexVLC_nodes h2)
    · obtain ⟨⟨⟨st1, vls1, ni⟩, k⟩, h1, h⟩ := Res.bind_ok h
      obtain ⟨⟨⟨st2, vls2, ni'⟩, k'⟩, h2, h⟩ := Res.bind_ok h
      cases h
      exact (addVertexVLC_nodes h1).trans (addVertexVLC_nodes h2)
  · obtain ⟨⟨⟨st1, vls1, ni⟩, k⟩, h1, h⟩ := Res.bind_ok h
    cases h
    exact addVertexVLC_nodes h1
  · obtain ⟨⟨⟨st1, vls1, ni⟩, k⟩, h1, h⟩ := Res.bind_ok h
    cases h
    exact addVertexVLC_nodes h1
  · cases h; exact Nodes.refl _

theorem addNthSegmentC_nodes {cfg : Cfg} {fuel : Nat} {p : PolyList I V} {xy : V → Coords C} {st : St I C}
    {vls : List (VLoc I C)} {si : Nat} {r : (St I C × List (VLoc I C) × Nat) × Nat}
    (h : addNthSegmentC cfg fuel p xy st vls si = .ok r) : ∃ k ≤ r.2, Nodes st r.1.1 k := by
  obtain ⟨⟨⟨st1, vls1, a, b, added⟩, k⟩, h1, h⟩ := Res.bind_ok h
  obtain ⟨n0, -, h⟩ := Res.bind_ok h
  obtain ⟨n1, -, h⟩ := Res.bind_ok h
  obtain ⟨⟨st2, k'⟩, h2, h⟩ := Res.bind_ok h
  cases h
  refine ⟨0 + k', by simp, (addEndsC_nodes h1).trans ?_⟩
  split at h2
  · exact addSegmentC_nodes h2
  · exact addSegmentC_nodes h2

theorem polyStepC_nodes {cfg : Cfg} {fuel : Nat} {p : PolyList I V} {xy : V → Coords C} {l l' : PolyLoop I C × Nat} {si : Nat}
    (h : polyStepC cfg fuel p xy l si = .ok l') : ∃ k, Nodes l.1.st l'.1.st k ∧ l.2 + 1 + k ≤ l'.2 := by
  obtain ⟨l, n⟩ := l
  obtain ⟨⟨⟨st, vls, added⟩, k⟩, h1, h⟩ := Res.bind_ok h
  obtain ⟨pending, -, h⟩ := Res.bind_ok h
  obtain ⟨j, hj, h1⟩ := addNthSegmentC_nodes h1
  simp only at h hj
  split at h
  · obtain ⟨⟨vls, k'⟩, -, h⟩ := Res.bind_ok h
    cases h
    exact ⟨j, h1, by simp only; omega⟩
  · cases h
    exact ⟨j, h1, by simp only; omega⟩

theorem polyStepsC_nodes {cfg : Cfg} {fuel : Nat} {p : PolyList I V} {xy : V → Coords C} {is : List Nat}
    {l l' : PolyLoop I C × Nat} (h : is.foldlM (polyStepC cfg fuel p xy) l = .ok l') :
    ∃ k, Nodes l.1.st l'.1.st k ∧ l.2 + is.length + k ≤ l'.2 := by
  induction is generalizing l with
  | nil => cases h; exact ⟨0, Nodes.refl _, by simp⟩
  | cons i is ih =>
    rw [List.foldlM_cons] at h
    obtain ⟨l1, h1, h⟩ := Res.bind_ok h
    obtain ⟨k, h2, h3⟩ := polyStepC_nodes h1
    obtain ⟨k', h4, h5⟩ := ih h
    exact ⟨k + k', h2.trans h4, by simp only [List.length_cons]; omega⟩

theorem addPolygonC_nodes {cfg : Cfg} {fuel : Nat} {p : PolyList I V} {xy : V → Coords C} {k : Nat} {st : St I C}
    {vls : List (VLoc I C)} {r : St I C × Nat} (h : addPolygonC cfg fuel p xy k st vls = .ok r) :
    ∃ j, Nodes st r.1 j ∧ j ≤ r.2 := by
  obtain ⟨⟨l, n⟩, h1, h⟩ := Res.bind_ok h
  cases h
  obtain ⟨j, h2, h3⟩ := polyStepsC_nodes h1
  exact ⟨j, h2, by simp only at *; omega⟩

theorem buildStepC_nodes {cfg : Cfg} {fuel : Nat} {p : PolyList I V} {xy : V → Coords C} {l l' : BuildLoop I C × Nat}
    {e : Option (Elem I)} (h : buildStepC cfg fuel p xy l e = .ok l') : ∃ k, Nodes l.1.st l'.1.st k ∧ l.2 + k ≤ l'.2 := by
  obtain ⟨l, n⟩ := l
  unfold buildStepC at h
  simp only at h
  split at h
  · cases h
  · obtain ⟨c, -, h⟩ := Res.bind_ok h
    cases h
    exact ⟨0, Nodes.refl _, Nat.le_refl _⟩
  · split at h
    · split at h
      · cases h
      · obtain ⟨⟨st, k⟩, h1, h⟩ := Res.bind_ok h
        cases h
        have h1 : addPolygonC cfg fuel p xy l.k l.st l.vLookup = .ok (st, k) := by
          rcases h2 : addPolygonC cfg fuel p xy l.k l.st l.vLookup with e | r
          · rw [h2] at h1; cases e <;> cases h1
          · rw [h2] at h1; cases h1; rfl
        obtain ⟨j, h2, h3⟩ := addPolygonC_nodes h1
        exact ⟨j, h2, by simp only at *; omega⟩
    · cases h; exact ⟨0, Nodes.refl _, Nat.le_refl _⟩

theorem buildStepsC_nodes {cfg : Cfg} {fuel : Nat} {p : PolyList I V} {xy : V → Coords C} {es : List (Option (Elem I))}
    {l l' : BuildLoop I C × Nat} (h : es.foldlM (buildStepC cfg fuel p xy) l = .ok l') :
    ∃ k, Nodes l.1.st l'.1.st k ∧ l.2 + k ≤ l'.2 := by
  induction es generalizing l with
  | nil => cases h; exact ⟨0, Nodes.refl _, Nat.le_refl _⟩
  | cons i is ih =>
    rw [List.foldlM_cons] at h
    obtain ⟨l1, h1, h⟩ := Res.bind_ok h
    obtain ⟨k, h2, h3⟩ := buildStepC_nodes h1
    obtain ⟨k', h4, h5⟩ := ih h
    exact ⟨k + k', h2.trans h4, by omega⟩

end St

/-- Query nodes against vertices, segments and cost, for every input. -/
theorem trapezoidizeC_nodes [Scalar C] [DecidableEq I] {cfg : Cfg} {fuel : Nat} {p : PolyList I V} {xy : V → Coords C}
    {st : St I C} {c : Nat} (h : trapezoidizeC cfg fuel p xy = .ok (st, c)) :
    1 + 2 * st.ns.length + 2 * st.ss.length ≤ st.qs.length ∧ st.qs.length ≤ 1 + 2 * st.ns.length + 2 * st.ss.length + c := by
  obtain ⟨⟨l, n⟩, h1, h⟩ := Res.bind_ok h
  cases h
  obtain ⟨k, h2, h3⟩ := St.buildStepsC_nodes h1
  unfold St.Nodes at h2
  simp only [St.init, List.length_cons, List.length_nil] at *
  omega

end Tri
