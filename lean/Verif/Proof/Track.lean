import Verif.Proof.Link

/-!
# How the search for a point changes

`FindsN` counts the query nodes that a search visits.  `Trk` says how much longer a search gets when the query
structure grows, and that a search that gets longer ends in a trapezoid next to what has been added.
-/

set_option linter.unusedSectionVars false

namespace Tri

variable {K : Type} [Field K] [LinearOrder K] [IsStrictOrderedRing K]

attribute [local instance] exact

/-- The search for `v` from node `q` ends at node `q'`, the sink of trapezoid `t`, and visits `k` nodes. -/
inductive FindsN (qs : List (QueryNode K)) (v : Coords K) : Nat → Nat → Nat → Nat → Prop
  | sink {q t : Nat} (h : qs[q]? = some (.sink t)) : FindsN qs v q q t 1
  | branch {q l r q' t k : Nat} {b : Branch K} (h : qs[q]? = some (.branch l r b))
      (h' : FindsN qs v (if b.useLeft v then l else r) q' t k) : FindsN qs v q q' t (k + 1)

theorem FindsN.finds {qs : List (QueryNode K)} {v : Coords K} {q q' t k : Nat} (h : FindsN qs v q q' t k) :
    Finds qs v q q' t := by
  induction h with
  | sink h => exact .sink h
  | branch h _ ih => exact .branch h ih

theorem Finds.count {qs : List (QueryNode K)} {v : Coords K} {q q' t : Nat} (h : Finds qs v q q' t) :
    ∃ k, FindsN qs v q q' t k := by
  induction h with
  | sink h => exact ⟨1, .sink h⟩
  | branch h _ ih => obtain ⟨k, ih⟩ := ih; exact ⟨k + 1, .branch h ih⟩

/-- A search has one result. -/
theorem FindsN.unique {qs : List (QueryNode K)} {v : Coords K} {q q' t k q'' t' k' : Nat} (h : FindsN qs v q q' t k)
    (h' : FindsN qs v q q'' t' k') : q' = q'' ∧ t = t' ∧ k = k' := by
  induction h generalizing q'' t' k' with
  | sink h =>
    cases h' with
    | sink h2 => rw [h] at h2; cases h2; exact ⟨rfl, rfl, rfl⟩
    | branch h2 _ => rw [h] at h2; cases h2
  | branch h _ ih =>
    cases h' with
    | sink h2 => rw [h] at h2; cases h2
    | branch h2 h3 =>
      rw [h] at h2; cases h2
      obtain ⟨e1, e2, e3⟩ := ih h3
      exact ⟨e1, e2, by rw [e3]⟩

/-- Replacing a sink by something else. -/
theorem FindsN.replace {qs qs' : List (QueryNode K)} {v : Coords K} {q q' t k q0 q1 t1 b : Nat}
    (h : FindsN qs v q q' t k) (hsame : ∀ (p : Nat) (n : QueryNode K), p ≠ q0 → qs[p]? = some n → qs'[p]? = some n)
    (h0 : ∃ t0, qs[q0]? = some (.sink t0))
    (hnew : q' = q0 → FindsN qs' v q0 q1 t1 (b + 1)) (hold : q' ≠ q0 → q1 = q' ∧ t1 = t ∧ b = 0) :
    FindsN qs' v q q1 t1 (k + b) := by
  induction h with
  | @sink q t h =>
    by_cases hq : q = q0
    · subst hq; rw [Nat.add_comm]; exact hnew rfl
    · obtain ⟨rfl, rfl, rfl⟩ := hold hq
      exact .sink (hsame _ _ hq h)
  | @branch q l r q' t k b' h _ ih =>
    have hq : q ≠ q0 := by
      rintro rfl
      obtain ⟨t0, h0⟩ := h0
      rw [h] at h0; cases h0
    rw [Nat.add_right_comm]
    exact .branch (hsame _ _ hq h) (ih hnew hold)

/-- The trapezoid has a side. -/
def Trz.Lat (z : Trz) : Prop := z.left ≠ none ∨ z.right ≠ none

/-- The search for `w` from node `q` gets longer by at most `b` nodes.  Its result is the trapezoid it was before, or
has the property `mark`; in this case, the search did get longer, or the trapezoid has a side. -/
def Trk (P : Plane K) (A : Abs K) (qs : List (QueryNode K)) (A' : Abs K) (qs' : List (QueryNode K)) (w : Coords K)
    (q b : Nat) (mark : Trz → Prop) : Prop :=
  ∀ q' t k, FindsN qs w q q' t k → Region P A t w → ∃ q'' t' k', FindsN qs' w q q'' t' k' ∧ Region P A' t' w ∧
    k ≤ k' ∧ k' ≤ k + b ∧ ((t' = t ∧ k' = k ∧ A'.T t' = A.T t) ∨
      (mark (A'.T t') ∧ (k < k' ∨ (A'.T t').Lat)))

variable {P : Plane K} {A A' A'' : Abs K} {qs qs' qs'' : List (QueryNode K)} {w : Coords K} {q b b' : Nat}
  {mark mark' mark'' : Trz → Prop}

theorem Trk.found (h : Trk P A qs A' qs' w q b mark) (hf : Found P A qs w q) : Found P A' qs' w q := by
  obtain ⟨q', t, hf, hr⟩ := hf
  obtain ⟨k, hk⟩ := hf.count
  obtain ⟨q'', t', k', h1, h2, -⟩ := h q' t k hk hr
  exact ⟨q'', t', h1.finds, h2⟩

theorem Trk.refl (P : Plane K) (A : Abs K) (qs : List (QueryNode K)) (w : Coords K) (q b : Nat) (mark : Trz → Prop) :
    Trk P A qs A qs w q b mark :=
  fun q' t k h hr => ⟨q', t, k, h, hr, Nat.le_refl _, Nat.le_add_right _ _, .inl ⟨rfl, rfl, rfl⟩⟩

theorem Trk.trans (h : Trk P A qs A' qs' w q b mark) (h' : Trk P A' qs' A'' qs'' w q b' mark')
    (hm : ∀ t, mark t → mark'' t) (hm' : ∀ t, mark' t → mark'' t) : Trk P A qs A'' qs'' w q (b + b') mark'' := by
  intro q' t k hk hr
  obtain ⟨q1, t1, k1, h1, r1, l1, l1', m1⟩ := h q' t k hk hr
  obtain ⟨q2, t2, k2, h2, r2, l2, l2', m2⟩ := h' q1 t1 k1 h1 r1
  refine ⟨q2, t2, k2, h2, r2, by omega, by omega, ?_⟩
  rcases m2 with ⟨rfl, e2, e3⟩ | ⟨m2, s2⟩
  · rcases m1 with ⟨rfl, e4, e5⟩ | ⟨m1, s1⟩
    · exact .inl ⟨rfl, by omega, e3.trans e5⟩
    · exact .inr (by rw [e3]; exact ⟨hm _ m1, s1.imp (by omega) id⟩)
  · exact .inr ⟨hm' _ m2, s2.imp (by omega) id⟩

theorem Trk.mono (h : Trk P A qs A' qs' w q b mark) (hb : b ≤ b') (hm : ∀ t, mark t → mark' t) :
    Trk P A qs A' qs' w q b' mark' := by
  intro q' t k hk hr
  obtain ⟨q1, t1, k1, h1, r1, l1, l1', m1⟩ := h q' t k hk hr
  exact ⟨q1, t1, k1, h1, r1, l1, by omega, m1.imp id (.imp (hm _) id)⟩

/-- A sink has become a branch. -/
theorem Trk.split {ts : List Trapezoid} {q0 ti l r xl xr b : Nat} {br : Branch K} (hQ : Qry qs ts A)
    (hq : qs[q0]? = some (.sink ti))
    (hsame : ∀ (p : Nat) (n : QueryNode K), p ≠ q0 → qs[p]? = some n → qs'[p]? = some n)
    (h0 : qs'[q0]? = some (.branch l r br)) (hl : qs'[l]? = some (.sink xl)) (hr : qs'[r]? = some (.sink xr))
    (hin : Region P A ti w → if br.useLeft w then Region P A' xl w else Region P A' xr w)
    (hb : Region P A ti w → b = 1) (hml : mark (A'.T xl)) (hmr : mark (A'.T xr))
    (hout : ∀ i < ts.length, i ≠ ti → Region P A i w → Region P A' i w ∧ (A'.T i = A.T i ∨ (mark (A'.T i) ∧ (A'.T i).Lat))) :
    Trk P A qs A' qs' w q b mark := by
  intro q' t' k hf hreg
  have hs := hf.finds.end_sink
  by_cases hqq : q' = q0
  · subst hqq
    rw [hq] at hs; cases hs
    have hr1 := hin hreg
    obtain rfl := hb hreg
    by_cases hbr : br.useLeft w = true
    · rw [if_pos hbr] at hr1
      refine ⟨l, xl, k + 1, hf.replace (q0 := q') hsame ⟨ti, hq⟩ (fun _ => .branch h0 ?_) (fun h => absurd rfl h), hr1,
        by omega, by omega, .inr ⟨hml, .inl (by omega)⟩⟩
      rw [if_pos hbr]; exact .sink hl
    · rw [if_neg hbr] at hr1
      refine ⟨r, xr, k + 1, hf.replace (q0 := q') hsame ⟨ti, hq⟩ (fun _ => .branch h0 ?_) (fun h => absurd rfl h), hr1,
        by omega, by omega, .inr ⟨hmr, .inl (by omega)⟩⟩
      rw [if_neg hbr]; exact .sink hr
  · have ht' : t' ≠ ti := by
      rintro rfl
      exact hqq (hQ.uniq hs hq)
    obtain ⟨x, hx, -⟩ := hQ.snk' q' t' hs
    obtain ⟨g1, g2⟩ := hout t' (lt_of_get hx) ht' hreg
    exact ⟨q', t', k, hf.replace (b := 0) (q0 := q0) hsame ⟨ti, hq⟩
      (fun h => absurd h hqq) (fun _ => ⟨rfl, rfl, rfl⟩), g1, Nat.le_refl _, Nat.le_add_right _ _,
      g2.imp (fun h => ⟨rfl, rfl, h⟩) (.imp id .inr)⟩

end Tri
