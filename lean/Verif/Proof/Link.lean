import Verif.Proof.OpVertex
import Verif.Proof.OpExtend
import Verif.Proof.NexusLemmas
import Verif.Proof.ExactLemmas

/-!
# How a state of the code is related to the abstract state
-/

set_option linter.unusedSectionVars false

namespace Tri

variable {I V K : Type} [Field K] [LinearOrder K] [IsStrictOrderedRing K]

attribute [local instance] exact

/-- Nexus `nx`, at position `n`, with rows `u` above and `d` below.  Segments in `op` are under
construction. -/
structure NexLink (A : Abs K) (u d : List Nat) (op : Nat → Prop) (n : Nat) (nx : Nexus I K) : Prop where
  c : nx.c = A.c n
  up : nx.iterTrapezoids .asc = u
  down : nx.iterTrapezoids .desc = d
  divs : ∀ d ∈ nx.dividers.toList, d.si < A.S ∧ (A.T d.tiRight).left = some d.si
  asc : ∀ d ∈ nx.dividers.toList, d.dir = .asc → A.mn d.si = n ∧ ¬ op d.si
  desc : ∀ d ∈ nx.dividers.toList, d.dir = .desc → A.mx d.si = n
  dn : (nx.dividers.toList.map (·.si)).Nodup
  ord : ∀ d0 d1, nx.dividers = .two d0 d1 → ¬ (d0.dir = .desc ∧ d1.dir = .asc)
  hasD : ∀ i < A.S, A.mx i = n → ∃ d ∈ nx.dividers.toList, d.si = i ∧ d.dir = .desc
  hasA : ∀ i < A.S, A.mn i = n → ¬ op i → ∃ d ∈ nx.dividers.toList, d.si = i ∧ d.dir = .asc

/-- State `st` is described by `A`; `iu` are the rows above the vertices as the code knows them, segments
in `op` are under construction, vertices in `ex` may have no segment. -/
structure Link (st : St I K) (A : Abs K) (iu : Nat → List Nat) (op ex : Nat → Prop) : Prop where
  nsL : st.ns.length = A.N
  ssL : st.ss.length = A.S
  tsL : st.ts.length = A.M
  nex : ∀ (n : Nat) (nx : Nexus I K), st.ns[n]? = some nx → NexLink A (iu n) (A.downs n) op n nx
  bare : ∀ (n : Nat) (nx : Nexus I K), st.ns[n]? = some nx → nx.dividers = .zero → ex n
  seg : ∀ (i : Nat) (s : Segment K), st.ss[i]? = some s → (s.cMin, s.cMax) = A.sg i ∧ s.niMax = A.mx i ∧ s.niMin < A.N ∧
    A.c s.niMin = (A.sg i).1
  tr : ∀ (i : Nat) (t : Trapezoid), st.ts[i]? = some t → A.T i = ⟨t.left, t.right, t.down, t.up⟩
  vi : ∀ (n m : Nat) (nx my : Nexus I K), st.ns[n]? = some nx → st.ns[m]? = some my → nx.vi = my.vi → n = m
  real : Real A op

/-- The search for `v` from node `q` ends at node `q'`, the sink of trapezoid `t`. -/
inductive Finds (qs : List (QueryNode K)) (v : Coords K) : Nat → Nat → Nat → Prop
  | sink {q t : Nat} (h : qs[q]? = some (.sink t)) : Finds qs v q q t
  | branch {q l r q' t : Nat} {b : Branch K} (h : qs[q]? = some (.branch l r b))
      (h' : Finds qs v (if b.useLeft v then l else r) q' t) : Finds qs v q q' t

/-- All searches from node `q` end. -/
inductive Tame (qs : List (QueryNode K)) : Nat → Prop
  | sink {q t : Nat} (h : qs[q]? = some (.sink t)) : Tame qs q
  | branch {q l r : Nat} {b : Branch K} (h : qs[q]? = some (.branch l r b)) (hl : Tame qs l)
      (hr : Tame qs r) : Tame qs q

/-- Going up from node `q` ends at trapezoid `t`. -/
inductive Top (qs : List (QueryNode K)) : Nat → Nat → Prop
  | sink {q t : Nat} (h : qs[q]? = some (.sink t)) : Top qs q t
  | branch {q l r t : Nat} {c : Coords K} (h : qs[q]? = some (.branch l r (.Y c))) (h' : Top qs r t) :
      Top qs q t

/-- The query structure of a state. -/
structure Qry (qs : List (QueryNode K)) (ts : List Trapezoid) (A : Abs K) : Prop where
  snk : ∀ (i : Nat) (t : Trapezoid), ts[i]? = some t → qs[t.sink]? = some (.sink i)
  snk' : ∀ (q i : Nat), qs[q]? = some (.sink i) → ∃ t, ts[i]? = some t ∧ t.sink = q
  tame : Tame qs 0
  top : ∃ t, Top qs 0 t ∧ (A.T t).up = none

/-- The search for `v` from node `q` finds the trapezoid that contains `v`. -/
def Found (P : Plane K) (A : Abs K) (qs : List (QueryNode K)) (v : Coords K) (q : Nat) : Prop :=
  ∃ q' t, Finds qs v q q' t ∧ Region P A t v

theorem Finds.end_sink {qs : List (QueryNode K)} {v : Coords K} {q q' t : Nat} (h : Finds qs v q q' t) :
    qs[q']? = some (.sink t) := by
  induction h with
  | sink h => exact h
  | branch _ _ ih => exact ih

/-- A search finds its result if the fuel is large enough. -/
theorem Finds.find {qs : List (QueryNode K)} {v : Coords K} {q q' t : Nat} (h : Finds qs v q q' t) :
    ∃ N, ∀ fuel ≥ N, St.find qs v fuel q = .ok (q', t) := by
  induction h with
  | @sink q t h =>
    refine ⟨1, fun fuel hf => ?_⟩
    obtain ⟨k, rfl⟩ : ∃ k, fuel = k + 1 := ⟨fuel - 1, by omega⟩
    simp [St.find, getU, h, bind, Except.bind]
  | @branch q l r q' t b h _ ih =>
    obtain ⟨N, ih⟩ := ih
    refine ⟨N + 1, fun fuel hf => ?_⟩
    obtain ⟨k, rfl⟩ : ∃ k, fuel = k + 1 := ⟨fuel - 1, by omega⟩
    have := ih k (by omega)
    simp only [St.find, getU, h, bind, Except.bind]
    exact this

/-- Replacing a sink by something else. -/
theorem Finds.replace {qs qs' : List (QueryNode K)} {v : Coords K} {q q' t q0 q1 t1 : Nat}
    (h : Finds qs v q q' t) (hsame : ∀ (p : Nat) (n : QueryNode K), p ≠ q0 → qs[p]? = some n → qs'[p]? = some n)
    (h0 : ∃ t0, qs[q0]? = some (.sink t0))
    (hnew : q' = q0 → Finds qs' v q0 q1 t1) (hold : q' ≠ q0 → q1 = q' ∧ t1 = t) : Finds qs' v q q1 t1 := by
  induction h with
  | @sink q t h =>
    by_cases hq : q = q0
    · subst hq; exact hnew rfl
    · obtain ⟨rfl, rfl⟩ := hold hq
      exact .sink (hsame _ _ hq h)
  | @branch q l r q' t b h _ ih =>
    have hq : q ≠ q0 := by
      rintro rfl
      obtain ⟨t0, h0⟩ := h0
      rw [h] at h0; cases h0
    exact .branch (hsame _ _ hq h) (ih hnew hold)

theorem Tame.replace {qs qs' : List (QueryNode K)} {q q0 : Nat}
    (h : Tame qs q) (hsame : ∀ (p : Nat) (n : QueryNode K), p ≠ q0 → qs[p]? = some n → qs'[p]? = some n)
    (hnew : Tame qs' q0) : Tame qs' q := by
  induction h with
  | @sink q t h =>
    by_cases hq : q = q0
    · subst hq; exact hnew
    · exact .sink (hsame _ _ hq h)
  | @branch q l r b h _ _ ih1 ih2 =>
    by_cases hq : q = q0
    · subst hq; exact hnew
    · exact .branch (hsame _ _ hq h) ih1 ih2

theorem Top.replace {qs qs' : List (QueryNode K)} {q t q0 t0 t1 : Nat}
    (h : Top qs q t) (hsame : ∀ (p : Nat) (n : QueryNode K), p ≠ q0 → qs[p]? = some n → qs'[p]? = some n)
    (h0 : qs[q0]? = some (.sink t0))
    (hnew : t = t0 → Top qs' q0 t1) (hold : t ≠ t0 → t1 = t) (huniq : qs[q0]? = some (.sink t0) → ∀ q,
      qs[q]? = some (.sink t0) → q = q0) : Top qs' q t1 := by
  induction h with
  | @sink q t h =>
    by_cases ht : t = t0
    · subst ht
      rw [huniq h0 q h]
      exact hnew rfl
    · rw [hold ht]
      refine .sink (hsame _ _ ?_ h)
      rintro rfl
      rw [h] at h0; cases h0; exact ht rfl
  | @branch q l r t c h _ ih =>
    refine .branch (hsame _ _ ?_ h) (ih hnew hold)
    rintro rfl
    rw [h] at h0; cases h0

theorem Qry.uniq {qs : List (QueryNode K)} {ts : List Trapezoid} {A : Abs K} (h : Qry qs ts A) {q q' i : Nat}
    (h1 : qs[q]? = some (.sink i)) (h2 : qs[q']? = some (.sink i)) : q = q' := by
  obtain ⟨t, ht, e⟩ := h.snk' q i h1
  obtain ⟨t', ht', e'⟩ := h.snk' q' i h2
  rw [ht] at ht'; cases ht'
  rw [← e, e']

section basics
variable {st : St I K} {A : Abs K} {iu : Nat → List Nat} {op ex : Nat → Prop}

theorem Link.ns_get (h : Link st A iu op ex) {n : Nat} (hn : n < A.N) : ∃ nx, st.ns[n]? = some nx :=
  ⟨_, List.getElem?_eq_getElem (by rw [h.nsL]; exact hn)⟩

theorem Link.ts_get (h : Link st A iu op ex) {n : Nat} (hn : n < A.M) : ∃ nx, st.ts[n]? = some nx :=
  ⟨_, List.getElem?_eq_getElem (by rw [h.tsL]; exact hn)⟩

theorem Link.ss_get (h : Link st A iu op ex) {n : Nat} (hn : n < A.S) : ∃ nx, st.ss[n]? = some nx :=
  ⟨_, List.getElem?_eq_getElem (by rw [h.ssL]; exact hn)⟩

theorem Link.lt_N (h : Link st A iu op ex) {n : Nat} {nx : Nexus I K} (hn : st.ns[n]? = some nx) : n < A.N := by
  rw [← h.nsL]; exact lt_of_get hn

theorem Link.lt_M (h : Link st A iu op ex) {n : Nat} {nx : Trapezoid} (hn : st.ts[n]? = some nx) : n < A.M := by
  rw [← h.tsL]; exact lt_of_get hn

theorem Link.lt_S (h : Link st A iu op ex) {n : Nat} {nx : Segment K} (hn : st.ss[n]? = some nx) : n < A.S := by
  rw [← h.ssL]; exact lt_of_get hn

end basics

theorem map_rn_of_not_mem {x y : Nat} {l : List Nat} (h : x ∉ l) : l.map (Nexus.rn x y) = l := by
  induction l with
  | nil => rfl
  | cons a l ih =>
    simp only [List.mem_cons, not_or] at h
    rw [List.map_cons, ih h.2, Nexus.rn, if_neg (Ne.symm h.1)]

/-- The rows of a vertex have no trapezoid in common. -/
theorem Inv.rows_nodup {P : Plane K} {A : Abs K} (hI : Inv P A) {n : Nat} (hn : n < A.N) :
    (A.ups n ++ A.downs n).Nodup := by
  obtain ⟨L, R, hx⟩ := hI.nex n hn
  rw [List.nodup_append]
  refine ⟨hx.nodupU, hx.nodupD, ?_⟩
  rintro a ha b hb rfl
  have h1 := hI.rowU n hn a ha
  have h2 := hI.rowD n hn a hb
  exact lt_irrefl _ (hI.ht a h1.1 n n h2.2 h1.2)

end Tri
