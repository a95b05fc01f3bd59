import Verif.Proof.Walk
import Verif.Proof.Locs
import Verif.Proof.CellCanon
import Verif.Proof.Nodes
import Mathlib.Data.List.Perm.Subperm
import Mathlib.Algebra.BigOperators.Group.List.Basic

/-!
# `add_nth_segment` and `add_polygon` on a state described by the invariant
-/

set_option linter.unusedSectionVars false

namespace Tri

variable {I V K : Type} [Field K] [LinearOrder K] [IsStrictOrderedRing K] [DecidableEq I]

attribute [local instance] exact

variable {P : Plane K} {p : PolyList I V} {xy : V → Coords K}

/-- The edge between two points, lower end first. -/
def edgeC (u v : Coords K) : Coords K × Coords K := if u.ltB v then (u, v) else (v, u)

/-- `v` is not a vertex yet. -/
def Abs.Fresh (A : Abs K) (v : Coords K) : Prop := ∀ n < A.N, A.c n ≠ v

/-- The invariant between operations. -/
structure Glob (P : Plane K) (p : PolyList I V) (xy : V → Coords K) (A : Abs K) (st : St I K)
    (ex : Nat → Prop) : Prop where
  inv : Inv P A
  link : Link st A A.ups (fun _ => False) ex
  qry : Qry st.qs st.ts A
  root : ∀ w, P.U w → A.Fresh w → Found P A st.qs w 0
  src : ∀ k ∈ st.keys, p.coords (ε := IErr) xy k.1 = .ok k.2

/-- The trapezoid is next to a segment or vertex that was not there in `A`. -/
def Abs.NewBy (A : Abs K) (z : Trz) : Prop :=
  (∃ l, A.S ≤ l ∧ (z.left = some l ∨ z.right = some l)) ∨ ∃ u, A.N ≤ u ∧ (z.up = some u ∨ z.down = some u)

/-- The state grows. -/
structure Gro (P : Plane K) (A : Abs K) (st : St I K) (A' : Abs K) (st' : St I K) : Prop where
  N : A.N ≤ A'.N
  c : ∀ n < A.N, A'.c n = A.c n
  S : A.S ≤ A'.S
  sg : ∀ i < A.S, A'.sg i = A.sg i
  trk : ∀ w q, P.U w → A'.Fresh w → Trk P A st.qs A' st'.qs w q ((A'.N - A.N) + (A'.S - A.S)) A.NewBy
  keys : st.keys <+: st'.keys

theorem Gro.found {A A' : Abs K} {st st' : St I K} (h : Gro P A st A' st') (w : Coords K) (q : Nat) (hw : P.U w)
    (hf : A'.Fresh w) (hF : Found P A st.qs w q) : Found P A' st'.qs w q := (h.trk w q hw hf).found hF

theorem Abs.Fresh.of_gro {A A' : Abs K} {st st' : St I K} (h : Gro P A st A' st') {w : Coords K} (hw : A'.Fresh w) :
    A.Fresh w := fun n hn he => hw n (Nat.lt_of_lt_of_le hn h.N) (by rw [h.c n hn, he])

theorem Gro.refl (A : Abs K) (st : St I K) : Gro P A st A st :=
  ⟨le_refl _, fun _ _ => rfl, le_refl _, fun _ _ => rfl, fun _ _ _ _ => Trk.refl _ _ _ _ _ _ _, List.prefix_refl _⟩

theorem Gro.trans {A A' A'' : Abs K} {st st' st'' : St I K} (h : Gro P A st A' st') (h' : Gro P A' st' A'' st'') :
    Gro P A st A'' st'' where
  N := h.N.trans h'.N
  c n hn := (h'.c n (hn.trans_le h.N)).trans (h.c n hn)
  S := h.S.trans h'.S
  sg n hn := (h'.sg n (hn.trans_le h.S)).trans (h.sg n hn)
  trk w q hw hf := by
    refine ((h.trk w q hw (hf.of_gro h')).trans (h'.trk w q hw hf) (mark'' := A.NewBy) (fun _ h => h) ?_).mono ?_
      (fun _ h => h)
    · rintro z (⟨l, h1, h2⟩ | ⟨l, h1, h2⟩)
      · exact .inl ⟨l, h.S.trans h1, h2⟩
      · exact .inr ⟨l, h.N.trans h1, h2⟩
    · have := h.S; have := h'.S; have := h.N; have := h'.N
      omega
  keys := h.keys.trans h'.keys

theorem Glob.key {A : Abs K} {st : St I K} {ex : Nat → Prop} (h : Glob P p xy A st ex) {n : Nat} {k : I × Coords K}
    (hk : st.keys[n]? = some k) : n < A.N ∧ A.c n = k.2 := by
  simp only [St.keys, List.getElem?_map, Option.map_eq_some_iff] at hk
  obtain ⟨nx, h1, rfl⟩ := hk
  exact ⟨h.link.lt_N h1, by rw [← (h.link.nex n nx h1).c]; rfl⟩

theorem debugCheck_run' {A : Abs K} {st : St I K} {op ex : Nat → Prop} (hI : Inv P A)
    (hL : Link st A A.ups op ex) (hQ : Qry st.qs st.ts A) :
    ∃ N, ∀ cfg, ∀ fuel ≥ N, st.debugCheck cfg fuel = .ok () := by
  obtain ⟨N, hN⟩ := checkConsistency_run hI hL hQ
  refine ⟨N, fun cfg fuel hf => ?_⟩
  unfold St.debugCheck
  split
  · exact hN fuel hf
  · rfl

/-- The search for `w` from node `q` visits `k` nodes and ends at the trapezoid that contains `w`. -/
def Locs (P : Plane K) (A : Abs K) (qs : List (QueryNode K)) (w : Coords K) (q k : Nat) : Prop :=
  ∃ q' t, FindsN qs w q q' t k ∧ Region P A t w

theorem Locs.unique {A : Abs K} {qs : List (QueryNode K)} {w : Coords K} {q k k' : Nat} (h : Locs P A qs w q k)
    (h' : Locs P A qs w q k') : k = k' := by
  obtain ⟨_, _, h, -⟩ := h
  obtain ⟨_, _, h', -⟩ := h'
  exact (h.unique h').2.2

theorem FindsN.findC {qs : List (QueryNode K)} {v : Coords K} {q q' t k : Nat} (h : FindsN qs v q q' t k) :
    ∀ fuel ≥ k, St.findC qs v fuel q = .ok ((q', t), k) := by
  induction h with
  | sink h =>
    intro fuel hf
    obtain ⟨m, rfl⟩ : ∃ m, fuel = m + 1 := ⟨fuel - 1, by omega⟩
    simp only [St.findC, getU, h, bind, Except.bind]
  | branch h _ ih =>
    intro fuel hf
    obtain ⟨m, rfl⟩ : ∃ m, fuel = m + 1 := ⟨fuel - 1, by omega⟩
    simp only [St.findC, getU, h, bind, Except.bind]
    rw [ih m (by omega)]

/-- `add_vertex` inserts a new vertex. -/
theorem addVertex_run {A : Abs K} {st : St I K} {ex : Nat → Prop} (hG : Glob P p xy A st ex) {vi : I} {v : Coords K}
    {q : Nat} (hU : P.U v) (hsrc : p.coords (ε := IErr) xy vi = .ok v) (hnew : A.Fresh v) (hF : Found P A st.qs v q) :
    ∃ N A' st' k, Locs P A st.qs v q k ∧ (∀ cfg, ∀ fuel ≥ N, st.addVertexC cfg fuel p xy vi q = .ok ((st', A.N), k)) ∧
      Glob P p xy A' st' (fun n => ex n ∨ n = A.N) ∧ Gro P A st A' st' ∧ A'.N = A.N + 1 ∧ A'.c A.N = v ∧
      A'.S = A.S ∧ st'.keys = st.keys ++ [(vi, v)] ∧ st'.ss = st.ss := by
  obtain ⟨q', t, hfind, hreg⟩ := hF
  obtain ⟨N1, hN⟩ := hfind.count
  have hN1 := hN.findC
  obtain ⟨st', hrun, hI', hL', hQ', hF', hk, hss⟩ := addVertexAt_run hG.inv hG.link hG.qry (vi := vi) hU hnew (by
    intro n nx hnx hvi
    have h1 : st.keys[n]? = some nx.key := by simp [St.keys, hnx]
    have h2 := hG.src _ (mem_of_get h1)
    rw [show (nx.key).1 = vi from hvi, hsrc] at h2
    injection h2 with h2
    obtain ⟨h3, h4⟩ := hG.key h1
    exact hnew n h3 (by rw [h4, ← h2])) hfind.end_sink hreg
  obtain ⟨N2, hN2⟩ := debugCheck_run' hI' hL' hQ'
  have hc : ∀ n < A.N, (A.addV v t).c n = A.c n := fun n hn => Function.update_of_ne (Nat.ne_of_lt hn) _ _
  have hcN : (A.addV v t).c A.N = v := Function.update_self _ _ _
  have hne : ∀ w, (A.addV v t).Fresh w → w ≠ v := by
    rintro w hw rfl
    exact hw A.N (Nat.lt_succ_self _) hcN
  have hgro : Gro P A st (A.addV v t) st' :=
    ⟨Nat.le_succ _, hc, le_refl _, fun _ _ => rfl, fun w q hw hf => (hF' w q hw (hne w hf)).mono (by show 1 ≤ (A.N + 1 - A.N) + (A.S - A.S); omega)
      fun z hz => .inr ⟨A.N, le_refl _, hz⟩,
      by rw [hk]; exact List.prefix_append _ _⟩
  refine ⟨max N1 N2, A.addV v t, st', N1, ⟨_, _, hN, hreg⟩, fun cfg fuel hf => ?_, ⟨hI', hL', hQ', ?_, ?_⟩, hgro, rfl, hcN,
    rfl, hk, hss⟩
  · simp only [St.addVertexC, hsrc, bind, Except.bind, hN1 fuel (le_trans (le_max_left _ _) hf), hrun,
      hN2 cfg fuel (le_trans (le_max_right _ _) hf), hG.link.nsL]
  · intro w hw hf
    exact hgro.found w 0 hw hf (hG.root w hw (hf.of_gro hgro))
  · intro k hkm
    rw [hk, List.mem_append, List.mem_singleton] at hkm
    rcases hkm with h | rfl
    · exact hG.src k h
    · exact hsrc

/-- Location `vl` is right for vertex `v`. -/
def Spot (P : Plane K) (A : Abs K) (st : St I K) (v : I × Coords K) : VLoc I K → Prop
  | .pending c vi q => v = (vi, c) ∧ A.Fresh c ∧ Found P A st.qs c q
  | .inserted c ni => v.2 = c ∧ ni < A.N ∧ A.c ni = c

/-- All locations are right. -/
structure Spots (P : Plane K) (A : Abs K) (st : St I K) (vs : List (I × Coords K)) (vls : List (VLoc I K)) : Prop where
  len : vls.length = vs.length
  loc : ∀ (i : Nat) (v : I × Coords K) (vl : VLoc I K), vs[i]? = some v → vls[i]? = some vl → Spot P A st v vl

/-- What is known about a polygon. -/
structure PolyCtx (P : Plane K) (p : PolyList I V) (xy : V → Coords K) (vs : List (I × Coords K)) : Prop where
  len : 3 ≤ vs.length
  nodup : (vs.map (·.2)).Nodup
  U : ∀ v ∈ vs, P.U v.2
  src : ∀ v ∈ vs, p.coords (ε := IErr) xy v.1 = .ok v.2
  E : ∀ (k : Nat) (a b : I × Coords K), vs[k]? = some a → vs[(k + 1) % vs.length]? = some b →
    P.E (edgeC a.2 b.2)

theorem PolyCtx.lt {vs : List (I × Coords K)} (h : PolyCtx P p xy vs) (k : Nat) : (k + 1) % vs.length < vs.length :=
  Nat.mod_lt _ (by have := h.len; omega)

theorem PolyCtx.inj {vs : List (I × Coords K)} (h : PolyCtx P p xy vs) {i j : Nat} {a b : I × Coords K}
    (hi : vs[i]? = some a) (hj : vs[j]? = some b) (hab : a.2 = b.2) : i = j := by
  have h1 : (vs.map (·.2))[i]? = some a.2 := by simp [hi]
  have h2 : (vs.map (·.2))[j]? = some b.2 := by simp [hj]
  rw [hab] at h1
  exact (List.getElem?_inj (lt_of_get h1) h.nodup).1 (h1.trans h2.symm)

/-- Different sides of a polygon are different edges. -/
theorem PolyCtx.edge_inj {vs : List (I × Coords K)} (h : PolyCtx P p xy vs) {i j : Nat} {a b c d : I × Coords K}
    (ha : vs[i]? = some a) (hb : vs[(i + 1) % vs.length]? = some b)
    (hc : vs[j]? = some c) (hd : vs[(j + 1) % vs.length]? = some d) (he : edgeC a.2 b.2 = edgeC c.2 d.2) : i = j := by
  have hcase : (a.2 = c.2 ∧ b.2 = d.2) ∨ (a.2 = d.2 ∧ b.2 = c.2) := by
    unfold edgeC at he
    split at he <;> split at he <;> simp only [Prod.mk.injEq] at he
    · exact .inl he
    · exact .inr he
    · exact .inr ⟨he.2, he.1⟩
    · exact .inl ⟨he.2, he.1⟩
  rcases hcase with ⟨h1, -⟩ | ⟨h1, h2⟩
  · exact h.inj ha hc h1
  · exfalso
    have e1 := h.inj ha hd h1
    have e2 := h.inj hb hc h2
    have hi := lt_of_get ha
    have hj := lt_of_get hc
    have hl := h.len
    rw [← e2] at e1
    by_cases h' : i + 1 = vs.length
    · rw [h', Nat.mod_self, Nat.mod_eq_of_lt (by omega)] at e1; omega
    · rw [Nat.mod_eq_of_lt (show i + 1 < vs.length by omega)] at e1
      by_cases h'' : i + 1 + 1 = vs.length
      · rw [h'', Nat.mod_self] at e1; omega
      · rw [Nat.mod_eq_of_lt (by omega)] at e1; omega

theorem Spots.grow {A A' : Abs K} {st st' : St I K} {vs : List (I × Coords K)} (hctx : PolyCtx P p xy vs)
    {vls vls' : List (VLoc I K)} (h : Spots P A st vs vls) (hg : Gro P A st A' st') (hlen : vls'.length = vls.length)
    (hcase : ∀ (i : Nat) (v : I × Coords K) (vl : VLoc I K), vs[i]? = some v → vls'[i]? = some vl →
      (vls[i]? = some vl ∧ (vl.pend ≠ none → A'.Fresh v.2)) ∨ Spot P A' st' v vl) : Spots P A' st' vs vls' := by
  refine ⟨hlen.trans h.len, fun i v vl hv hvl => ?_⟩
  rcases hcase i v vl hv hvl with ⟨h1, h2⟩ | h1
  · have h3 := h.loc i v vl hv h1
    cases vl with
    | pending c vi q =>
      obtain ⟨rfl, -, h5⟩ := h3
      have hf := h2 (by simp [VLoc.pend])
      exact ⟨rfl, hf, hg.found c q (hctx.U _ (mem_of_get hv)) hf h5⟩
    | inserted c ni =>
      obtain ⟨e, h4, h5⟩ := h3
      exact ⟨e, h4.trans_le hg.N, (hg.c ni h4).trans h5⟩
  · exact h1

/-- `add_vertex` of `add_nth_segment`. -/
theorem addVertexVLC_run {A : Abs K} {st : St I K} {ex : Nat → Prop} (hG : Glob P p xy A st ex)
    {vs : List (I × Coords K)} (hctx : PolyCtx P p xy vs) {vls : List (VLoc I K)} (hs : Spots P A st vs vls) {i : Nat}
    {c : Coords K} {vi : I} {q : Nat} (hi : vls[i]? = some (.pending c vi q)) :
    ∃ N A' st' k, Locs P A st.qs c q k ∧ (∀ cfg, ∀ fuel ≥ N, St.addVertexVLC cfg fuel p xy st vls i vi q =
        .ok ((st', vls.set i (.inserted c A.N), A.N), k)) ∧
      Glob P p xy A' st' (fun n => ex n ∨ n = A.N) ∧ Gro P A st A' st' ∧
      Spots P A' st' vs (vls.set i (.inserted c A.N)) ∧ A'.N = A.N + 1 ∧ A'.c A.N = c ∧ A'.S = A.S ∧
      st'.keys = st.keys ++ [(vi, c)] ∧ (vi, c) ∈ vs := by
  have hilt : i < vs.length := by rw [← hs.len]; exact lt_of_get hi
  obtain ⟨v, hv⟩ : ∃ v, vs[i]? = some v := ⟨_, List.getElem?_eq_getElem hilt⟩
  obtain ⟨rfl, hfr, hF⟩ := hs.loc i v _ hv hi
  have hm := mem_of_get hv
  obtain ⟨N, A', st', k, hk0, hrun, hG', hgro, hN', hc', hS', hk, hss⟩ :=
    addVertex_run hG (hctx.U _ hm) (hctx.src _ hm) hfr hF
  refine ⟨N, A', st', k, hk0, fun cfg fuel hf => ?_, hG', hgro, ?_, hN', hc', hS', hk, hm⟩
  · simp only [St.addVertexVLC, hrun cfg fuel hf, getP, hi, bind, Except.bind, VLoc.coords]
  · refine hs.grow hctx hgro (by simp) fun j w vl hw hvl => ?_
    rw [List.getElem?_set] at hvl
    split at hvl
    · rename_i hij
      subst hij
      split at hvl
      · cases hvl
        rw [hv] at hw; cases hw
        exact .inr ⟨rfl, by omega, hc'⟩
      · cases hvl
    · rename_i hij
      refine .inl ⟨hvl, fun hp n hn hcn => ?_⟩
      by_cases hnN : n < A.N
      · rw [hgro.c n hnN] at hcn
        have := hs.loc j w vl hw hvl
        cases vl with
        | pending c' vi' q' =>
          obtain ⟨rfl, h2, -⟩ := this
          exact h2 n hnN hcn
        | inserted c' ni' => exact hp rfl
      · have : n = A.N := by omega
        subst this
        rw [hc'] at hcn
        exact hij (hctx.inj hv hw hcn)

/-- `add_vertex` of `add_nth_segment`. -/
theorem addVertexVL_run {A : Abs K} {st : St I K} {ex : Nat → Prop} (hG : Glob P p xy A st ex)
    {vs : List (I × Coords K)} (hctx : PolyCtx P p xy vs) {vls : List (VLoc I K)} (hs : Spots P A st vs vls) {i : Nat}
    {c : Coords K} {vi : I} {q : Nat} (hi : vls[i]? = some (.pending c vi q)) :
    ∃ N A' st', (∀ cfg, ∀ fuel ≥ N, St.addVertexVL cfg fuel p xy st vls i vi q =
        .ok (st', vls.set i (.inserted c A.N), A.N)) ∧
      Glob P p xy A' st' (fun n => ex n ∨ n = A.N) ∧ Gro P A st A' st' ∧
      Spots P A' st' vs (vls.set i (.inserted c A.N)) ∧ A'.N = A.N + 1 ∧ A'.c A.N = c ∧ A'.S = A.S ∧
      st'.keys = st.keys ++ [(vi, c)] ∧ (vi, c) ∈ vs := by
  obtain ⟨N, A', st', k, -, hr, h⟩ := addVertexVLC_run hG hctx hs hi
  refine ⟨N, A', st', fun cfg fuel hf => ?_, h⟩
  rw [← St.addVertexVLC_fst, hr cfg fuel hf]; rfl

/-- The search for each vertex that is not inserted yet visits at most `B` nodes. -/
def Cheap (P : Plane K) (A : Abs K) (st : St I K) (vls : List (VLoc I K)) (B : Coords K → Nat) : Prop :=
  ∀ (i : Nat) (c : Coords K) (vi : I) (q : Nat), vls[i]? = some (.pending c vi q) → ∃ k ≤ B c, Locs P A st.qs c q k

/-- When the state grows, the searches get longer by at most one node per new vertex or segment. -/
theorem Cheap.grow {A A' : Abs K} {st st' : St I K} {vls : List (VLoc I K)} {B : Coords K → Nat}
    (h : Cheap P A st vls B) (hg : Gro P A st A' st') {i : Nat} {c : Coords K} {vi : I} {q : Nat}
    (hi : vls[i]? = some (.pending c vi q)) (hU : P.U c) (hf : A'.Fresh c) :
    ∃ k, Locs P A' st'.qs c q k ∧ k ≤ B c + ((A'.N - A.N) + (A'.S - A.S)) := by
  obtain ⟨k, hk, q', t, h1, h2⟩ := h i c vi q hi
  obtain ⟨q'', t', k', h3, h4, h5, h6, -⟩ := hg.trk c q hU hf q' t k h1 h2
  exact ⟨k', ⟨_, _, h3, h4⟩, by omega⟩

theorem Link.mono_ex {A : Abs K} {st : St I K} {iu : Nat → List Nat} {op ex ex' : Nat → Prop} (h : Link st A iu op ex)
    (hx : ∀ n, ex n → ex' n) : Link st A iu op ex' :=
  ⟨h.nsL, h.ssL, h.tsL, h.nex, fun n nx h1 h2 => hx n (h.bare n nx h1 h2), h.seg, h.tr, h.vi, h.real⟩

theorem Glob.mono_ex {A : Abs K} {st : St I K} {ex ex' : Nat → Prop} (h : Glob P p xy A st ex)
    (hx : ∀ n, ex n → ex' n) : Glob P p xy A st ex' :=
  ⟨h.inv, h.link.mono_ex hx, h.qry, h.root, h.src⟩

theorem pend_set_length {vls : List (VLoc I K)} {i : Nat} {c : Coords K} {vi : I} {q ni : Nat}
    (hi : vls[i]? = some (.pending c vi q)) :
    1 + (pend (vls.set i (.inserted c ni))).length = (pend vls).length := by
  have := (pend_set_none (b := .inserted c ni) hi rfl rfl).length_eq
  simp only [List.length_cons] at this
  omega

/-- The result of inserting the two ends of side `si`. -/
structure EndsOK (P : Plane K) (p : PolyList I V) (xy : V → Coords K) (A : Abs K) (st : St I K)
    (vs : List (I × Coords K)) (vls : List (VLoc I K)) (v0 v1 : I × Coords K) (sj : Nat) (A' : Abs K) (st' : St I K)
    (vls' : List (VLoc I K)) (a b added : Nat) : Prop where
  glob : Glob P p xy A' st' (fun n => n = a ∨ n = b)
  gro : Gro P A st A' st'
  spots : Spots P A' st' vs vls'
  aN : a < A'.N
  bN : b < A'.N
  ca : A'.c a = v0.2
  cb : A'.c b = v1.2
  S : A'.S = A.S
  added : added + (pend vls').length = (pend vls).length
  ins : InsAt vls' sj
  cs : ∀ n < A'.N, n < A.N ∨ ∃ v ∈ vs, A'.c n = v.2
  N2 : A'.N ≤ A.N + 2
  sub : ∀ (i : Nat) (c : Coords K) (vi : I) (q : Nat), vls'[i]? = some (.pending c vi q) → vls[i]? = some (.pending c vi q)

theorem pending_of_set {vls : List (VLoc I K)} {j n : Nat} {d : Coords K} (i : Nat) (c : Coords K) (vi : I) (q : Nat)
    (h : (vls.set j (.inserted d n))[i]? = some (.pending c vi q)) : vls[i]? = some (.pending c vi q) := by
  rw [List.getElem?_set] at h
  split at h
  · split at h <;> cases h
  · exact h

/-- Both ends of a side are inserted. -/
theorem addEnds_run {A : Abs K} {st : St I K} (hG : Glob P p xy A st (fun _ => False))
    {vs : List (I × Coords K)} (hctx : PolyCtx P p xy vs) {vls : List (VLoc I K)} (hs : Spots P A st vs vls) {si : Nat}
    {v0 v1 : I × Coords K} (hv0 : vs[si]? = some v0) (hv1 : vs[(si + 1) % vs.length]? = some v1) :
    ∃ N A' st' vls' a b added k, (∀ cfg, ∀ fuel ≥ N, St.addEndsC cfg fuel p xy st vls si =
        .ok ((st', vls', a, b, added), k)) ∧ (∀ B, Cheap P A st vls B → k ≤ B v0.2 + B v1.2 + 1) ∧
      EndsOK P p xy A st vs vls v0 v1 ((si + 1) % vs.length) A' st' vls' a b added := by
  have hsi := lt_of_get hv0
  have hne := ne_succ_mod (by have := hctx.len; omega) hsi
  have hlen := hs.len
  unfold St.addEndsC
  rw [hlen]
  generalize hj : (si + 1) % vs.length = sj at hv1 hne ⊢
  have hsj := lt_of_get hv1
  obtain ⟨vl0, h0⟩ : ∃ v, vls[si]? = some v := ⟨_, List.getElem?_eq_getElem (by rw [hlen]; exact hsi)⟩
  obtain ⟨vl1, h1⟩ : ∃ v, vls[sj]? = some v := ⟨_, List.getElem?_eq_getElem (by rw [hlen]; exact hsj)⟩
  have l0 := hs.loc si v0 vl0 hv0 h0
  have l1 := hs.loc sj v1 vl1 hv1 h1
  have two : ∀ i j c0 i0 q0 c1 i1 q1, i ≠ j → i < vls.length → j < vls.length →
      vls[i]? = some (.pending c0 i0 q0) → vls[j]? = some (.pending c1 i1 q1) →
      ∃ N A' st' vls' a b k0 k1, (∀ cfg, ∀ fuel ≥ N, ∀ f : Nat → Nat → Nat × Nat × Nat, (do
        let ((st, vls, ni0), k0) ← St.addVertexVLC cfg fuel p xy st vls i i0 q0
        let ((st, vls, ni1), k1) ← St.addVertexVLC cfg fuel p xy st vls j i1 q1
        (.ok ((st, vls, f ni0 ni1), k0 + k1) : Res IErr _)) = .ok ((st', vls', f a b), k0 + k1)) ∧
        (∀ B, Cheap P A st vls B → k0 + k1 ≤ B c0 + B c1 + 1) ∧
        Glob P p xy A' st' (fun n => n = a ∨ n = b) ∧ Gro P A st A' st' ∧ Spots P A' st' vs vls' ∧
        a < A'.N ∧ b < A'.N ∧ A'.c a = c0 ∧ A'.c b = c1 ∧ A'.S = A.S ∧
        2 + (pend vls').length = (pend vls).length ∧ InsAt vls' i ∧ InsAt vls' j ∧
        (∀ n < A'.N, n < A.N ∨ ∃ v ∈ vs, A'.c n = v.2) ∧ A'.N ≤ A.N + 2 ∧
        (∀ (i : Nat) (c : Coords K) (vi : I) (q : Nat), vls'[i]? = some (.pending c vi q) →
          vls[i]? = some (.pending c vi q)) := by
    intro i j c0 i0 q0 c1 i1 q1 hij hi' hj' hi hj
    obtain ⟨N1, A1, st1, k1, hk1, hr1, hG1, hgr1, hs1, hN1, hc1, hS1, -, hm1⟩ := addVertexVLC_run hG hctx hs hi
    have hj2 : (vls.set i (.inserted c0 A.N))[j]? = some (.pending c1 i1 q1) := by
      rw [List.getElem?_set]; simp [hij, hj]
    obtain ⟨N2, A2, st2, k2, hk2, hr2, hG2, hgr2, hs2, hN2, hc2, hS2, -, hm2⟩ := addVertexVLC_run hG1 hctx hs1 hj2
    refine ⟨max N1 N2, A2, st2, _, A.N, A1.N, k1, k2, fun cfg fuel hf f => ?_, fun B hB => ?_, hG2.mono_ex ?_,
      hgr1.trans hgr2, hs2, by omega, by omega, ?_, hc2, hS2.trans hS1, ?_, ?_, ?_, ?_, by omega, ?_⟩
    · simp only [hr1 cfg fuel (le_trans (le_max_left _ _) hf), hr2 cfg fuel (le_trans (le_max_right _ _) hf), bind, Except.bind]
    · obtain ⟨k1', e1, e2⟩ := hB i c0 i0 q0 hi
      obtain rfl := hk1.unique e2
      have hjv : j < vs.length := by rw [← hlen]; exact hj'
      obtain ⟨w, hw⟩ : ∃ w, vs[j]? = some w := ⟨_, List.getElem?_eq_getElem hjv⟩
      obtain ⟨hw1, hw2, -⟩ := hs1.loc j w _ hw hj2
      obtain ⟨k2', e3, e4⟩ := hB.grow hgr1 hj (by rw [show c1 = w.2 by rw [hw1]]; exact hctx.U _ (mem_of_get hw)) hw2
      obtain rfl := hk2.unique e3
      omega
    · rintro n ((h | h) | h)
      · exact absurd h (fun h => h)
      · exact .inl h
      · exact .inr h
    · rw [hgr2.c A.N (by omega), hc1]
    · have e1 := pend_set_length (ni := A.N) hi
      have e2 := pend_set_length (ni := A1.N) hj2
      omega
    · rw [List.set_comm _ _ hij]; exact InsAt.set (by simpa using hi') _ _
    · exact InsAt.set (by simpa using hj') _ _
    · intro n hn
      by_cases h1 : n < A.N
      · exact .inl h1
      · by_cases h2 : n = A.N
        · subst h2; exact .inr ⟨_, hm1, by rw [hgr2.c A.N (by omega), hc1]⟩
        · have : n = A1.N := by omega
          subst this; exact .inr ⟨_, hm2, hc2⟩
    · intro i' c' vi' q' h'
      exact pending_of_set _ _ _ _ (pending_of_set _ _ _ _ h')
  have hsi' : si < vls.length := by rw [hlen]; exact hsi
  have hsj' : sj < vls.length := by rw [hlen]; exact hsj
  rcases vl0 with ⟨c0, i0, q0⟩ | ⟨c0, ni0⟩ <;> rcases vl1 with ⟨c1, i1, q1⟩ | ⟨c1, ni1⟩
  · obtain ⟨rfl, -⟩ := l0
    obtain ⟨rfl, -⟩ := l1
    by_cases hlt : c0.ltB c1 = true
    · obtain ⟨N, A', st', vls', a, b, k0, k1, hr, hB, hG', hg', hs', ha, hb, hca, hcb, hS', hp, hia, hib, hcs, h2N, hsub⟩ :=
        two si sj c0 i0 q0 c1 i1 q1 hne hsi' hsj' h0 h1
      refine ⟨N, A', st', vls', a, b, 2, k0 + k1, fun cfg fuel hf => ?_, hB, hG', hg', hs', ha, hb, hca, hcb, hS', hp, hib, hcs,
        h2N, hsub⟩
      have := hr cfg fuel hf (fun a b => (a, b, 2))
      simp only [getP, h0, h1, bind, Except.bind, hlt, if_true] at this ⊢
      exact this
    · obtain ⟨N, A', st', vls', a, b, k0, k1, hr, hB, hG', hg', hs', ha, hb, hca, hcb, hS', hp, hia, hib, hcs, h2N, hsub⟩ :=
        two sj si c1 i1 q1 c0 i0 q0 (Ne.symm hne) hsj' hsi' h1 h0
      refine ⟨N, A', st', vls', b, a, 2, k0 + k1, fun cfg fuel hf => ?_,
        fun B h => (hB B h).trans (by show _ ≤ B c0 + B c1 + 1; omega), hG'.mono_ex (fun n h => h.symm), hg', hs', hb, ha, hcb, hca, hS', hp, hia, hcs, h2N, hsub⟩
      have := hr cfg fuel hf (fun a b => (b, a, 2))
      simp only [getP, h0, h1, bind, Except.bind, hlt] at this ⊢
      exact this
  · obtain ⟨rfl, -⟩ := l0
    obtain ⟨N1, A1, st1, k1, hk1, hr1, hG1, hgr1, hs1, hN1, hc1, hS1, -, hm1⟩ := addVertexVLC_run hG hctx hs h0
    refine ⟨N1, A1, st1, _, A.N, ni1, 1, k1, fun cfg fuel hf => ?_, fun B hB => by
        obtain ⟨k', e1, e2⟩ := hB _ _ _ _ h0
        obtain rfl := hk1.unique e2
        show _ ≤ B c0 + B v1.2 + 1
        omega, hG1.mono_ex ?_, hgr1, hs1, by omega, by have := l1.2.1; omega, hc1, ?_, hS1,
      pend_set_length h0, ?_, fun n hn => (lt_or_ge n A.N).imp_right fun h => by
        have : n = A.N := by omega
        subst this; exact ⟨_, hm1, hc1⟩, by omega, pending_of_set⟩
    · simp only [getP, h0, h1, bind, Except.bind, hr1 cfg fuel hf]
    · rintro n (h | h)
      · exact absurd h (fun h => h)
      · exact .inl h
    · rw [hgr1.c _ l1.2.1, l1.2.2, l1.1]
    · exact ⟨c1, ni1, by rw [List.getElem?_set]; simp [hne, h1]⟩
  · obtain ⟨rfl, -⟩ := l1
    obtain ⟨N1, A1, st1, k1, hk1, hr1, hG1, hgr1, hs1, hN1, hc1, hS1, -, hm1⟩ := addVertexVLC_run hG hctx hs h1
    refine ⟨N1, A1, st1, _, ni0, A.N, 1, k1, fun cfg fuel hf => ?_, fun B hB => by
        obtain ⟨k', e1, e2⟩ := hB _ _ _ _ h1
        obtain rfl := hk1.unique e2
        show _ ≤ B v0.2 + B c1 + 1
        omega, hG1.mono_ex ?_, hgr1, hs1, by have := l0.2.1; omega, by omega, ?_, hc1, hS1,
      pend_set_length h1, InsAt.set hsj' _ _, fun n hn => (lt_or_ge n A.N).imp_right fun h => by
        have : n = A.N := by omega
        subst this; exact ⟨_, hm1, hc1⟩, by omega, pending_of_set⟩
    · simp only [getP, h0, h1, bind, Except.bind, hr1 cfg fuel hf]
    · rintro n (h | h)
      · exact absurd h (fun h => h)
      · exact .inr h
    · rw [hgr1.c _ l0.2.1, l0.2.2, l0.1]
  · exact ⟨0, A, st, vls, ni0, ni1, 0, 0, fun cfg fuel _ => by simp only [getP, h0, h1, bind, Except.bind], fun _ _ => by omega,
      hG.mono_ex (fun n h => absurd h (fun h => h)), .refl _ _, hs, l0.2.1, l1.2.1, by rw [l0.2.2, l0.1], by rw [l1.2.2, l1.1], rfl, by simp, ⟨c1, ni1, h1⟩,
      fun _ hn => .inl hn, by omega, fun _ _ _ _ h => h⟩

/-- The result of `add_nth_segment`. -/
structure NthOK (P : Plane K) (p : PolyList I V) (xy : V → Coords K) (A : Abs K) (st : St I K)
    (vs : List (I × Coords K)) (vls : List (VLoc I K)) (e : Coords K × Coords K) (sj : Nat) (A' : Abs K) (st' : St I K)
    (vls' : List (VLoc I K)) (added : Nat) : Prop where
  glob : Glob P p xy A' st' (fun _ => False)
  gro : Gro P A st A' st'
  spots : Spots P A' st' vs vls'
  S : A'.S = A.S + 1
  sg : A'.sg A.S = e
  added : added + (pend vls').length = (pend vls).length
  ins : InsAt vls' sj
  cs : ∀ n < A'.N, n < A.N ∨ ∃ v ∈ vs, A'.c n = v.2
  N2 : A'.N ≤ A.N + 2
  sub : ∀ (i : Nat) (c : Coords K) (vi : I) (q : Nat), vls'[i]? = some (.pending c vi q) → vls[i]? = some (.pending c vi q)

theorem addNthSegment_run {A : Abs K} {st : St I K} (hG : Glob P p xy A st (fun _ => False))
    {vs : List (I × Coords K)} (hctx : PolyCtx P p xy vs) {vls : List (VLoc I K)} (hs : Spots P A st vs vls) {si : Nat}
    {v0 v1 : I × Coords K} (hv0 : vs[si]? = some v0) (hv1 : vs[(si + 1) % vs.length]? = some v1)
    (hnew : ∀ i < A.S, A.sg i ≠ edgeC v0.2 v1.2) :
    ∃ N A' st' vls' added k ps, (∀ cfg, ∀ fuel ≥ N, St.addNthSegmentC cfg fuel p xy st vls si =
        .ok ((st', vls', added), k + ps.length)) ∧ (∀ B, Cheap P A st vls B → k ≤ B v0.2 + B v1.2 + 1) ∧
      Passes P (Edges A') A' (edgeC v0.2 v1.2) ps ∧ St.Nodes st st' ps.length ∧
      NthOK P p xy A st vs vls (edgeC v0.2 v1.2) ((si + 1) % vs.length) A' st' vls' added := by
  obtain ⟨N1, A1, st1, vls1, a, b, added, k, hr1, hB, h⟩ := addEnds_run hG hctx hs hv0 hv1
  have hE := hctx.E si v0 v1 hv0 hv1
  obtain ⟨na, hna⟩ := h.glob.link.ns_get h.aN
  obtain ⟨nb, hnb⟩ := h.glob.link.ns_get h.bN
  have cna : na.c = v0.2 := by rw [(h.glob.link.nex _ _ hna).c, h.ca]
  have cnb : nb.c = v1.2 := by rw [(h.glob.link.nex _ _ hnb).c, h.cb]
  have hnew1 : ∀ i < A1.S, A1.sg i ≠ edgeC v0.2 v1.2 := by
    intro i hi
    rw [h.S] at hi
    rw [h.gro.sg i hi]; exact hnew i hi
  -- the call
  obtain ⟨N2, A2, st2, ps, hr2, hps, hI2, hL2, hQ2, ⟨hN2, hc2, hS2, hsg2⟩, hF2, hk2, hss2⟩ : ∃ N A' st' ps,
      (∀ cfg, ∀ fuel ≥ N, (if na.c.ltB nb.c then st1.addSegmentC cfg fuel a b na.c nb.c
        else st1.addSegmentC cfg fuel b a nb.c na.c : Res IErr _) = .ok (st', List.length ps)) ∧
      Passes P (Edges A') A' (edgeC v0.2 v1.2) ps ∧ Inv P A' ∧ Link st' A' A'.ups (fun _ => False) (fun _ => False) ∧ Qry st'.qs st'.ts A' ∧
      (A'.N = A1.N ∧ A'.c = A1.c ∧ A'.S = A1.S + 1 ∧ A'.sg = Function.update A1.sg A1.S (edgeC v0.2 v1.2)) ∧
      (∀ w q, P.U w → Trk P A1 st1.qs A' st'.qs w q 1 (Beside A1.S)) ∧ st'.keys = st1.keys ∧
      (∃ s, st'.ss = st1.ss ++ [s]) := by
    rw [cna, cnb]
    by_cases hlt : v0.2.ltB v1.2 = true
    · have he : edgeC v0.2 v1.2 = (v0.2, v1.2) := by simp [edgeC, hlt]
      rw [he] at hnew1 hE
      obtain ⟨N, A', st', ps, hr, r0, r1, r2, r3, r4, r5, r6, r7⟩ := addSegment_run h.glob.inv h.glob.link h.glob.qry hE hnew1
        h.bN h.aN h.cb h.ca (fun n hn => hn.symm)
      rw [he]
      refine ⟨N, A', st', ps, fun cfg fuel hf => ?_, r0, r1, r2, r3, r4, r5, r6, _, r7⟩
      rw [if_pos hlt]; exact hr cfg fuel hf
    · have he : edgeC v0.2 v1.2 = (v1.2, v0.2) := by simp [edgeC, hlt]
      rw [he] at hnew1 hE
      obtain ⟨N, A', st', ps, hr, r0, r1, r2, r3, r4, r5, r6, r7⟩ := addSegment_run h.glob.inv h.glob.link h.glob.qry hE hnew1
        h.aN h.bN h.ca h.cb (fun n hn => hn)
      rw [he]
      refine ⟨N, A', st', ps, fun cfg fuel hf => ?_, r0, r1, r2, r3, r4, r5, r6, _, r7⟩
      rw [if_neg hlt]; exact hr cfg fuel hf
  have hnod : St.Nodes st st2 ps.length := by
    have h1 := St.addEndsC_nodes (hr1 ⟨fun _ _ => [], fun _ _ => 0, false⟩ N1 (le_refl _))
    have h2 : St.Nodes st1 st2 ps.length := by
      have h2 := hr2 ⟨fun _ _ => [], fun _ _ => 0, false⟩ N2 (le_refl _)
      split at h2
      · exact St.addSegmentC_nodes h2
      · exact St.addSegmentC_nodes h2
    have := h1.trans h2
    rwa [Nat.zero_add] at this
  have hgro : Gro P A1 st1 A2 st2 := by
    refine ⟨hN2.ge, fun n _ => by rw [hc2], by omega, fun i hi => ?_, fun w q hw _ => (hF2 w q hw).mono (by omega) ?_,
      by rw [hk2]⟩
    · rw [hsg2]; exact Function.update_of_ne (Nat.ne_of_lt hi) _ _
    · intro z hz; exact .inl ⟨A1.S, le_refl _, hz⟩
  refine ⟨max N1 N2, A2, st2, vls1, added, k, ps, fun cfg fuel hf => ?_, hB, hps, hnod, ⟨⟨hI2, hL2, hQ2, ?_, ?_⟩, h.gro.trans hgro, ?_, ?_, ?_,
    h.added, h.ins, ?_, by rw [hN2]; exact h.N2, h.sub⟩⟩
  · have h2 := hr2 cfg fuel (le_trans (le_max_right _ _) hf)
    simp only [St.addNthSegmentC, hr1 cfg fuel (le_trans (le_max_left _ _) hf), getU, hna, hnb, bind, Except.bind, h2]
  · intro w hw hf
    exact (hF2 w 0 hw).found (h.glob.root w hw (hf.of_gro hgro))
  · rw [hk2]; exact h.glob.src
  · refine h.spots.grow hctx hgro rfl fun i v vl hv hvl => .inl ⟨hvl, fun hp n hn => ?_⟩
    rw [hc2]
    rw [hN2] at hn
    have := h.spots.loc i v vl hv hvl
    cases vl with
    | pending c' vi' q' =>
      obtain ⟨rfl, h2, -⟩ := this
      exact h2 n hn
    | inserted c' ni' => exact absurd rfl hp
  · rw [hS2, h.S]
  · rw [hsg2, h.S]; exact Function.update_self _ _ _
  · intro n hn
    rw [hN2] at hn
    rw [hc2]
    exact h.cs n hn

/-- Side `k` of the polygon is the edge `e`. -/
def SideIs (vs : List (I × Coords K)) (k : Nat) (e : Coords K × Coords K) : Prop :=
  ∃ a b, vs[k]? = some a ∧ vs[(k + 1) % vs.length]? = some b ∧ e = edgeC a.2 b.2

/-- Vertex `i` is pending. -/
def isPend (vls : List (VLoc I K)) (i : Nat) : Bool :=
  match vls[i]? with
  | some (.pending _ _ _) => true
  | _ => false

theorem near_far (u v : Coords K) : nearEnd (edgeC u v) (if v.gtB u = true then Dir.asc else Dir.desc) = u ∧
    farEnd (edgeC u v) (if v.gtB u = true then Dir.asc else Dir.desc) = v := by
  have h : v.gtB u = u.ltB v := by
    rw [Bool.eq_iff_iff, gtB_exact, ltB_exact]
  unfold edgeC
  rw [h]
  cases u.ltB v <;> simp [nearEnd, farEnd]

/-- The walk along side `k` of the polygon visits at most `g k` trapezoids. -/
def WalkLe (P : Plane K) (A : Abs K) (vs : List (I × Coords K)) (g : Nat → Nat) : Prop :=
  ∀ k e ps, SideIs vs k e → Passes P (EdgesOr A e) A e ps → ps.length + 1 ≤ g k

/-- One iteration of the relocation. -/
theorem relocStep_run {A : Abs K} {st : St I K} (hG : Glob P p xy A st (fun _ => False))
    {vs : List (I × Coords K)} (hctx : PolyCtx P p xy vs) {r : St.Reloc I K} (hs : Spots P A st vs r.vls)
    (hun : isPend r.vls ((r.target + 1) % vs.length) = true → 0 < r.unlocated)
    (hloc : InsAt r.vls ((r.target + 1) % vs.length) ∨
      (LocAt P A r.cOrigin r.loc ∧ ∃ v, vs[r.target]? = some v ∧ v.2 = r.cOrigin)) :
    ∃ N r' k, (∀ fuel ≥ N, St.relocStepC fuel st r = .ok (r', k)) ∧
      (∀ g, WalkLe P A vs g → k ≤ if isPend r.vls ((r.target + 1) % vs.length) then g r.target else 0) ∧
      (∀ (i : Nat) (c : Coords K) (vi : I) (q : Nat), r'.vls[i]? = some (.pending c vi q) →
        Locs P A st.qs c q 1 ∨ (i ≠ r'.target ∧ r.vls[i]? = some (.pending c vi q))) ∧ Spots P A st vs r'.vls ∧
      LocAt P A r'.cOrigin r'.loc ∧ r'.target = (r.target + 1) % vs.length ∧
      (∃ v, vs[r'.target]? = some v ∧ v.2 = r'.cOrigin) ∧ (∀ i, isPend r'.vls i = isPend r.vls i) ∧
      r'.unlocated = r.unlocated - (if isPend r.vls ((r.target + 1) % vs.length) then 1 else 0) ∧
      pend r'.vls = pend r.vls := by
  have hlt := hctx.lt r.target
  have hlen := hs.len
  unfold St.relocStepC
  rw [hlen]
  generalize hj : (r.target + 1) % vs.length = tg at hlt hun hloc ⊢
  obtain ⟨vl, hvl⟩ : ∃ v, r.vls[tg]? = some v := ⟨_, List.getElem?_eq_getElem (by rw [hlen]; exact hlt)⟩
  obtain ⟨v, hv⟩ : ∃ v, vs[tg]? = some v := ⟨_, List.getElem?_eq_getElem hlt⟩
  have hl := hs.loc tg v vl hv hvl
  cases vl with
  | inserted c ni =>
    obtain ⟨h1, h2, h3⟩ := hl
    obtain ⟨nx, hnx⟩ := hG.link.ns_get h2
    have hc := (hG.link.nex _ _ hnx).c
    refine ⟨0, { r with target := tg, loc := .nexus ni, cOrigin := nx.c }, 0, fun fuel _ => ?_, fun _ _ => Nat.zero_le _, ?_, hs, ⟨h2, hc.symm⟩, rfl,
      ⟨v, hv, ?_⟩, fun _ => rfl, ?_, rfl⟩
    · simp only [getP, hvl, getU, hnx, bind, Except.bind]
    · intro i c' vi' q' hi
      refine .inr ⟨fun e => ?_, hi⟩
      have hi' : r.vls[i]? = some (.pending c' vi' q') := hi
      rw [show i = tg from e, hvl] at hi'; cases hi'
    · rw [h1, ← h3]; exact hc.symm
    · simp [isPend, hvl]
  | pending cT vi q =>
    obtain ⟨rfl, hfr, hF⟩ := hl
    have hp : isPend r.vls tg = true := by simp [isPend, hvl]
    obtain ⟨hla, w, hw, hwc⟩ := hloc.resolve_left (by
      rintro ⟨c, ni, h⟩; rw [hvl] at h; cases h)
    have hE := hctx.E r.target w (vi, cT) hw (by rw [hj]; exact hv)
    rw [hwc] at hE
    obtain ⟨n1, n2⟩ := near_far r.cOrigin cT
    have hrun := walk_run hG.inv hG.link hE (if cT.gtB r.cOrigin = true then Dir.asc else Dir.desc) (loc := r.loc)
      (by rw [n2]; exact hfr) (by rw [n1]; exact hla)
    rw [n1, n2] at hrun
    obtain ⟨t, t', N, ps, ht', hreg, hst, hps, hwalk⟩ := hrun
    obtain ⟨tt, htt⟩ := hG.link.ts_get ht'
    have hsub : subP (ε := IErr) r.unlocated 1 = .ok (r.unlocated - 1) := by
      have := hun hp
      unfold subP
      rw [if_pos (by omega)]
    refine ⟨N, ⟨r.vls.set tg (.pending cT vi tt.sink), r.unlocated - 1, tg, .trapezoid t', cT⟩, ps.length + 1, fun fuel hf => ?_,
      fun g hg => ?_, ?_, ?_, ⟨ht', hreg⟩, rfl, ⟨_, hv, rfl⟩, ?_, ?_, ?_⟩
    · simp only [getP, hvl, getU, htt, bind, Except.bind, hst, hwalk fuel hf, hsub]
    · rw [if_pos hp]
      exact hg r.target _ ps ⟨w, (vi, cT), hw, by rw [hj]; exact hv, by rw [hwc]⟩ hps
    · intro i c' vi' q' hi
      have hi' : (r.vls.set tg (.pending cT vi tt.sink))[i]? = some (.pending c' vi' q') := hi
      rw [List.getElem?_set] at hi'
      split at hi'
      · split at hi'
        · cases hi'
          exact .inl ⟨_, _, .sink (hG.qry.snk _ _ htt), hreg⟩
        · cases hi'
      · rename_i hij
        exact .inr ⟨Ne.symm hij, hi'⟩
    · refine ⟨by simp [hlen], fun i v' vl hv' hvl' => ?_⟩
      rw [List.getElem?_set] at hvl'
      split at hvl'
      · rename_i hij
        subst hij
        split at hvl'
        · cases hvl'
          rw [hv] at hv'; cases hv'
          exact ⟨rfl, hfr, _, _, .sink (hG.qry.snk _ _ htt), hreg⟩
        · cases hvl'
      · exact hs.loc i v' vl hv' hvl'
    · intro i
      show isPend (r.vls.set tg (.pending cT vi tt.sink)) i = _
      unfold isPend
      by_cases hij : tg = i
      · subst hij
        rw [hvl, List.getElem?_set_self (lt_of_get hvl)]
      · rw [List.getElem?_set_ne hij]
    · rw [hp]; rfl
    · exact pend_set_same hvl rfl

theorem range_filter_succ {q : Nat → Bool} {m : Nat} : ((List.range (m + 1)).filter q).length =
    (if q 0 then 1 else 0) + ((List.range m).filter fun j => q (j + 1)).length := by
  rw [List.range_succ_eq_map, List.filter_cons, List.filter_map]
  cases h : q 0
  · simp [Function.comp_def]
  · simp [Function.comp_def, Nat.add_comm]

theorem pend_count (vls : List (VLoc I K)) :
    (pend vls).length = ((List.range vls.length).filter (isPend vls)).length := by
  induction vls with
  | nil => rfl
  | cons x xs ih =>
    rw [List.length_cons, range_filter_succ]
    have h1 : (fun j => isPend (x :: xs) (j + 1)) = isPend xs := by
      funext j; simp [isPend]
    rw [h1, ← ih]
    cases x <;> simp [isPend, pend, VLoc.pend, List.filterMap_cons, Nat.add_comm]

theorem rot_perm (n t : Nat) : ((List.range n).map fun j => (t + j) % n).Perm (List.range n) := by
  have hsub : List.Subperm (List.range n) ((List.range n).map fun j => (t + j) % n) := by
    refine List.subperm_of_subset List.nodup_range fun x hx => ?_
    have hx' : x < n := by simpa using hx
    have ht : t % n < n := Nat.mod_lt _ (by omega)
    refine List.mem_map.2 ⟨(x + n - t % n) % n, by simp; exact Nat.mod_lt _ (by omega), ?_⟩
    rw [Nat.add_mod_mod, ← Nat.mod_add_mod, show t % n + (x + n - t % n) = x + n by omega, Nat.add_mod_right,
      Nat.mod_eq_of_lt hx']
  exact (hsub.perm_of_length_le (by simp)).symm

/-- Going once round the polygon meets all its vertices. -/
theorem rot_count (q : Nat → Bool) (n t : Nat) : ((List.range n).filter q).length =
    ((List.range n).filter fun j => q ((t + 1 + j) % n)).length := by
  have := ((rot_perm n (t + 1)).filter q).length_eq
  rw [List.filter_map, List.length_map] at this
  exact this.symm

theorem relocLoop_run {A : Abs K} {st : St I K} (hG : Glob P p xy A st (fun _ => False))
    {vs : List (I × Coords K)} (hctx : PolyCtx P p xy vs) (m : Nat) : ∀ {r : St.Reloc I K}, Spots P A st vs r.vls →
    (InsAt r.vls ((r.target + 1) % vs.length) ∨
      (LocAt P A r.cOrigin r.loc ∧ ∃ v, vs[r.target]? = some v ∧ v.2 = r.cOrigin)) →
    r.unlocated = ((List.range m).filter fun j => isPend r.vls ((r.target + 1 + j) % vs.length)).length →
    r.target < vs.length →
    ∃ N vls' k, (∀ fuel ≥ N, ∀ f ≥ m + 1, St.relocLoopC fuel st f r = .ok (vls', k)) ∧
      (∀ g, WalkLe P A vs g → k ≤ ((List.range m).map fun j =>
        1 + if isPend r.vls ((r.target + 1 + j) % vs.length) then g ((r.target + j) % vs.length) else 0).sum) ∧
      (∀ (i : Nat) (c : Coords K) (vi : I) (q : Nat), vls'[i]? = some (.pending c vi q) →
        Locs P A st.qs c q 1 ∨ ((∀ j < m, (r.target + 1 + j) % vs.length ≠ i) ∧ r.vls[i]? = some (.pending c vi q))) ∧
      Spots P A st vs vls' ∧ pend vls' = pend r.vls := by
  have base : ∀ (m : Nat) {r : St.Reloc I K}, Spots P A st vs r.vls →
      r.unlocated = ((List.range m).filter fun j => isPend r.vls ((r.target + 1 + j) % vs.length)).length →
      r.unlocated = 0 →
      ∃ N vls' k, (∀ fuel ≥ N, ∀ f ≥ m + 1, St.relocLoopC fuel st f r = .ok (vls', k)) ∧
        (∀ g, WalkLe P A vs g → k ≤ ((List.range m).map fun j =>
          1 + if isPend r.vls ((r.target + 1 + j) % vs.length) then g ((r.target + j) % vs.length) else 0).sum) ∧
        (∀ (i : Nat) (c : Coords K) (vi : I) (q : Nat), vls'[i]? = some (.pending c vi q) →
          Locs P A st.qs c q 1 ∨ ((∀ j < m, (r.target + 1 + j) % vs.length ≠ i) ∧ r.vls[i]? = some (.pending c vi q))) ∧
        Spots P A st vs vls' ∧ pend vls' = pend r.vls := by
    intro m r hs hun h0
    refine ⟨0, r.vls, 0, fun fuel _ k hk => ?_, fun _ _ => Nat.zero_le _, fun i c vi q hi => .inr ⟨fun j hj he => ?_, hi⟩, hs, rfl⟩
    · obtain ⟨k, rfl⟩ : ∃ j, k = j + 1 := ⟨k - 1, by omega⟩
      rw [St.relocLoopC, if_pos h0]
    · rw [h0] at hun
      have hnil := List.length_eq_zero_iff.1 hun.symm
      have : j ∈ (List.range m).filter fun j => isPend r.vls ((r.target + 1 + j) % vs.length) := by
        rw [List.mem_filter]
        refine ⟨by simpa using hj, ?_⟩
        rw [he]
        simp [isPend, hi]
      rw [hnil] at this
      exact absurd this List.not_mem_nil
  induction m with
  | zero =>
    intro r hs hloc hun _
    exact base 0 hs hun (by simpa using hun)
  | succ m ih =>
    intro r hs hloc hun htl
    by_cases h0 : r.unlocated = 0
    · exact base _ hs hun h0
    · obtain ⟨N1, r', k1, hrun, hk1, hp1, hs', hla, htg, hv', hpe, hul, hpd⟩ := relocStep_run hG hctx hs (fun _ => by omega) hloc
      rw [range_filter_succ] at hun
      simp only [Nat.add_zero] at hun
      have hidx : ∀ j, (r'.target + 1 + j) % vs.length = (r.target + 1 + (j + 1)) % vs.length := by
        intro j
        rw [htg, Nat.add_assoc, Nat.mod_add_mod]
        congr 1
        omega
      have hidx' : ∀ j, (r'.target + j) % vs.length = (r.target + (j + 1)) % vs.length := by
        intro j
        rw [htg, Nat.mod_add_mod]
        congr 1
        omega
      have hfun : (fun j => isPend r'.vls ((r'.target + 1 + j) % vs.length)) =
          fun j => isPend r.vls ((r.target + 1 + (j + 1)) % vs.length) := by
        funext j
        rw [hpe, hidx]
      obtain ⟨N2, vls', k2, hrun', hk2, hp2, hs'', hpd'⟩ := ih (r := r') hs' (.inr ⟨hla, hv'⟩) (by
        rw [hfun, hul]
        omega) (by rw [htg]; exact hctx.lt _)
      refine ⟨max N1 N2, vls', k1 + k2 + 1, fun fuel hf k hk => ?_, fun g hg => ?_, fun i c vi q hi => ?_, hs'', hpd'.trans hpd⟩
      · obtain ⟨k, rfl⟩ : ∃ j, k = j + 1 := ⟨k - 1, by omega⟩
        rw [St.relocLoopC, if_neg h0]
        simp only [hrun fuel (le_trans (le_max_left _ _) hf), bind, Except.bind]
        rw [hrun' fuel (le_trans (le_max_right _ _) hf) k (by omega)]
      · have a1 := hk1 g hg
        have a2 := hk2 g hg
        rw [List.range_succ_eq_map, List.map_cons, List.map_map, List.sum_cons]
        simp only [hpe, hidx, hidx'] at a2
        simp only [Function.comp_def, Nat.add_zero, Nat.mod_eq_of_lt htl]
        have e : ∀ j, r.target + 1 + j.succ = r.target + 1 + (j + 1) := fun _ => rfl
        simp only [Nat.succ_eq_add_one]
        omega
      · rcases hp2 i c vi q hi with h | h
        · exact .inl h
        · rcases hp1 i c vi q h.2 with h' | ⟨hit, h'⟩
          · exact .inl h'
          · refine .inr ⟨fun j hj => ?_, h'⟩
            rcases j with _ | j
            · rw [Nat.add_zero, ← htg]; exact Ne.symm hit
            · rw [← hidx]; exact h.1 j (by omega)

/-- The relocation finds the trapezoids of all pending vertices. -/
theorem relocate_run {A : Abs K} {st : St I K} (hG : Glob P p xy A st (fun _ => False))
    {vs : List (I × Coords K)} (hctx : PolyCtx P p xy vs) {vls : List (VLoc I K)} (hs : Spots P A st vs vls) {si : Nat}
    (hsi : si < vs.length) (hins : InsAt vls ((si + 1) % vs.length)) :
    ∃ N vls' k, (∀ fuel ≥ N, St.relocateC fuel st vls si (pend vls).length = .ok (vls', k)) ∧
      (∀ g, WalkLe P A vs g → k ≤ ((List.range vs.length).map fun j =>
        1 + if isPend vls ((j + 1) % vs.length) then g j else 0).sum) ∧
      Cheap P A st vls' (fun _ => 1) ∧ Spots P A st vs vls' ∧ pend vls' = pend vls := by
  obtain ⟨N, vls', k, h1, hk, hp, h2, h3⟩ := relocLoop_run hG hctx vs.length
    (r := ⟨vls, (pend vls).length, si, .nexus 0, Coords.zero⟩) hs (.inl hins) (by
      show (pend vls).length = _
      rw [pend_count, hs.len]
      exact rot_count _ _ _) hsi
  refine ⟨max N (vs.length + 1), vls', k, fun fuel hf => h1 fuel (le_trans (le_max_left _ _) hf) fuel
    (le_trans (le_max_right _ _) hf), fun g hg => ?_, fun i c vi q hi => ⟨1, le_refl _, ?_⟩, h2, h3⟩
  · refine (hk g hg).trans (le_of_eq ?_)
    rw [← ((rot_perm vs.length si).map (fun j => 1 + if isPend vls ((j + 1) % vs.length) then g j else 0)).sum_eq,
      List.map_map]
    congr 1
    refine List.map_congr_left fun j _ => ?_
    show _ = 1 + if isPend vls (((si + j) % vs.length + 1) % vs.length) = true then _ else _
    rw [Nat.mod_add_mod, Nat.add_right_comm]
  · rcases hp i c vi q hi with h | ⟨h, -⟩
    · exact h
    · exfalso
      have hi' : i ∈ List.range vs.length := by rw [← h2.len]; simpa using lt_of_get hi
      rw [← (rot_perm _ (si + 1)).mem_iff, List.mem_map] at hi'
      obtain ⟨j, hj, he⟩ := hi'
      exact h j (by simpa using hj) he

/-- The invariant of the loop of `add_polygon`: the sides `done` have been inserted, `Old` are the edges of
the polygons before. -/
structure PolyRun (P : Plane K) (p : PolyList I V) (xy : V → Coords K) (vs : List (I × Coords K))
    (Old : Coords K × Coords K → Prop) (A0 : Abs K) (st0 : St I K) (done : List Nat) (A : Abs K) (l : St.PolyLoop I K) :
    Prop where
  glob : Glob P p xy A l.st (fun _ => False)
  gro : Gro P A0 st0 A l.st
  spots : Spots P A l.st vs l.vls
  pending : l.pending = (pend l.vls).length
  segs : ∀ i < A.S, Old (A.sg i) ∨ ∃ k ∈ done, SideIs vs k (A.sg i)
  has : ∀ k ∈ done, ∀ e, SideIs vs k e → ∃ i < A.S, A.sg i = e
  cs : ∀ n < A.N, n < A0.N ∨ ∃ v ∈ vs, A.c n = v.2

theorem sum_map_le {α : Type} {f g : α → Nat} : {l : List α} → (∀ x ∈ l, f x ≤ g x) → (l.map f).sum ≤ (l.map g).sum
  | [], _ => le_refl _
  | a :: l, h => by
    simp only [List.map_cons, List.sum_cons]
    exact Nat.add_le_add (h a (by simp)) (sum_map_le fun x hx => h x (by simp [hx]))

/-- What one iteration of the loop of `add_polygon` costs: one for the iteration, the searches for the ends of the side,
the vertices that the new segment passes, and the relocation. -/
def StepCost (P : Plane K) (vs : List (I × Coords K)) (mathN : Nat → Nat → Nat) (A : Abs K) (l : St.PolyLoop I K)
    (si : Nat) (done : List Nat) (A' : Abs K) (l' : St.PolyLoop I K) (k : Nat) : Prop :=
  ∃ (v0 v1 : I × Coords K) (ps : List Nat) (kf kr : Nat), vs[si]? = some v0 ∧ vs[(si + 1) % vs.length]? = some v1 ∧
    Passes P (Edges A') A' (edgeC v0.2 v1.2) ps ∧ k = 1 + kf + ps.length + kr ∧ St.Nodes l.st l'.st ps.length ∧
    (∀ B, Cheap P A l.st l.vls B → kf ≤ B v0.2 + B v1.2 + 1) ∧
    (∀ w, P.U w → A'.Fresh w → A.Fresh w ∧ ∀ q k, Locs P A l.st.qs w q k → ∃ k', Locs P A' l'.st.qs w q k' ∧
      (k' = k ∨ (Bad P (Edges A') w (edgeC v0.2 v1.2) ∧ k' ≤ k + 3))) ∧ l'.i = l.i + 1 ∧
    ((l.i = l.nextUpdate ∧ l'.updateCount = l.updateCount + 1 ∧ l'.nextUpdate = mathN vs.length (l.updateCount + 1) ∧
        Cheap P A' l'.st l'.vls (fun _ => 1) ∧
        ∀ g, WalkLe P A' vs g → kr ≤ ((List.range vs.length).map fun j =>
          1 + if j ∈ done then 0 else g j).sum) ∨
      (l.i ≠ l.nextUpdate ∧ kr = 0 ∧ l'.updateCount = l.updateCount ∧ l'.nextUpdate = l.nextUpdate ∧
        ∀ B B' : Coords K → Nat, (∀ w, B w ≤ B' w) → (∀ w, P.U w → Bad P (Edges A') w (edgeC v0.2 v1.2) → B w + 3 ≤ B' w) →
          Cheap P A l.st l.vls B → Cheap P A' l'.st l'.vls B'))

/-- Between operations, the vertices are the ends of the edges. -/
theorem Glob.stateOf {A : Abs K} {st : St I K} (h : Glob P p xy A st (fun _ => False)) : StateOf P (Edges A) A := by
  refine ⟨⟨h.inv, h.link.sepD h.inv, fun i hi => h.link.real i hi (fun h => h)⟩, fun _ => Iff.rfl, fun v => ⟨?_, ?_⟩⟩
  · rintro ⟨n, hn, rfl⟩
    obtain ⟨nx, hnx⟩ := h.link.ns_get hn
    have hNL := h.link.nex n nx hnx
    have hne : nx.dividers ≠ .zero := fun h0 => h.link.bare n nx hnx h0
    obtain ⟨x, hx⟩ : ∃ x, x ∈ nx.dividers.toList := by
      rcases hd : nx.dividers with _ | d0 | ⟨d0, d1⟩
      · exact absurd hd hne
      · exact ⟨d0, by simp [Zot.toList]⟩
      · exact ⟨d0, by simp [Zot.toList]⟩
    have hS := (hNL.divs x hx).1
    rcases hd : x.dir with _ | _
    · refine ⟨_, ⟨x.si, hS, rfl⟩, .inl ?_⟩
      rw [← h.link.real _ hS (fun h => h), (hNL.asc x hx hd).1]
    · refine ⟨_, ⟨x.si, hS, rfl⟩, .inr ?_⟩
      rw [← (h.inv.mxN _ hS).2, hNL.desc x hx hd]
  · rintro ⟨e, ⟨i, hi, rfl⟩, rfl | rfl⟩
    · exact ⟨_, (h.inv.mnN i hi).1, h.link.real i hi (fun h => h)⟩
    · exact ⟨_, h.inv.mxN i hi⟩

/-- A search that gets longer was for a point next to the new segment. -/
theorem NthOK.locs {A A' : Abs K} {st st' : St I K} {vs : List (I × Coords K)} {vls vls' : List (VLoc I K)}
    {e : Coords K × Coords K} {sj added : Nat} (hn : NthOK P p xy A st vs vls e sj A' st' vls' added)
    (hG : Glob P p xy A st (fun _ => False)) {c : Coords K} (hU : P.U c) (hf : A'.Fresh c) {q k : Nat}
    (h : Locs P A st.qs c q k) : ∃ k', Locs P A' st'.qs c q k' ∧ (k' = k ∨ (Bad P (Edges A') c e ∧ k' ≤ k + 3)) := by
  obtain ⟨q', t, h1, h2⟩ := h
  obtain ⟨q'', t', k', h3, h4, h5, h6, h7⟩ := hn.gro.trk c q hU hf q' t k h1 h2
  refine ⟨k', ⟨_, _, h3, h4⟩, ?_⟩
  rcases h7 with ⟨-, rfl, -⟩ | ⟨h7, -⟩
  · exact .inl rfl
  · have hN := hn.N2
    have hS := hn.S
    refine .inr ⟨?_, by omega⟩
    have hst := hn.glob.stateOf
    obtain ⟨x, hx, -⟩ := hn.glob.qry.snk' q'' t' h3.finds.end_sink
    have ht' : t' < A'.M := by rw [← hn.glob.link.tsL]; exact lt_of_get hx
    have hE : Edges A' e := ⟨A.S, by omega, hn.sg⟩
    -- the new vertices are ends of the new edge only
    have only : ∀ u < A'.N, A.N ≤ u → Only (Edges A') (A'.c u) e := by
      intro u hu hu'
      have key : ∀ f, Edges A' f → (A'.c u = f.1 ∨ A'.c u = f.2) → f = e := by
        rintro f ⟨j, hj, rfl⟩ hf'
        by_cases hjS : j < A.S
        · exfalso
          rw [hn.gro.sg j hjS] at hf'
          obtain ⟨n, hn', hc⟩ : Verts A (A'.c u) := (hG.stateOf.verts _).2 ⟨_, ⟨j, hjS, rfl⟩, hf'⟩
          rw [← hn.gro.c n hn'] at hc
          have := hn.glob.inv.cinj n (hn'.trans_le hn.gro.N) u hu hc
          omega
        · have : j = A.S := by omega
          rw [this, hn.sg]
      obtain ⟨f, hf1, hf2⟩ := (hst.verts (A'.c u)).1 ⟨u, hu, rfl⟩
      have hfe := key f hf1 hf2
      rw [hfe] at hf2
      exact ⟨hE, hf2, key⟩
    have lat : ∀ l, A.S ≤ l → l < A'.S → A'.sg l = e := by
      intro l h8 h9
      have : l = A.S := by omega
      rw [this, hn.sg]
    have hv' : ¬ Verts A' c := fun ⟨n, hn1, hn2⟩ => hf n hn1 hn2
    rcases h7 with ⟨l, h8, h9 | h9⟩ | ⟨u, h8, h9 | h9⟩
    · exact ⟨A', t', 0, hst, hv', ht', h4, .left h9 (lat l h8 (hst.done.inv.leftS t' ht' l h9))⟩
    · exact ⟨A', t', 1, hst, hv', ht', h4, .right h9 (lat l h8 (hst.done.inv.rightS t' ht' l h9))⟩
    · exact ⟨A', t', 2, hst, hv', ht', h4, .up h9 (only u (hst.done.inv.upM t' ht' u h9).1 h8)⟩
    · exact ⟨A', t', 3, hst, hv', ht', h4, .down h9 (only u (hst.done.inv.downM t' ht' u h9).1 h8)⟩

theorem NthOK.cheap {A A' : Abs K} {st st' : St I K} {vs : List (I × Coords K)} {vls vls' : List (VLoc I K)}
    {e : Coords K × Coords K} {sj added : Nat} (hn : NthOK P p xy A st vs vls e sj A' st' vls' added)
    (hG : Glob P p xy A st (fun _ => False)) (hctx : PolyCtx P p xy vs)
    {B B' : Coords K → Nat} (hBB : ∀ w, B w ≤ B' w) (hbad : ∀ w, P.U w → Bad P (Edges A') w e → B w + 3 ≤ B' w)
    (hch : Cheap P A st vls B) {i : Nat} {c : Coords K} {vi : I} {q : Nat} (hi : vls'[i]? = some (.pending c vi q)) :
    ∃ k ≤ B' c, Locs P A' st'.qs c q k := by
  obtain ⟨v, hv⟩ : ∃ v, vs[i]? = some v := ⟨_, List.getElem?_eq_getElem (by rw [← hn.spots.len]; exact lt_of_get hi)⟩
  obtain ⟨rfl, hf, -⟩ := hn.spots.loc i v _ hv hi
  have hU := hctx.U _ (mem_of_get hv)
  obtain ⟨k, hk, h1⟩ := hch i c vi q (hn.sub i c vi q hi)
  obtain ⟨k', h2, rfl | ⟨h3, h4⟩⟩ := hn.locs hG hU hf h1
  · exact ⟨_, hk.trans (hBB c), h2⟩
  · exact ⟨k', by have := hbad c hU h3; omega, h2⟩

/-- One iteration of the loop of `add_polygon` and its cost. -/
theorem polyStepC_run {vs : List (I × Coords K)} (hctx : PolyCtx P p xy vs)
    {Old : Coords K × Coords K → Prop} (hold : ∀ k e, SideIs vs k e → ¬ Old e) {A0 A : Abs K} {st0 : St I K} {done : List Nat}
    {l : St.PolyLoop I K} (h : PolyRun P p xy vs Old A0 st0 done A l) {si : Nat} (hsi : si < vs.length)
    (hnd : si ∉ done) (mathN : Nat → Nat → Nat) :
    ∃ N A' l' k, (∀ cfg : Cfg, cfg.mathN = mathN → ∀ fuel ≥ N, ∀ k0,
        St.polyStepC cfg fuel p xy (l, k0) si = .ok (l', k0 + k)) ∧
      PolyRun P p xy vs Old A0 st0 (done ++ [si]) A' l' ∧ StepCost P vs mathN A l si (done ++ [si]) A' l' k := by
  obtain ⟨v0, hv0⟩ : ∃ v, vs[si]? = some v := ⟨_, List.getElem?_eq_getElem hsi⟩
  obtain ⟨v1, hv1⟩ : ∃ v, vs[(si + 1) % vs.length]? = some v := ⟨_, List.getElem?_eq_getElem (hctx.lt si)⟩
  have hside : SideIs vs si (edgeC v0.2 v1.2) := ⟨v0, v1, hv0, hv1, rfl⟩
  have hnew : ∀ i < A.S, A.sg i ≠ edgeC v0.2 v1.2 := by
    intro i hi he
    rcases h.segs i hi with h1 | ⟨k, hk, a, b, h1, h2, h3⟩
    · rw [he] at h1; exact hold _ _ hside h1
    · rw [he] at h3
      have := hctx.edge_inj hv0 hv1 h1 h2 h3
      subst this; exact hnd hk
  obtain ⟨N1, A1, st1, vls1, added, k, ps, hr1, hB, hps, hnod, hn⟩ := addNthSegment_run h.glob hctx h.spots hv0 hv1 hnew
  have hsub : subP (ε := IErr) l.pending added = .ok (pend vls1).length := by
    have h1 := hn.added
    have h2 := h.pending
    unfold subP
    rw [if_pos (by omega)]
    congr 1; omega
  have hsegs : ∀ i < A1.S, Old (A1.sg i) ∨ ∃ k ∈ done ++ [si], SideIs vs k (A1.sg i) := by
    intro i hi
    rw [hn.S] at hi
    by_cases hi' : i < A.S
    · rw [hn.gro.sg i hi']
      exact (h.segs i hi').imp_right fun ⟨k, hk, h1⟩ => ⟨k, List.mem_append_left _ hk, h1⟩
    · have : i = A.S := by omega
      subst this
      rw [hn.sg]
      exact .inr ⟨si, by simp, hside⟩
  have hhas : ∀ k ∈ done ++ [si], ∀ e, SideIs vs k e → ∃ i < A1.S, A1.sg i = e := by
    intro k hk e he
    rcases List.mem_append.1 hk with hk | hk
    · obtain ⟨i, hi, h1⟩ := h.has k hk e he
      exact ⟨i, hi.trans_le hn.gro.S, by rw [hn.gro.sg i hi, h1]⟩
    · rw [List.mem_singleton] at hk
      subst hk
      obtain ⟨a, b, h1, h2, rfl⟩ := he
      rw [hv0] at h1; rw [hv1] at h2
      cases h1; cases h2
      exact ⟨A.S, by rw [hn.S]; omega, hn.sg⟩
  have hcs : ∀ n < A1.N, n < A0.N ∨ ∃ v ∈ vs, A1.c n = v.2 := by
    intro n hnn
    rcases hn.cs n hnn with h1 | h1
    · rw [hn.gro.c n h1]; exact h.cs n h1
    · exact .inr h1
  by_cases hup : l.i = l.nextUpdate
  · obtain ⟨N2, vls2, kr, hr2, hkr, hch, hs2, hp2⟩ := relocate_run hn.glob hctx hn.spots hsi hn.ins
    refine ⟨max N1 N2, A1, ⟨st1, vls2, (pend vls1).length, l.i + 1, l.updateCount + 1, mathN vls2.length (l.updateCount + 1)⟩,
      1 + k + ps.length + kr, fun cfg hc fuel hf k0 => ?_, ⟨hn.glob, h.gro.trans hn.gro, hs2, by rw [hp2], hsegs, hhas, hcs⟩,
      v0, v1, ps, k, kr, hv0, hv1, hps, rfl, hnod, hB, fun w hU hf => ⟨hf.of_gro hn.gro, fun q k hl => hn.locs h.glob hU hf hl⟩, rfl, .inl ⟨hup, rfl, by rw [hs2.len], hch, ?_⟩⟩
    · simp only [St.polyStepC, hr1 cfg fuel (le_trans (le_max_left _ _) hf), bind, Except.bind, hsub, if_pos hup,
        hr2 fuel (le_trans (le_max_right _ _) hf), hc]
      congr 2
      omega
    · intro g hg
      refine (hkr g hg).trans (sum_map_le fun j hj => ?_)
      split
      · rename_i hpd
        split
        · rename_i hjd
          exfalso
          have hj' : j < vs.length := by simpa using hj
          obtain ⟨u, hu⟩ : ∃ u, vs[j]? = some u := ⟨_, List.getElem?_eq_getElem hj'⟩
          obtain ⟨v, hv⟩ : ∃ v, vs[(j + 1) % vs.length]? = some v := ⟨_, List.getElem?_eq_getElem (hctx.lt j)⟩
          obtain ⟨i, hi, he⟩ := hhas j hjd _ ⟨u, v, hu, hv, rfl⟩
          obtain ⟨n, hn1, hn2⟩ : Verts A1 v.2 := (hn.glob.stateOf.verts _).2 ⟨_, ⟨i, hi, he⟩, by
            unfold edgeC; split <;> simp⟩
          unfold isPend at hpd
          split at hpd
          · rename_i c vi q hvl
            obtain ⟨hc, hf, -⟩ := hn.spots.loc _ _ _ hv hvl
            exact hf n hn1 (by rw [hn2, hc])
          · cases hpd
        · exact le_refl _
      · exact Nat.add_le_add_left (Nat.zero_le _) 1
  · refine ⟨N1, A1, ⟨st1, vls1, (pend vls1).length, l.i + 1, l.updateCount, l.nextUpdate⟩,
      1 + k + ps.length + 0, fun cfg hc fuel hf k0 => ?_, ⟨hn.glob, h.gro.trans hn.gro, hn.spots, rfl, hsegs, hhas, hcs⟩,
      v0, v1, ps, k, 0, hv0, hv1, hps, rfl, hnod, hB, fun w hU hf => ⟨hf.of_gro hn.gro, fun q k hl => hn.locs h.glob hU hf hl⟩, rfl, .inr ⟨hup, rfl, rfl, rfl, ?_⟩⟩
    · simp only [St.polyStepC, hr1 cfg fuel hf, bind, Except.bind, hsub, if_neg hup]
      congr 2
      omega
    · intro B B' hBB hbad hch i c vi q hi
      exact hn.cheap h.glob hctx hBB hbad hch hi

theorem polyStep_run {vs : List (I × Coords K)} (hctx : PolyCtx P p xy vs)
    {Old : Coords K × Coords K → Prop} (hold : ∀ k e, SideIs vs k e → ¬ Old e) {A0 A : Abs K} {st0 : St I K} {done : List Nat}
    {l : St.PolyLoop I K} (h : PolyRun P p xy vs Old A0 st0 done A l) {si : Nat} (hsi : si < vs.length)
    (hnd : si ∉ done) (mathN : Nat → Nat → Nat) :
    ∃ N A' l', (∀ cfg : Cfg, cfg.mathN = mathN → ∀ fuel ≥ N, St.polyStep cfg fuel p xy l si = .ok l') ∧
      PolyRun P p xy vs Old A0 st0 (done ++ [si]) A' l' := by
  obtain ⟨N, A', l', k, hr, h', -⟩ := polyStepC_run hctx hold h hsi hnd mathN
  refine ⟨N, A', l', fun cfg hc fuel hf => ?_, h'⟩
  rw [← St.polyStepC_fst cfg fuel p xy l 0, hr cfg hc fuel hf 0]; rfl

/-- The loop of `add_polygon`. -/
theorem polyLoop_run {vs : List (I × Coords K)} (hctx : PolyCtx P p xy vs)
    {Old : Coords K × Coords K → Prop} (hold : ∀ k e, SideIs vs k e → ¬ Old e) {A0 : Abs K} {st0 : St I K}
    (mathN : Nat → Nat → Nat) (todo : List Nat) : ∀ {done : List Nat} {A : Abs K} {l : St.PolyLoop I K},
    PolyRun P p xy vs Old A0 st0 done A l → (done ++ todo).Nodup → (∀ k ∈ todo, k < vs.length) →
    ∃ N A' l', (∀ cfg : Cfg, cfg.mathN = mathN → ∀ fuel ≥ N, todo.foldlM (St.polyStep cfg fuel p xy) l = .ok l') ∧
      PolyRun P p xy vs Old A0 st0 (done ++ todo) A' l' := by
  induction todo with
  | nil =>
    intro done A l h _ _
    exact ⟨0, A, l, fun _ _ _ _ => rfl, by rw [List.append_nil]; exact h⟩
  | cons si todo ih =>
    intro done A l h hnd hlt
    have hsi : si ∉ done := by
      intro hm
      rw [List.nodup_append] at hnd
      exact hnd.2.2 si hm si (by simp) rfl
    obtain ⟨N1, A1, l1, hr1, h1⟩ := polyStep_run hctx hold h (hlt si (by simp)) hsi mathN
    obtain ⟨N2, A2, l2, hr2, h2⟩ := ih h1 (by rw [List.append_assoc]; exact hnd) (fun k hk => hlt k (by simp [hk]))
    refine ⟨max N1 N2, A2, l2, fun cfg hc fuel hf => ?_, by rw [List.append_assoc] at h2; exact h2⟩
    rw [List.foldlM_cons]
    simp only [hr1 cfg hc fuel (le_trans (le_max_left _ _) hf), bind, Except.bind]
    exact hr2 cfg hc fuel (le_trans (le_max_right _ _) hf)

/-- `add_polygon` inserts all vertices and sides of a polygon. -/
theorem addPolygon_run {vs : List (I × Coords K)} (hctx : PolyCtx P p xy vs)
    {Old : Coords K × Coords K → Prop} (hold : ∀ k e, SideIs vs k e → ¬ Old e) {A : Abs K} {st : St I K}
    (hG : Glob P p xy A st (fun _ => False)) (hfr : ∀ v ∈ vs, A.Fresh v.2) (hsegs : ∀ i < A.S, Old (A.sg i))
    (k : Nat) (order : Nat → Nat → List Nat) (mathN : Nat → Nat → Nat) (hord : (order k vs.length).Perm (List.range vs.length)) :
    ∃ N A' st', (∀ cfg : Cfg, cfg.order = order → cfg.mathN = mathN → ∀ fuel ≥ N,
        St.addPolygon cfg fuel p xy k st (startLocs vs) = .ok st') ∧
      Glob P p xy A' st' (fun _ => False) ∧ Gro P A st A' st' ∧
      (∀ i < A'.S, Old (A'.sg i) ∨ ∃ k, SideIs vs k (A'.sg i)) ∧ (∀ k e, SideIs vs k e → ∃ i < A'.S, A'.sg i = e) ∧
      (∀ n < A'.N, n < A.N ∨ ∃ v ∈ vs, A'.c n = v.2) := by
  have hl : (startLocs vs).length = vs.length := by simp [startLocs]
  have h0 : PolyRun P p xy vs Old A st [] A ⟨st, startLocs vs, vs.length, 0, 1, mathN vs.length 1⟩ := by
    refine ⟨hG, .refl _ _, ⟨hl, ?_⟩, ?_, fun i hi => .inl (hsegs i hi), by simp, fun n hn => .inl hn⟩
    · intro i v vl h1 h2
      simp only [startLocs, List.getElem?_map, h1, Option.map_some, Option.some.injEq] at h2
      subst h2
      have hm := mem_of_get h1
      exact ⟨rfl, hfr v hm, hG.root _ (hctx.U v hm) (hfr v hm)⟩
    · show _ = (pend (startLocs vs)).length
      rw [pend_startLocs]
  obtain ⟨N, A', l', hr, h'⟩ := polyLoop_run hctx hold mathN (order k vs.length) h0
    (by rw [List.nil_append, hord.nodup_iff]; exact List.nodup_range)
    (fun j hj => by simpa using hord.mem_iff.1 hj)
  rw [List.nil_append] at h'
  refine ⟨N, A', l'.st, fun cfg h1 h2 fuel hf => ?_, h'.glob, h'.gro, fun i hi => ?_, fun j e he => ?_, h'.cs⟩
  · unfold St.addPolygon
    rw [hl, h1, h2]
    simp only [bind, Except.bind, hr cfg h2 fuel hf]
  · exact (h'.segs i hi).imp_right fun ⟨k, _, h⟩ => ⟨k, h⟩
  · refine h'.has j ?_ e he
    obtain ⟨a, b, h1, -⟩ := he
    rw [hord.mem_iff]
    simpa using lt_of_get h1

end Tri
