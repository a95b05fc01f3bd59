import Verif.Proof.Output
import Verif.Proof.Cusp

/-!
# A polygon that goes down in one chain

A polygon whose vertices, in the order in which they are given, go down and whose last edge leads back to the top, is
triangulated as a single chain.
-/

set_option linter.unusedSectionVars false

namespace Tri

variable {I V K : Type} [Field K] [LinearOrder K] [IsStrictOrderedRing K]

attribute [local instance] exact

variable {P : Plane K} {p : PolyList I V} {xy : V → Coords K} {A : Abs K} {st : St I K} {key : Nat → I × Coords K}
  {lab sgn : Nat → Bool}

/-- `1` for the pair `(u₁, d₁)`. -/
def atPair (u₁ d₁ : Nat) (b : Bool) (u d : Nat) : Int := (if b then -1 else 1) * if u = u₁ ∧ d = d₁ then 1 else 0

theorem esum_atPair_zero (u₁ d₁ : Nat) (b : Bool) {l : List (Nat × Nat)} (h : (u₁, d₁) ∉ l) : esum (atPair u₁ d₁ b) l = 0 := by
  induction l with
  | nil => rfl
  | cons e l ih =>
    have e1 : esum (atPair u₁ d₁ b) (e :: l) = atPair u₁ d₁ b e.1 e.2 + esum (atPair u₁ d₁ b) l := by simp [esum]
    rw [e1, ih fun h' => h (by simp [h'])]
    have : ¬ (e.1 = u₁ ∧ e.2 = d₁) := by
      rintro ⟨rfl, rfl⟩
      exact h (by simp)
    simp [atPair, this]

theorem mem_pairs {α : Type} {l : List α} {a b : α} : (a, b) ∈ pairs l ↔ ∃ X Y, l = X ++ a :: b :: Y := by
  induction l with
  | nil => simp [pairs]
  | cons x l ih =>
    cases l with
    | nil =>
      simp only [pairs, List.not_mem_nil, false_iff]
      rintro ⟨X, Y, h⟩
      have := congrArg List.length h
      simp at this; omega
    | cons y l =>
      simp only [pairs, List.mem_cons, Prod.mk.injEq, ih]
      constructor
      · rintro (⟨rfl, rfl⟩ | ⟨X, Y, h⟩)
        · exact ⟨[], l, rfl⟩
        · exact ⟨x :: X, Y, by rw [h]; rfl⟩
      · rintro ⟨X, Y, h⟩
        cases X with
        | nil => simp only [List.nil_append, List.cons.injEq] at h; exact .inl ⟨h.1.symm, h.2.1.symm⟩
        | cons z X => simp only [List.cons_append, List.cons.injEq] at h; exact .inr ⟨X, Y, h.2⟩

/-- The edges of the drawing appear in the finished chains. -/
theorem Dfs.fin_pairs (D : Dfs P p xy A st key lab sgn) {fin : List (Nat × List Nat)}
    (hpot : ∀ (G : Type) [AddCommGroup G] (g : Bool → Nat → Nat → G) (β : Nat → G), Deg g β A sgn →
      finW g β A sgn fin = (((List.range A.M).filter lab).map fun t => g true ((A.T t).up.getD 0) ((A.T t).down.getD 0) +
        g false ((A.T t).up.getD 0) ((A.T t).down.getD 0)).sum + ((List.range A.S).map β).sum)
    {s₁ : Nat} (hs₁ : s₁ < A.S) :
    finW (atPair (A.mx s₁) (A.mn s₁)) (fun s => - atPair (A.mx s₁) (A.mn s₁) (sgn s) (A.mx s) (A.mn s)) A sgn fin =
      if sgn s₁ then 1 else -1 := by
  have hI := D.whole.inv
  rw [hpot Int _ _ (fun s _ => by simp)]
  have h0 : ∀ l : List Nat, (l.map fun t => atPair (A.mx s₁) (A.mn s₁) true ((A.T t).up.getD 0) ((A.T t).down.getD 0) +
      atPair (A.mx s₁) (A.mn s₁) false ((A.T t).up.getD 0) ((A.T t).down.getD 0)).sum = 0 := by
    intro l
    induction l with
    | nil => rfl
    | cons t l ih =>
      rw [List.map_cons, List.sum_cons, ih]
      unfold atPair
      simp only [if_true, Bool.false_eq_true, if_false]
      ring
  rw [h0, zero_add, sum_range_list, Finset.sum_eq_single s₁]
  · cases sgn s₁ <;> simp [atPair]
  · intro s hs hne
    have hs := Finset.mem_range.1 hs
    have : ¬ (A.mx s = A.mx s₁ ∧ A.mn s = A.mn s₁) := by
      rintro ⟨h1, h2⟩
      refine hne (hI.sinj s hs s₁ hs₁ ?_)
      exact Prod.ext (by rw [← D.whole.mnC s hs, ← D.whole.mnC s₁ hs₁, h2]) (by rw [← (hI.mxN s hs).2, ← (hI.mxN s₁ hs₁).2, h1])
    simp [atPair, this]
  · intro h; exact absurd (Finset.mem_range.2 hs₁) h

/-- If all finished chains have the base `s₀`, there is only one of them, and it has all edges. -/
theorem Dfs.fin_single (D : Dfs P p xy A st key lab sgn) {fin : List (Nat × List Nat)} (hfin : ∀ f ∈ fin, FinOK P A sgn f)
    (hpot : ∀ (G : Type) [AddCommGroup G] (g : Bool → Nat → Nat → G) (β : Nat → G), Deg g β A sgn →
      finW g β A sgn fin = (((List.range A.M).filter lab).map fun t => g true ((A.T t).up.getD 0) ((A.T t).down.getD 0) +
        g false ((A.T t).up.getD 0) ((A.T t).down.getD 0)).sum + ((List.range A.S).map β).sum)
    {s₀ : Nat} (hs₀ : s₀ < A.S) (hall : ∀ f ∈ fin, f.1 = s₀) :
    ∃ ns, fin = [(s₀, ns)] ∧ ∀ s < A.S, s ≠ s₀ → (A.mx s, A.mn s) ∈ pairs (A.mx s₀ :: ns) := by
  have hI := D.whole.inv
  have hnot : ∀ f ∈ fin, (A.mx s₀, A.mn s₀) ∉ pairs (A.mx f.1 :: f.2) := by
    intro f hf hmem
    obtain ⟨hS, hch, hlen⟩ := hfin f hf
    rw [hall f hf] at hmem hch
    have hnd : (A.mx s₀ :: f.2).Nodup := hch.desc.imp fun h e => by subst e; exact lt_irrefl _ h
    obtain ⟨X, Y, e⟩ := mem_pairs.1 hmem
    cases X with
    | cons x X =>
      simp only [List.cons_append, List.cons.injEq] at e
      rw [List.nodup_cons] at hnd
      exact hnd.1 (by rw [e.2]; simp)
    | nil =>
      simp only [List.nil_append, List.cons.injEq, true_and] at e
      have hl := hch.last
      rw [e] at hl hlen hnd
      rcases List.eq_nil_or_concat' Y with rfl | ⟨Y, y, rfl⟩
      · simp at hlen
      · have : y = A.mn s₀ := by
          rw [show A.mx s₀ :: A.mn s₀ :: (Y ++ [y]) = (A.mx s₀ :: A.mn s₀ :: Y) ++ [y] by simp, List.getLast?_concat] at hl
          exact Option.some.inj hl
        subst this
        simp at hnd
  have hone : fin.length = 1 := by
    have h := D.fin_pairs hpot hs₀
    have e : ∀ l : List (Nat × List Nat), (∀ f ∈ l, f.1 = s₀ ∧ (A.mx s₀, A.mn s₀) ∉ pairs (A.mx f.1 :: f.2)) →
        finW (atPair (A.mx s₀) (A.mn s₀)) (fun s => - atPair (A.mx s₀) (A.mn s₀) (sgn s) (A.mx s) (A.mn s)) A sgn l =
          l.length * if sgn s₀ then 1 else -1 := by
      intro l hl
      induction l with
      | nil => simp [finW]
      | cons f l ih =>
        obtain ⟨h1, h2⟩ := hl f (by simp)
        have e2 : finW (atPair (A.mx s₀) (A.mn s₀)) (fun s => - atPair (A.mx s₀) (A.mn s₀) (sgn s) (A.mx s) (A.mn s)) A sgn (f :: l) =
            (- atPair (A.mx s₀) (A.mn s₀) (sgn f.1) (A.mx f.1) (A.mn f.1) + wt (atPair (A.mx s₀) (A.mn s₀)) A sgn f.1 f.2) +
            finW (atPair (A.mx s₀) (A.mn s₀)) (fun s => - atPair (A.mx s₀) (A.mn s₀) (sgn s) (A.mx s) (A.mn s)) A sgn l := by
          simp [finW]
        rw [e2, ih fun f hf => hl f (by simp [hf]), wt, esum_atPair_zero _ _ _ h2, h1]
        cases sgn s₀ <;> simp [atPair] <;> ring
    rw [e fin fun f hf => ⟨hall f hf, hnot f hf⟩] at h
    cases hs : sgn s₀ <;> rw [hs] at h <;> simp at h <;> exact_mod_cast h
  obtain ⟨f, hf⟩ := List.length_eq_one_iff.1 hone
  obtain ⟨s, ns⟩ := f
  have hs : s = s₀ := hall (s, ns) (by rw [hf]; simp)
  subst hs
  refine ⟨ns, hf, fun s₁ hs₁ hne => ?_⟩
  by_contra hmem
  have h := D.fin_pairs hpot hs₁
  have hb : ¬ (A.mx s = A.mx s₁ ∧ A.mn s = A.mn s₁) := by
    rintro ⟨h1, h2⟩
    refine hne.symm (hI.sinj s hs₀ s₁ hs₁ ?_)
    exact Prod.ext (by rw [← D.whole.mnC s hs₀, ← D.whole.mnC s₁ hs₁, h2]) (by rw [← (hI.mxN s hs₀).2, ← (hI.mxN s₁ hs₁).2, h1])
  rw [hf] at h
  have e2 : finW (atPair (A.mx s₁) (A.mn s₁)) (fun s => - atPair (A.mx s₁) (A.mn s₁) (sgn s) (A.mx s) (A.mn s)) A sgn [(s, ns)] =
      - atPair (A.mx s₁) (A.mn s₁) (sgn s) (A.mx s) (A.mn s) + wt (atPair (A.mx s₁) (A.mn s₁)) A sgn s ns := by
    simp [finW]
  rw [e2, wt, esum_atPair_zero _ _ _ hmem] at h
  have : atPair (A.mx s₁) (A.mn s₁) (sgn s) (A.mx s) (A.mn s) = 0 := by simp [atPair, hb]
  rw [this] at h
  cases hs : sgn s₁ <;> rw [hs] at h <;> simp at h

variable [DecidableEq I]

/-- A polygon that goes down in one chain is handed to `build_fans` as that chain. -/
theorem one_chain {x y : I × Coords K} {L : List (I × Coords K)} (hd : Describes p xy [x :: y :: L])
    (hv : ValidPolys [(x :: y :: L).map Prod.snd]) (hdown : (x :: y :: L).Pairwise fun a b => below b.2 a.2) (cfg : Cfg)
    (hcfg : cfg.Valid) :
    ∃ st N, (∀ fuel ≥ N, trapezoidize cfg fuel p xy = .ok st) ∧ ∀ fuel ≥ N,
      triangulateInnerB fuel p xy st = ⟨[⟨x, y :: L, true, true⟩], .ok ()⟩ := by
  classical
  obtain ⟨w, hw1, hw2⟩ := exists_sky [(x :: y :: L).map Prod.snd]
  obtain ⟨P, hctx, hU, hE, ε, hε, hh, hX⟩ := exists_polysCtx hd (by simpa using hv) (ghosts := [w]) (by
    intro x hx
    rw [List.mem_singleton] at hx; subst hx; exact hw1)
  obtain ⟨N, A, st, hr, hall⟩ := trapezoidize_run hctx cfg.order cfg.mathN hcfg
  have hG := hall.glob
  have hI := hG.inv
  have hwU : P.U w := (hU w).2 (.inr (by simp))
  have hsky : Sky P A := by
    refine ⟨w, hwU, fun n hn => ?_⟩
    refine (P.h_lt (hI.cU n hn) hwU).1 (.inl ?_)
    obtain ⟨g, hg, v, hv', h⟩ := hall.cs n hn
    rw [List.mem_singleton] at hg
    subst hg
    rw [h]
    exact hw2 _ (List.mem_flatten.2 ⟨_, List.mem_singleton.2 rfl, List.mem_map.2 ⟨v, hv', rfl⟩⟩)
  obtain ⟨key, lab, sgn, D, hkey⟩ := hall.dfs hctx.poly hsky (by simp)
  have htsL : st.ts.length = A.M := hG.link.tsL
  obtain ⟨fin, hrun, hfin, hpot⟩ := D.inner hG.qry htsL
  have hkm : ∀ n < A.N, key n ∈ x :: y :: L := fun n hn => by
    simpa using key_mem hd (hr cfg rfl rfl N le_rfl) D.src hkey hn
  have hnd : (x :: y :: L).Nodup := hdown.imp fun h e => by subst e; exact below_irrefl _ h
  have hdist : ([x :: y :: L].flatten.map (·.2)).Nodup := by
    have := hv.distinct
    simpa using this
  have h3 : ∀ g ∈ [x :: y :: L], 3 ≤ g.length := by
    intro g hg
    rw [List.mem_singleton] at hg
    subst hg
    simpa using hv.three _ (List.mem_singleton.2 rfl)
  have hperm := hall.edges_perm D.whole D.keyc (by simpa using hkm) hdist h3
  have hedge : ∀ s < A.S, ∃ e ∈ cycleEdges (x :: y :: L), loHi A key s = sortP e := by
    intro s hs
    have := hperm.mem_iff.1 (List.mem_map.2 ⟨s, List.mem_range.2 hs, rfl⟩)
    obtain ⟨e, he, h⟩ := List.mem_map.1 this
    exact ⟨e, by simpa using he, h.symm⟩
  have hhas : ∀ e ∈ cycleEdges (x :: y :: L), ∃ s < A.S, loHi A key s = sortP e := by
    intro e he
    have := hperm.mem_iff.2 (List.mem_map.2 ⟨e, by simpa using he, rfl⟩)
    obtain ⟨s, hs, h⟩ := List.mem_map.1 this
    exact ⟨s, List.mem_range.1 hs, h⟩
  -- the base
  obtain ⟨L0, z, hz⟩ : ∃ L0 z, y :: L = L0 ++ [z] := by
    rcases List.eq_nil_or_concat' (y :: L) with h | ⟨L0, z, h⟩
    · cases h
    · exact ⟨L0, z, h⟩
  have hcyc : ∀ e, e ∈ cycleEdges (x :: y :: L) ↔ e ∈ pairs (x :: y :: L) ∨ e = (z, x) := by
    intro e
    rw [cycleEdges_eq, hz, show x :: (L0 ++ [z]) ++ [x] = (x :: L0) ++ z :: [x] by simp, pairs_append]
    simp [pairs]
  have hzx : below z.2 x.2 := (List.pairwise_cons.1 hdown).1 z (by rw [hz]; simp)
  have hsortP : ∀ a b : I × Coords K, below a.2 b.2 → sortP (a, b) = (a, b) ∧ sortP (b, a) = (a, b) := by
    intro a b hab
    have h1 : a.2.ltB b.2 = true := ltB_exact.2 hab
    have h2 : ¬ b.2.ltB a.2 = true := fun h => below_irrefl _ (below_trans hab (ltB_exact.1 h))
    exact ⟨by simp [sortP, h1], by simp [sortP, h2]⟩
  obtain ⟨s₀, hs₀, hbase⟩ := hhas (z, x) ((hcyc _).2 (.inr rfl))
  rw [(hsortP z x hzx).1] at hbase
  have hinj : ∀ s < A.S, ∀ s' < A.S, loHi A key s = loHi A key s' → s = s' := by
    intro s hs s' hs' h
    refine hI.sinj s hs s' hs' ?_
    rw [← loHi_snd D.whole D.keyc hs, ← loHi_snd D.whole D.keyc hs', h]
  -- the other edges pass no vertex
  have hother : ∀ s < A.S, s ≠ s₀ → ∃ X Y a b, x :: y :: L = X ++ a :: b :: Y ∧ loHi A key s = (b, a) := by
    intro s hs hne
    obtain ⟨⟨a, b⟩, he, h⟩ := hedge s hs
    rcases (hcyc _).1 he with h' | h'
    · obtain ⟨X, Y, e⟩ := mem_pairs.1 h'
      refine ⟨X, Y, a, b, e, ?_⟩
      have hab : below b.2 a.2 := by
        rw [e] at hdown
        have := (List.pairwise_append.1 hdown).2.1
        exact (List.pairwise_cons.1 this).1 b (by simp)
      rw [h, (hsortP b a hab).2]
    · cases h'
      rw [(hsortP z x hzx).1, ← hbase] at h
      exact absurd (hinj s hs s₀ hs₀ h) hne
  have hall0 : ∀ f ∈ fin, f.1 = s₀ := by
    intro f hf
    by_contra hne
    obtain ⟨inner, e1, e2, hm⟩ := D.mountain hh hX (hfin f hf)
    obtain ⟨X, Y, a, b, e, hlo⟩ := hother f.1 (hfin f hf).S hne
    obtain ⟨v, inner', rfl⟩ := List.exists_cons_of_ne_nil e2
    have hvN : v < A.N := ((hfin f hf).ch.side v (by rw [e1]; simp)).1
    simp only [loHi, Prod.mk.injEq] at hlo
    have hdn := hm.down
    rw [hlo.1, hlo.2] at hdn
    simp only [List.map_cons, List.cons_append, List.pairwise_cons] at hdn
    have hva : below (key v).2 a.2 := hdn.1 _ (by simp)
    have hbv : below b.2 (key v).2 := hdn.2.1 _ (by simp)
    have hmem := hkm v hvN
    rw [e] at hmem hdown
    obtain ⟨-, hp2, hp3⟩ := List.pairwise_append.1 hdown
    rw [List.pairwise_cons, List.pairwise_cons] at hp2
    rcases List.mem_append.1 hmem with h | h
    · exact below_irrefl _ (below_trans hva (hp3 _ h a (by simp)))
    · rcases List.mem_cons.1 h with h | h
      · rw [h] at hva; exact below_irrefl _ hva
      · rcases List.mem_cons.1 h with h | h
        · rw [h] at hbv; exact below_irrefl _ hbv
        · exact below_irrefl _ (below_trans hbv (hp2.2.1 _ h))
  obtain ⟨ns, hone, hpairs⟩ := D.fin_single hfin hpot hs₀ hall0
  have hok := hfin (s₀, ns) (by rw [hone]; simp)
  obtain ⟨inner, e1, e2, hm⟩ := D.mountain hh hX hok
  simp only at e1 hm
  have hlist : (A.mx s₀ :: ns).map key = x :: y :: L := by
    have hd1 : ((A.mx s₀ :: ns).map key).Pairwise fun a b => below b.2 a.2 := by
      have := hm.down
      rw [e1, ← List.pairwise_map (f := Prod.snd) (R := fun a b => below b a)]
      simpa using this
    refine List.Perm.eq_of_pairwise (fun a b _ _ h1 h2 => absurd (below_trans h1 h2) (below_irrefl _)) hd1 hdown ?_
    refine (List.perm_ext_iff_of_nodup (hd1.imp fun h e => by subst e; exact below_irrefl _ h) hnd).2 fun v =>
      ⟨fun hv => ?_, fun hv => ?_⟩
    · obtain ⟨n, hn, rfl⟩ := List.mem_map.1 hv
      refine hkm n ?_
      rcases List.mem_cons.1 hn with rfl | hn
      · exact (hI.mxN s₀ hs₀).1
      · exact (hok.ch.side n hn).1
    · -- an edge other than the base at `v`
      have hpair : ∀ a b, (a, b) ∈ pairs (x :: y :: L) → a ∈ (A.mx s₀ :: ns).map key ∧ b ∈ (A.mx s₀ :: ns).map key := by
        intro a b hab
        have hab' : below b.2 a.2 := by
          obtain ⟨X, Y, e⟩ := mem_pairs.1 hab
          rw [e] at hdown
          exact (List.pairwise_cons.1 (List.pairwise_append.1 hdown).2.1).1 b (by simp)
        obtain ⟨s, hs, h⟩ := hhas (a, b) ((hcyc _).2 (.inl hab))
        rw [(hsortP b a hab').2] at h
        have hne : s ≠ s₀ := by
          rintro rfl
          rw [hbase] at h
          simp only [Prod.mk.injEq] at h
          obtain ⟨rfl, rfl⟩ := h
          -- a chain of three vertices or more
          obtain ⟨X, Y, e⟩ := mem_pairs.1 hab
          have hX : X = [] := by
            cases X with
            | nil => rfl
            | cons x' X =>
              simp only [List.cons_append, List.cons.injEq] at e
              rw [e.2] at hnd
              simp only [List.nodup_cons] at hnd
              exact absurd (by simp) hnd.1
          subst hX
          have h3' := h3 _ (List.mem_singleton.2 rfl)
          simp only [List.nil_append, List.cons.injEq, true_and] at e
          rw [hz] at hnd
          cases L0 with
          | nil =>
            simp only [List.nil_append, List.cons.injEq] at hz
            rw [hz.2] at h3'
            simp at h3'
          | cons l L0 =>
            simp only [List.cons_append, List.cons.injEq] at hz
            rw [← hz.1, e.1] at hnd
            simp at hnd
        have := hpairs s hs hne
        obtain ⟨X, Y, e⟩ := mem_pairs.1 this
        simp only [loHi, Prod.mk.injEq] at h
        rw [← h.1, ← h.2, e]
        exact ⟨List.mem_map.2 ⟨_, by simp, rfl⟩, List.mem_map.2 ⟨_, by simp, rfl⟩⟩
      obtain ⟨X, Y, e⟩ := List.append_of_mem hv
      cases Y with
      | cons b Y => exact (hpair v b (mem_pairs.2 ⟨X, Y, e⟩)).1
      | nil =>
        rcases List.eq_nil_or_concat' X with rfl | ⟨X, a, rfl⟩
        · have := congrArg List.length e
          simp at this
        · exact (hpair a v (mem_pairs.2 ⟨X, [], by rw [e]; simp⟩)).2
  have hB : toB key A (s₀, ns) = ⟨x, y :: L, true, true⟩ := by
    rw [e1, toB_mountain e2 hm]
    rw [e1] at hlist
    simp only [List.map_cons, List.map_append, List.map_nil, List.cons.injEq] at hlist
    rw [hlist.1, ← hlist.2]
  obtain ⟨M, hM⟩ := (show ∃ M, ∀ fuel ≥ M, topTrapezoid st.qs fuel 0 ≠ .error .timeout by
    obtain ⟨top, htop, -⟩ := hG.qry.top
    obtain ⟨M, hM⟩ := htop.trapezoid
    exact ⟨M, fun fuel hf => by rw [hM fuel hf]; simp⟩)
  refine ⟨st, max N (max M A.M), fun fuel hf => hr cfg rfl rfl fuel (le_trans (le_max_left _ _) hf), fun fuel hf => ?_⟩
  rw [hrun fuel (hM fuel (by omega)) (by omega), hone]
  simp only [List.map_cons, List.map_nil, hB]

/-- A successful run ends the loop over that chain. -/
theorem one_chain_ends {x y : I × Coords K} {L : List (I × Coords K)} (hd : Describes p xy [x :: y :: L])
    (hv : ValidPolys [(x :: y :: L).map Prod.snd]) (hdown : (x :: y :: L).Pairwise fun a b => below b.2 a.2) (cfg : Cfg)
    (hcfg : cfg.Valid) (F : FanFormat I) {fuel' fuel : Nat} {st : St I K} (hst : trapezoidize cfg fuel' p xy = .ok st) {o : F.O}
    (h : (st.triangulate fuel p xy F).2 = .ok o) :
    ∃ M : Mono I K, Rep M [y, x] [] L ∧ M.isLeftChain = isLeftOfLine ((y :: L).getLast (by simp)).2 x.2 y.2 ∧
      Ends F.winding fuel M := by
  obtain ⟨st', N, h1, h2⟩ := one_chain hd hv hdown cfg hcfg
  have hst' : st = st' := by
    rcases trapezoidize_fle cfg p xy (Nat.le_max_left fuel' N) with h' | h'
    · rw [hst] at h'
      cases h'
    · rw [hst, h1 _ (Nat.le_max_right _ _)] at h'
      cases h'; rfl
  subst hst'
  rw [triangulate_eq_play] at h
  have hres : (innerTrace F.winding fuel p xy st).res = .ok () := by
    rcases hr : (innerTrace F.winding fuel p xy st).res with e | u
    · rw [hr] at h
      exfalso
      unfold play at h
      split at h
      · split at h
        · cases h
        · split at h
          · cases e <;> cases h
          · rename_i e' _
            cases e' <;> cases h
      · cases h
    · rfl
  rw [← BM.run_inner] at hres
  have hB : triangulateInnerB fuel p xy st = ⟨[⟨x, y :: L, true, true⟩], .ok ()⟩ := by
    have hnt : (triangulateInnerB fuel p xy st).res ≠ .error .timeout := by
      intro h'
      unfold BM.run at hres
      rw [h', TrM.res_bind] at hres
      split at hres <;> cases hres
    rw [← inner_fixed p xy st fuel hnt _ (Nat.le_max_left fuel N), h2 _ (Nat.le_max_right _ _)]
  rw [hB] at hres
  change ((finishMonotone (m := TrM I) F.winding fuel ⟨x, y :: L, true, true⟩ >>= fun _ => (⟨[], .ok ()⟩ : TrM I Unit)) >>=
    fun _ => FanM.lift (.ok ())).res = _ at hres
  have hfm : (finishMonotone (m := TrM I) F.winding fuel ⟨x, y :: L, true, true⟩).res = .ok () := by
    rcases hr : (finishMonotone (m := TrM I) F.winding fuel ⟨x, y :: L, true, true⟩).res with e | u
    · rw [TrM.res_bind, TrM.res_bind, hr] at hres
      cases hres
    · rfl
  have h3 : 3 ≤ (x :: y :: L).length := by simpa using hv.three _ (List.mem_singleton.2 rfl)
  obtain ⟨z, L, rfl⟩ : ∃ z L', L = z :: L' := by
    cases L with
    | nil => simp at h3
    | cons z L => exact ⟨z, L, rfl⟩
  refine ⟨⟨x :: y :: z :: L, 2, 2, isLeftOfLine ((z :: L).getLast (by simp)).2 x.2 y.2⟩, ⟨rfl, rfl, rfl⟩, rfl, ?_⟩
  exact hfm

end Tri
