import Verif.Proof.Level
import Verif.Proof.ChainSum
import Verif.Proof.Traverse

/-!
# The chains of a descent through the trapezoids

Every segment has one chain, along its inside: the vertices that trapezoids share with it, from its upper end to its
lower end.
-/

set_option linter.unusedSectionVars false

namespace Tri

variable {I V K : Type} [Field K] [LinearOrder K] [IsStrictOrderedRing K]

attribute [local instance] exact

/-- The chain builder fed with the vertices `f :: ns`. -/
def chn (key : Nat → I × Coords K) (f : Nat) (ns : List Nat) : MonoB I K :=
  ns.foldl (fun b n => b.addVertex (key n).1 (key n).2) (MonoB.new (key f).1 (key f).2)

theorem chn_snoc (key : Nat → I × Coords K) (f : Nat) (ns : List Nat) (d : Nat) :
    chn key f (ns ++ [d]) = (chn key f ns).addVertex (key d).1 (key d).2 := by
  simp [chn, List.foldl_append]

/-- The current chains in a trapezoid, given the chains of its left and right sides. -/
def comb (key : Nat → I × Coords K) (f : Nat) (ns : List Nat) (f' : Nat) (ns' : List Nat) : Ot (MonoB I K) :=
  if ns = [] then .one (chn key f' ns') else if ns' = [] then .one (chn key f ns) else .two (chn key f ns) (chn key f' ns')

/-- What is known of the traversal of the trapezoids. -/
structure Dfs (P : Plane K) (p : PolyList I V) (xy : V → Coords K) (A : Abs K) (st : St I K) (key : Nat → I × Coords K)
    (lab sgn : Nat → Bool) : Prop where
  whole : Whole P A
  sky : Sky P A
  labs : Lab A lab
  sgns : Sgn A lab sgn
  ts : ∀ i < A.M, ∃ t, st.ts[i]? = some t ∧ A.T i = ⟨t.left, t.right, t.down, t.up⟩
  ss : ∀ i < A.S, ∃ s, st.ss[i]? = some s ∧ s.niMin = A.mn i ∧ s.niMax = A.mx i
  ns : ∀ n < A.N, ∃ nx, st.ns[n]? = some nx ∧ nx.vi = (key n).1 ∧ nx.c = (key n).2 ∧
    (∀ u dl dc dr s0 s1, KA P A n u dl dc dr s0 s1 → nx.finalType = .ok (.A u dl dc dr)) ∧
    (∀ ul ur dl dr s0 s1, KI P A n ul ur dl dr s0 s1 → nx.finalType = .ok (.I ul ur dl dr)) ∧
    ∀ ul uc ur d s0 s1, KV P A n ul uc ur d s0 s1 → nx.finalType = .ok (.V ul uc ur d)
  src : ∀ n < A.N, p.coords (ε := IErr) xy (key n).1 = .ok (key n).2
  keyc : ∀ n < A.N, (key n).2 = A.c n

variable {P : Plane K} {p : PolyList I V} {xy : V → Coords K} {A : Abs K} {st : St I K} {key : Nat → I × Coords K}
  {lab sgn : Nat → Bool}

theorem addToAll_comb (f : Nat) (ns : List Nat) (f' : Nat) (ns' : List Nat) (d : Nat) :
    addToAll (comb key f ns f' ns') (key d).1 (key d).2 =
      if ns = [] then .one (chn key f' (ns' ++ [d])) else if ns' = [] then .one (chn key f (ns ++ [d]))
      else .two (chn key f (ns ++ [d])) (chn key f' (ns' ++ [d])) := by
  unfold comb
  split
  · rw [chn_snoc]; rfl
  · split
    · rw [chn_snoc]; rfl
    · rw [chn_snoc, chn_snoc]; rfl

/-- What a step does to the current chains. -/
theorem advance_run (D : Dfs P p xy A st key lab sgn) {t l r u d : Nat} {tr : Trapezoid} {nd : Nexus I K} (htM : t < A.M)
    (ht : A.T t = ⟨tr.left, tr.right, tr.down, tr.up⟩) (hl : (A.T t).left = some l) (hr : (A.T t).right = some r)
    (hu : (A.T t).up = some u) (hvi : nd.vi = (key d).1) (hc : nd.c = (key d).2)
    {nsL nsR : List Nat} (hL : nsL = [] ↔ u = A.mx l) (hR : nsR = [] ↔ u = A.mx r) :
    advanceMonotonesB p xy st tr d nd (comb key (A.mx l) nsL (A.mx r) nsR) =
      if d = A.mn l ∧ d ≠ A.mn r then
        ⟨if nsL = [] then [] else [chn key (A.mx l) (nsL ++ [d])], .ok (some (.one (chn key (A.mx r) (nsR ++ [d]))))⟩
      else if d = A.mn r ∧ d ≠ A.mn l then
        ⟨if nsR = [] then [] else [chn key (A.mx r) (nsR ++ [d])], .ok (some (.one (chn key (A.mx l) (nsL ++ [d]))))⟩
      else ⟨[], .ok (some (if nsL = [] then .one (chn key (A.mx r) (nsR ++ [d])) else
        if nsR = [] then .one (chn key (A.mx l) (nsL ++ [d])) else
          .two (chn key (A.mx l) (nsL ++ [d])) (chn key (A.mx r) (nsR ++ [d]))))⟩ := by
  have hI := D.whole.inv
  obtain ⟨sl, hsl, el1, el2⟩ := D.ss l (hI.leftS t htM l hl)
  obtain ⟨sr, hsr, er1, er2⟩ := D.ss r (hI.rightS t htM r hr)
  have huN := (hI.upM t htM u hu).1
  obtain ⟨nu, hnu, eu1, eu2, -⟩ := D.ns u huN
  rw [ht] at hl hr hu
  simp only at hl hr hu
  have gl : (okInner tr.left >>= getP st.ss) = .ok sl := by rw [hl]; simp [okInner, getP, hsl, bind, Except.bind]
  have gr : (okInner tr.right >>= getP st.ss) = .ok sr := by rw [hr]; simp [okInner, getP, hsr, bind, Except.bind]
  have gu : okInner tr.up = .ok u := by rw [hu]; rfl
  unfold advanceMonotonesB
  rw [gl, gr, gu]
  simp only [BM.lift_ok_bind]
  rw [hvi, hc, addToAll_comb]
  unfold splitCompleted
  rw [el1, el2, er1, er2]
  have hrest : restartMonotone p xy st u nd (none : Option (Ot (MonoB I K))) = .ok (some (.one (chn key u [d]))) := by
    unfold restartMonotone
    simp only [getP, hnu, bind, Except.bind]
    rw [eu1, D.src u huN, hvi, hc]
    rfl
  by_cases h1 : d = A.mn l <;> by_cases h2 : d = A.mn r
  · have c1 : ¬ (d = A.mn l ∧ d ≠ A.mn r ∧ u ≠ A.mx l) := fun h => h.2.1 h2
    have c2 : ¬ (d = A.mn r ∧ d ≠ A.mn l ∧ u ≠ A.mx r) := fun h => h.2.1 h1
    have c3 : ¬ (d = A.mn l ∧ d ≠ A.mn r) := fun h => h.2 h2
    have c4 : ¬ (d = A.mn r ∧ d ≠ A.mn l) := fun h => h.2 h1
    rw [if_neg c1, if_neg c2, if_neg c3, if_neg c4]
    rfl
  · have c2 : ¬ (d = A.mn r ∧ d ≠ A.mn l ∧ u ≠ A.mx r) := fun h => h2 h.1
    rw [if_pos (⟨h1, h2⟩ : d = A.mn l ∧ d ≠ A.mn r), if_neg c2]
    by_cases hn : nsL = []
    · have c1 : ¬ (d = A.mn l ∧ d ≠ A.mn r ∧ u ≠ A.mx l) := fun h => h.2.2 (hL.1 hn)
      rw [if_neg c1, if_pos hn, if_pos hn]
      rfl
    · have c1 : d = A.mn l ∧ d ≠ A.mn r ∧ u ≠ A.mx l := ⟨h1, h2, fun h => hn (hL.2 h)⟩
      rw [if_pos c1, if_neg hn, if_neg hn]
      by_cases hm : nsR = []
      · rw [if_pos hm]
        simp only [BM.finish, BM.mk_ok_bind, hrest, BM.lift]
        rw [hm, hR.1 hm]; rfl
      · rw [if_neg hm]
        simp only [BM.finish, BM.mk_ok_bind, restartMonotone, BM.lift]
        rfl
  · have c1 : ¬ (d = A.mn l ∧ d ≠ A.mn r ∧ u ≠ A.mx l) := fun h => h1 h.1
    have c3 : ¬ (d = A.mn l ∧ d ≠ A.mn r) := fun h => h1 h.1
    rw [if_neg c1, if_neg c3, if_pos (⟨h2, h1⟩ : d = A.mn r ∧ d ≠ A.mn l)]
    by_cases hm : nsR = []
    · have c2 : ¬ (d = A.mn r ∧ d ≠ A.mn l ∧ u ≠ A.mx r) := fun h => h.2.2 (hR.1 hm)
      rw [if_neg c2, if_pos hm, if_pos hm]
      by_cases hn : nsL = []
      · rw [if_pos hn, hn, hm, ← hL.1 hn, ← hR.1 hm]; rfl
      · rw [if_neg hn]; rfl
    · have c2 : d = A.mn r ∧ d ≠ A.mn l ∧ u ≠ A.mx r := ⟨h2, h1, fun h => hm (hR.2 h)⟩
      rw [if_pos c2, if_neg hm, if_neg hm]
      by_cases hn : nsL = []
      · rw [if_pos hn]
        simp only [BM.finish, BM.mk_ok_bind, hrest, BM.lift]
        rw [hn, hL.1 hn]; rfl
      · rw [if_neg hn]
        simp only [BM.finish, BM.mk_ok_bind, restartMonotone, BM.lift]
        rfl
  · have c1 : ¬ (d = A.mn l ∧ d ≠ A.mn r ∧ u ≠ A.mx l) := fun h => h1 h.1
    have c2 : ¬ (d = A.mn r ∧ d ≠ A.mn l ∧ u ≠ A.mx r) := fun h => h2 h.1
    have c3 : ¬ (d = A.mn l ∧ d ≠ A.mn r) := fun h => h1 h.1
    have c4 : ¬ (d = A.mn r ∧ d ≠ A.mn l) := fun h => h2 h.1
    rw [if_neg c1, if_neg c2, if_neg c3, if_neg c4]
    rfl

end Tri
