import Mathlib.Data.List.Forall2
import Verif.Proof.Chains

/-!
# The descent through the trapezoids

The trapezoids still to be visited and those that wait at a `V` vertex form a row from left to right.
-/

set_option linter.unusedSectionVars false

namespace Tri

variable {I V K : Type} [Field K] [LinearOrder K] [IsStrictOrderedRing K]

attribute [local instance] exact

variable {P : Plane K} {p : PolyList I V} {xy : V → Coords K} {A : Abs K} {st : St I K} {key : Nat → I × Coords K}
  {lab sgn : Nat → Bool}

/-! ## Chains -/

/-- Segment `s` passes vertex `v`, with `v` on the inside. -/
def Side (P : Plane K) (A : Abs K) (sgn : Nat → Bool) (s v : Nat) : Prop := if sgn s then PassL P A v s else PassR P A v s

/-- The vertices `ns` along segment `s`, below its upper end and down to `u`. -/
structure Ch (P : Plane K) (A : Abs K) (sgn : Nat → Bool) (s u : Nat) (ns : List Nat) : Prop where
  last : (A.mx s :: ns).getLast? = some u
  desc : (A.mx s :: ns).Pairwise fun a b => P.h (A.c b) < P.h (A.c a)
  side : ∀ v ∈ ns, v < A.N ∧ (v ≠ A.mn s → Side P A sgn s v)

theorem Ch.nil (s : Nat) : Ch P A sgn s (A.mx s) [] := ⟨rfl, by simp, by simp⟩

theorem pairwise_last {α : Type} {R : α → α → Prop} {l : List α} (h : l.Pairwise R) {u : α} (hu : l.getLast? = some u) {a : α}
    (ha : a ∈ l) : a = u ∨ R a u := by
  rw [List.getLast?_eq_some_iff] at hu
  obtain ⟨l', rfl⟩ := hu
  rcases List.mem_append.1 ha with h' | h'
  · exact .inr ((List.pairwise_append.1 h).2.2 a h' u (by simp))
  · exact .inl (by simpa using h')

theorem Ch.snoc {s u d : Nat} {ns : List Nat} (h : Ch P A sgn s u ns) (hd : d < A.N) (hlt : P.h (A.c d) < P.h (A.c u))
    (hs : d ≠ A.mn s → Side P A sgn s d) : Ch P A sgn s d (ns ++ [d]) where
  last := by rw [← List.cons_append, List.getLast?_concat]
  desc := by
    rw [← List.cons_append, List.pairwise_append]
    refine ⟨h.desc, by simp, fun a ha b hb => ?_⟩
    have : b = d := by simpa using hb
    subst this
    rcases pairwise_last h.desc h.last ha with rfl | h'
    · exact hlt
    · exact hlt.trans h'
  side v hv := by
    rcases List.mem_append.1 hv with hv | hv
    · exact h.side v hv
    · have : v = d := by simpa using hv
      subst this; exact ⟨hd, hs⟩

theorem Ch.nil_iff {s u : Nat} {ns : List Nat} (h : Ch P A sgn s u ns) : ns = [] ↔ u = A.mx s := by
  constructor
  · rintro rfl; simpa using h.last.symm
  · rintro rfl
    by_contra hne
    obtain ⟨l, x, rfl⟩ := List.eq_nil_or_concat' ns |>.resolve_left hne
    have hx : x = A.mx s := by
      have := h.last
      rw [← List.cons_append, List.getLast?_concat] at this
      exact Option.some.inj this
    have := (List.pairwise_cons.1 h.desc).1 x (by simp)
    rw [hx] at this
    exact lt_irrefl _ this

/-! ## Weights -/

section weight
variable {G : Type} [AddCommGroup G]

/-- The weight of a chain without its base. -/
def wt (g : Bool → Nat → Nat → G) (A : Abs K) (sgn : Nat → Bool) (s : Nat) (ns : List Nat) : G :=
  esum (g (sgn s)) (pairs (A.mx s :: ns))

@[simp] theorem wt_nil (g : Bool → Nat → Nat → G) (s : Nat) : wt g A sgn s [] = 0 := rfl

theorem pairs_snoc {α : Type} {l : List α} {u d : α} (h : l.getLast? = some u) : pairs (l ++ [d]) = pairs l ++ [(u, d)] := by
  rw [List.getLast?_eq_some_iff] at h
  obtain ⟨l', rfl⟩ := h
  rw [List.append_assoc, List.singleton_append, pairs_append]; rfl

theorem Ch.wt_snoc {s u d : Nat} {ns : List Nat} (h : Ch P A sgn s u ns) (g : Bool → Nat → Nat → G) :
    wt g A sgn s (ns ++ [d]) = wt g A sgn s ns + g (sgn s) u d := by
  unfold wt
  rw [← List.cons_append, pairs_snoc h.last, esum_append]
  simp [Tri.esum]

/-- A finished chain, if it has at least three vertices. -/
def newFin (s : Nat) (ns : List Nat) (d : Nat) : List (Nat × List Nat) := if ns = [] then [] else [(s, ns ++ [d])]

/-- The weights of finished chains. -/
def finW (g : Bool → Nat → Nat → G) (β : Nat → G) (A : Abs K) (sgn : Nat → Bool) (fin : List (Nat × List Nat)) : G :=
  (fin.map fun f => β f.1 + wt g A sgn f.1 f.2).sum

theorem finW_append (g : Bool → Nat → Nat → G) (β : Nat → G) (a b : List (Nat × List Nat)) :
    finW g β A sgn (a ++ b) = finW g β A sgn a + finW g β A sgn b := by simp [finW]

/-- Chains of two vertices weigh nothing. -/
def Deg (g : Bool → Nat → Nat → G) (β : Nat → G) (A : Abs K) (sgn : Nat → Bool) : Prop :=
  ∀ s < A.S, β s + g (sgn s) (A.mx s) (A.mn s) = 0

theorem Ch.newFin_wt {s u d : Nat} {ns : List Nat} (h : Ch P A sgn s u ns) {g : Bool → Nat → Nat → G} {β : Nat → G}
    (hdeg : Deg g β A sgn) (hs : s < A.S) (hd : A.mn s = d) :
    finW g β A sgn (newFin s ns d) = wt g A sgn s ns + g (sgn s) u d + β s := by
  unfold newFin
  split
  · rename_i hn
    have hu := h.nil_iff.1 hn
    subst hn hu
    have := hdeg s hs
    rw [hd] at this
    simp [finW, ← this, add_comm]
  · simp only [finW, List.map_cons, List.map_nil, List.sum_cons, List.sum_nil, h.wt_snoc]
    abel

end weight

/-- A finished chain. -/
structure FinOK (P : Plane K) (A : Abs K) (sgn : Nat → Bool) (f : Nat × List Nat) : Prop where
  S : f.1 < A.S
  ch : Ch P A sgn f.1 (A.mn f.1) f.2
  len : 2 ≤ f.2.length

theorem Ch.newFin_ok {s d : Nat} {ns : List Nat} (h : Ch P A sgn s d (ns ++ [d])) (hs : s < A.S) (hd : A.mn s = d) :
    ∀ f ∈ newFin s ns d, FinOK P A sgn f := by
  intro f hf
  unfold newFin at hf
  split at hf
  · simp at hf
  · rename_i hn
    have : f = (s, ns ++ [d]) := by simpa using hf
    subst this
    refine ⟨hs, by rw [hd]; exact h, ?_⟩
    have := List.length_pos_of_ne_nil hn
    simp; omega

/-- The builder of a finished chain. -/
def toB (key : Nat → I × Coords K) (A : Abs K) (f : Nat × List Nat) : MonoB I K := chn key (A.mx f.1) f.2

theorem toB_newFin (s : Nat) (ns : List Nat) (d : Nat) :
    (newFin s ns d).map (toB key A) = if ns = [] then [] else [chn key (A.mx s) (ns ++ [d])] := by
  unfold newFin; split <;> rfl

/-! ## Pending trapezoids -/

/-- A pending trapezoid and the chains of its sides. -/
structure PG where
  t : Nat
  L : List Nat
  R : List Nat

/-- A trapezoid that waits at a `V` vertex, and the chain of its left side. -/
structure KG where
  a : Nat
  L : List Nat

/-- A trapezoid inside the polygons has all its boundaries. -/
structure Ins (A : Abs K) (lab sgn : Nat → Bool) (t l r u d : Nat) : Prop where
  M : t < A.M
  lab : lab t = true
  left : (A.T t).left = some l
  right : (A.T t).right = some r
  up : (A.T t).up = some u
  down : (A.T t).down = some d
  sl : sgn l = true
  sr : sgn r = false

theorem Dfs.ins (D : Dfs P p xy A st key lab sgn) {t : Nat} (ht : t < A.M) (hl : lab t = true) : ∃ l r u d, Ins A lab sgn t l r u d := by
  have hI := D.whole.inv
  rcases h1 : (A.T t).left with _ | l
  · rw [D.labs.left t ht h1] at hl; cases hl
  rcases h2 : (A.T t).right with _ | r
  · rw [D.labs.right t ht h2] at hl; cases hl
  obtain ⟨h3, h4⟩ := hI.bnd t ht (.inl (by simp [h1]))
  obtain ⟨u, hu⟩ := Option.ne_none_iff_exists'.1 h3
  obtain ⟨d, hd⟩ := Option.ne_none_iff_exists'.1 h4
  refine ⟨l, r, u, d, ht, hl, h1, h2, hu, hd, ?_, ?_⟩
  · rw [← D.sgns.left t ht l h1, hl]
  · have := D.sgns.right t ht r h2
    rw [hl] at this
    cases h : sgn r
    · rfl
    · rw [h] at this; cases this

/-- The state of a pending trapezoid. -/
structure PendOK (P : Plane K) (A : Abs K) (key : Nat → I × Coords K) (lab sgn : Nat → Bool) (x : Nat × Option (Ot (MonoB I K)))
    (g : PG) : Prop where
  t : x.1 = g.t
  M : g.t < A.M
  out : lab g.t = false → x.2 = none ∧ g.L = [] ∧ g.R = []
  ins : ∀ l r u d, Ins A lab sgn g.t l r u d → Ch P A sgn l u g.L ∧ Ch P A sgn r u g.R ∧
    x.2 = some (comb key (A.mx l) g.L (A.mx r) g.R)

/-- The trapezoids that wait, last one first, and the stored chains. -/
def Stk (P : Plane K) (A : Abs K) (key : Nat → I × Coords K) (lab sgn : Nat → Bool) : List KG → List (MonoB I K) → Prop
  | [], mst => mst = []
  | k :: ks, mst => ∃ n < A.N, ∃ ul uc ur d s0 s1, KV P A n ul uc ur d s0 s1 ∧
    ((k.a = ul ∧ lab ul = true ∧ ∃ l mst', (A.T ul).left = some l ∧ Ch P A sgn l n k.L ∧ k.L ≠ [] ∧
        mst = chn key (A.mx l) k.L :: mst' ∧ Stk P A key lab sgn ks mst') ∨
      (k.a = ul ∧ lab ul = false ∧ k.L = [] ∧ Stk P A key lab sgn ks mst) ∨
      (k.a = uc ∧ k.L = [] ∧ Stk P A key lab sgn ks mst))

/-- `s'` continues `s` at an `I` vertex. -/
def Cont (P : Plane K) (A : Abs K) (s s' : Nat) : Prop :=
  ∃ n < A.N, ∃ ul ur dl dr, KI P A n ul ur dl dr s s'

/-- `s'` continues `s` over any number of vertices. -/
inductive Desc (P : Plane K) (A : Abs K) : Nat → Nat → Prop
  | refl (s : Nat) : Desc P A s s
  | head {s s1 s' : Nat} (h : Cont P A s s1) (h' : Desc P A s1 s') : Desc P A s s'

theorem Desc.snoc {s s' s'' : Nat} (h : Desc P A s s') (h' : Cont P A s' s'') : Desc P A s s'' := by
  induction h with
  | refl s => exact .head h' (.refl _)
  | head h _ ih => exact .head h (ih h')

/-- `b` is the right neighbour of `a`, or lies above the right neighbour. -/
def Adj (P : Plane K) (A : Abs K) (a b : Nat) : Prop :=
  ∃ s s', (A.T b).left = some s ∧ (A.T a).right = some s' ∧ Desc P A s s'

/-- The trapezoids on the left of `a`. -/
def RowL (P : Plane K) (A : Abs K) : Nat → List Nat → Prop
  | a, [] => (A.T a).left = none
  | a, b :: l => Adj P A b a ∧ RowL P A b l

/-- The trapezoids on the right of `a`. -/
def RowR (P : Plane K) (A : Abs K) : Nat → List Nat → Prop
  | a, [] => (A.T a).right = none
  | a, b :: l => Adj P A a b ∧ RowR P A b l

theorem RowL.congr {a b : Nat} (h : (A.T b).left = (A.T a).left) {l : List Nat} (hr : RowL P A a l) : RowL P A b l := by
  cases l with
  | nil => exact h.trans hr
  | cons c l =>
    obtain ⟨⟨s, s', h1, h2⟩, h3⟩ := hr
    exact ⟨⟨s, s', h.trans h1, h2⟩, h3⟩

theorem RowR.congr {a b : Nat} (h : (A.T b).right = (A.T a).right) {l : List Nat} (hr : RowR P A a l) : RowR P A b l := by
  cases l with
  | nil => exact h.trans hr
  | cons c l =>
    obtain ⟨⟨s, s', h1, h2, h4⟩, h3⟩ := hr
    exact ⟨⟨s, s', h1, h.trans h2, h4⟩, h3⟩

/-- The trapezoids entered from `t`. -/
def nexts (A : Abs K) (t : Nat) : List Nat :=
  match (A.T t).down with
  | none => []
  | some n =>
    match A.ups n, A.downs n with
    | [_], ds => ds
    | [ul, _], [dl, dr] => if t = ul then [dl] else [dr]
    | [_, _, ur], [d] => if t = ur then [d] else []
    | _, _ => []

section weight
variable {G : Type} [AddCommGroup G]

/-- The weight of the chains of a pending trapezoid. -/
def PG.wt (g : Bool → Nat → Nat → G) (A : Abs K) (sgn : Nat → Bool) (x : PG) : G :=
  Tri.wt g A sgn ((A.T x.t).left.getD 0) x.L + Tri.wt g A sgn ((A.T x.t).right.getD 0) x.R

/-- The weight of the chain of a waiting trapezoid. -/
def KG.wt (g : Bool → Nat → Nat → G) (A : Abs K) (sgn : Nat → Bool) (x : KG) : G := Tri.wt g A sgn ((A.T x.a).left.getD 0) x.L

/-- The weight a visit of `t` adds. -/
def visW (g : Bool → Nat → Nat → G) (β : Nat → G) (A : Abs K) (lab : Nat → Bool) (t : Nat) : G :=
  if lab t then
    g true ((A.T t).up.getD 0) ((A.T t).down.getD 0) + g false ((A.T t).up.getD 0) ((A.T t).down.getD 0) +
      (if (A.T t).down.getD 0 = A.mn ((A.T t).left.getD 0) then β ((A.T t).left.getD 0) else 0) +
      (if (A.T t).down.getD 0 = A.mn ((A.T t).right.getD 0) then β ((A.T t).right.getD 0) else 0)
  else 0

theorem Ins.visW {t l r u d : Nat} (h : Ins A lab sgn t l r u d) (g : Bool → Nat → Nat → G) (β : Nat → G) :
    visW g β A lab t = g true u d + g false u d + (if d = A.mn l then β l else 0) + (if d = A.mn r then β r else 0) := by
  simp [Tri.visW, h.lab, h.left, h.right, h.up, h.down]

end weight

/-- The state of the traversal. -/
structure Run (P : Plane K) (A : Abs K) (key : Nat → I × Coords K) (lab sgn : Nat → Bool) (top : Nat) (x : TI I K) (g0 : PG)
    (gs : List PG) (ks : List KG) (W : List Nat) (fin : List (Nat × List Nat)) : Prop where
  cur : PendOK P A key lab sgn (x.ti, x.monotones) g0
  rest : List.Forall₂ (PendOK P A key lab sgn) x.branchStack gs
  stk : Stk P A key lab sgn ks x.monotoneStack
  rowL : RowL P A x.ti (ks.map (·.a))
  rowR : RowR P A x.ti (gs.map (·.t))
  ent : (W ++ x.ti :: x.branchStack.map Prod.fst).Perm (top :: W.flatMap (nexts A))
  fins : ∀ f ∈ fin, FinOK P A sgn f
  pot : ∀ (G : Type) [AddCommGroup G] (g : Bool → Nat → Nat → G) (β : Nat → G), Deg g β A sgn →
    finW g β A sgn fin + (g0.wt g A sgn + (gs.map (·.wt g A sgn)).sum) + (ks.map (·.wt g A sgn)).sum =
      (W.map (visW g β A lab)).sum

/-! ## One step -/

theorem triStepB_out {x : TI I K} {tr : Trapezoid} {d : Nat} {nd : Nexus I K} {ft : FinalType} (hnd : st.ns[d]? = some nd)
    (hft : nd.finalType = .ok ft) (hm : x.monotones = none) : triStepB p xy st x tr d = descendB st x tr nd ft := by
  unfold triStepB updateMonotonesB
  simp only [getP, hnd, BM.lift_ok_bind, hm, hft, BM.pure_def, BM.mk_ok_bind, List.nil_append]

theorem triStepB_in {x x' : TI I K} {tr : Trapezoid} {d : Nat} {nd : Nexus I K} {ft : FinalType} {ms : Ot (MonoB I K)}
    {ms' : Option (Ot (MonoB I K))} {bs bs' : List (MonoB I K)} (hnd : st.ns[d]? = some nd)
    (hft : nd.finalType = .ok ft) (hm : x.monotones = some ms) (hadv : advanceMonotonesB p xy st tr d nd ms = ⟨bs, .ok ms'⟩)
    (hdes : descendB st { x with monotones := ms' } tr nd ft = ⟨bs', .ok x'⟩) :
    triStepB p xy st x tr d = ⟨bs ++ bs', .ok x'⟩ := by
  unfold triStepB updateMonotonesB
  simp only [getP, hnd, BM.lift_ok_bind, hm, hft, hadv, BM.pure_def, BM.mk_ok_bind, List.nil_append, List.append_nil, hdes]

theorem Run.next {top : Nat} {x x' : TI I K} {g0 g0' : PG} {gs gs' : List PG} {ks ks' : List KG} {W : List Nat}
    {fin new : List (Nat × List Nat)} (R : Run P A key lab sgn top x g0 gs ks W fin)
    (cur : PendOK P A key lab sgn (x'.ti, x'.monotones) g0')
    (rest : List.Forall₂ (PendOK P A key lab sgn) x'.branchStack gs')
    (stk : Stk P A key lab sgn ks' x'.monotoneStack)
    (rowL : RowL P A x'.ti (ks'.map (·.a)))
    (rowR : RowR P A x'.ti (gs'.map (·.t)))
    (ent : x'.ti :: x'.branchStack.map Prod.fst = nexts A x.ti ++ x.branchStack.map Prod.fst)
    (fins : ∀ f ∈ new, FinOK P A sgn f)
    (pot : ∀ (G : Type) [AddCommGroup G] (g : Bool → Nat → Nat → G) (β : Nat → G), Deg g β A sgn →
      finW g β A sgn new + (g0'.wt g A sgn + (gs'.map (·.wt g A sgn)).sum) + (ks'.map (·.wt g A sgn)).sum =
        (g0.wt g A sgn + (gs.map (·.wt g A sgn)).sum) + (ks.map (·.wt g A sgn)).sum + visW g β A lab x.ti) :
    Run P A key lab sgn top x' g0' gs' ks' (x.ti :: W) (fin ++ new) where
  cur := cur
  rest := rest
  stk := stk
  rowL := rowL
  rowR := rowR
  ent := by
    rw [ent, List.flatMap_cons]
    have h := R.ent
    have h1 : (x.ti :: W ++ (nexts A x.ti ++ x.branchStack.map Prod.fst)).Perm
        (nexts A x.ti ++ (W ++ x.ti :: x.branchStack.map Prod.fst)) := by
      rw [← List.append_assoc]
      refine (List.Perm.append_right _ List.perm_append_comm).trans ?_
      rw [List.append_assoc]
      refine List.Perm.append_left _ ?_
      rw [List.cons_append]
      exact List.perm_middle.symm
    refine h1.trans ((List.Perm.append_left _ h).trans ?_)
    exact List.perm_middle
  fins f hf := by
    rcases List.mem_append.1 hf with h | h
    · exact R.fins f h
    · exact fins f h
  pot G _ g β hd := by
    have h1 := R.pot G g β hd
    have h2 := pot G g β hd
    rw [finW_append, List.map_cons, List.sum_cons, ← h1]
    have : finW g β A sgn fin + finW g β A sgn new + (g0'.wt g A sgn + (gs'.map (·.wt g A sgn)).sum) +
        (ks'.map (·.wt g A sgn)).sum = finW g β A sgn fin + (finW g β A sgn new +
        (g0'.wt g A sgn + (gs'.map (·.wt g A sgn)).sum) + (ks'.map (·.wt g A sgn)).sum) := by abel
    rw [this, h2]
    abel

theorem Ins.chL (D : Dfs P p xy A st key lab sgn) {t l r u d : Nat} (h : Ins A lab sgn t l r u d) {L : List Nat}
    (hc : Ch P A sgn l u L) : Ch P A sgn l d (L ++ [d]) := by
  have hI := D.whole.inv
  refine hc.snoc (hI.downM t h.M d h.down).1 (hI.ht t h.M u d h.up h.down) fun hne => ?_
  simp only [Side, h.sl, if_true]
  exact (hI.left_down h.M h.left h.down).resolve_left fun h' => hne h'.symm

theorem Ins.chR (D : Dfs P p xy A st key lab sgn) {t l r u d : Nat} (h : Ins A lab sgn t l r u d) {L : List Nat}
    (hc : Ch P A sgn r u L) : Ch P A sgn r d (L ++ [d]) := by
  have hI := D.whole.inv
  refine hc.snoc (hI.downM t h.M d h.down).1 (hI.ht t h.M u d h.up h.down) fun hne => ?_
  simp only [Side, h.sr]
  exact (hI.right_down h.M h.right h.down).resolve_left fun h' => hne h'.symm

theorem PassL.ne {n l : Nat} (h : PassL P A n l) : n ≠ A.mn l := by
  rintro rfl; exact lt_irrefl _ h.1

theorem PassR.ne {n l : Nat} (h : PassR P A n l) : n ≠ A.mn l := by
  rintro rfl; exact lt_irrefl _ h.1

theorem Ins.uniq {t l r u d l' r' u' d' : Nat} (h : Ins A lab sgn t l r u d) (h' : Ins A lab sgn t l' r' u' d') :
    l' = l ∧ r' = r ∧ u' = u ∧ d' = d := by
  have h1 := h.left; have h2 := h.right; have h3 := h.up; have h4 := h.down
  rw [h'.left] at h1; rw [h'.right] at h2; rw [h'.up] at h3; rw [h'.down] at h4
  cases h1; cases h2; cases h3; cases h4
  exact ⟨rfl, rfl, rfl, rfl⟩

/-- Making a pending trapezoid inside the polygons. -/
theorem PendOK.mkIn {t l r u d : Nat} (h : Ins A lab sgn t l r u d) {L R : List Nat} {m : Option (Ot (MonoB I K))}
    (h1 : Ch P A sgn l u L) (h2 : Ch P A sgn r u R) (hm : m = some (comb key (A.mx l) L (A.mx r) R)) :
    PendOK P A key lab sgn (t, m) ⟨t, L, R⟩ where
  t := rfl
  M := h.M
  out := fun h' => by have := h.lab; rw [h'] at this; cases this
  ins := fun l' r' u' d' h' => by
    obtain ⟨rfl, rfl, rfl, rfl⟩ := h.uniq h'
    exact ⟨h1, h2, hm⟩

/-- Making a pending trapezoid outside the polygons. -/
theorem PendOK.mkOut {t : Nat} (hM : t < A.M) (h : lab t = false) :
    PendOK P A key lab sgn (t, none) ⟨t, [], []⟩ where
  t := rfl
  M := hM
  out := fun _ => ⟨rfl, rfl, rfl⟩
  ins := fun l' r' u' d' h' => by have := h'.lab; rw [h] at this; cases this

theorem Dfs.step_A (D : Dfs P p xy A st key lab sgn) {top : Nat} {x : TI I K} {g0 : PG} {gs : List PG} {ks : List KG} {W : List Nat}
    {fin : List (Nat × List Nat)} (R : Run P A key lab sgn top x g0 gs ks W fin) {tr : Trapezoid} {d dl dc dr s0 s1 : Nat}
    (htr : st.ts[x.ti]? = some tr) (hd : tr.down = some d) (hdN : d < A.N) (k : KA P A d x.ti dl dc dr s0 s1) :
    ∃ x' g0' gs' ks' new, triStepB p xy st x tr d = ⟨new.map (toB key A), .ok x'⟩ ∧
      Run P A key lab sgn top x' g0' gs' ks' (x.ti :: W) (fin ++ new) := by
  have hI := D.whole.inv
  obtain ⟨ti, ms, bs, mst⟩ := x
  obtain ⟨t, L, Rr⟩ := g0
  have ht : ti = t := R.cur.t
  subst ht
  have htM : ti < A.M := R.cur.M
  obtain ⟨tr', htr', hT⟩ := D.ts ti htM
  simp only at htr k
  rw [htr] at htr'; cases htr'
  obtain ⟨nd, hnd, hvi, hc, hf0, -, -⟩ := D.ns d hdN
  have hft := hf0 _ _ _ _ _ _ k
  obtain ⟨ldl, ldc, ldr⟩ := D.labs.at_A hdN k
  have hdl := hI.rowD d hdN dl (by rw [k.downs]; simp)
  have hdc := hI.rowD d hdN dc (by rw [k.downs]; simp)
  have hdr := hI.rowD d hdN dr (by rw [k.downs]; simp)
  have hTd : (A.T ti).down = some d := by rw [hT]; exact hd
  have hrowL : RowL P A dl (ks.map (·.a)) := R.rowL.congr k.lL
  have hrowR : ∀ a b c e, RowR P A dl (((⟨dc, a, b⟩ : PG) :: ⟨dr, c, e⟩ :: gs).map (·.t)) := fun a b c e =>
    ⟨⟨s0, s0, k.c0, k.l0, .refl _⟩, ⟨s1, s1, k.r1, k.c1, .refl _⟩, R.rowR.congr k.rR⟩
  have hnext : nexts A ti = [dl, dc, dr] := by simp only [nexts, hTd, k.ups, k.downs]
  cases hlt : lab ti with
  | false =>
    obtain ⟨hm, rfl, rfl⟩ := R.cur.out hlt
    simp only at hm
    subst hm
    rw [hlt] at ldl ldc ldr
    obtain ⟨l', r', u', d', hin⟩ := D.ins hdc.1 ldc
    have e1 : l' = s0 := by have := hin.left; rw [k.c0] at this; cases this; rfl
    have e2 : r' = s1 := by have := hin.right; rw [k.c1] at this; cases this; rfl
    have e3 : u' = d := by have := hin.up; rw [hdc.2] at this; cases this; rfl
    subst e1 e2 e3
    refine ⟨⟨dl, none, (dc, some (.one (MonoB.new nd.vi nd.c))) :: (dr, none) :: bs, mst⟩, ⟨dl, [], []⟩,
      ⟨dc, [], []⟩ :: ⟨dr, [], []⟩ :: gs, ks, [], ?_, ?_⟩
    · rw [triStepB_out hnd hft rfl]; rfl
    · refine R.next (.mkOut hdl.1 ldl) (.cons (.mkIn hin ?_ ?_ ?_) (.cons (.mkOut hdr.1 ldr) R.rest)) R.stk hrowL
        (hrowR _ _ _ _) (by simp [hnext]) (by simp) ?_
      · have := Ch.nil (P := P) (A := A) (sgn := sgn) l'; rwa [k.mx0] at this
      · have := Ch.nil (P := P) (A := A) (sgn := sgn) r'; rwa [k.mx1] at this
      · simp only [comb, if_true, chn, List.foldl_nil, k.mx1, hvi, hc]
      · intro G _ g β hdeg
        simp [finW, PG.wt, visW, hlt]
  | true =>
    obtain ⟨l, r, u, d', hin⟩ := D.ins htM hlt
    have e3 : d' = d := by have := hin.down; rw [hTd] at this; cases this; rfl
    subst e3
    obtain ⟨c1, c2, hm⟩ := R.cur.ins l r u d' hin
    simp only at hm c1 c2
    subst hm
    rw [hlt] at ldl ldc ldr
    have hadv := advance_run D htM hT hin.left hin.right hin.up hvi hc c1.nil_iff c2.nil_iff
    have n1 := (k.pL l hin.left).ne
    have n2 := (k.pR r hin.right).ne
    rw [if_neg (fun h => n1 h.1), if_neg (fun h => n2 h.1)] at hadv
    have c1' := hin.chL D c1
    have c2' := hin.chR D c2
    obtain ⟨l1, r1, u1, d1, hin1⟩ := D.ins hdl.1 ldl
    have f1 : l1 = l := by have := hin1.left; rw [k.lL, hin.left] at this; cases this; rfl
    have f2 : r1 = s0 := by have := hin1.right; rw [k.l0] at this; cases this; rfl
    have f3 : u1 = d' := by have := hin1.up; rw [hdl.2] at this; cases this; rfl
    subst f1 f2 f3
    obtain ⟨l2, r2, u2, d2, hin2⟩ := D.ins hdr.1 ldr
    have f1 : l2 = s1 := by have := hin2.left; rw [k.r1] at this; cases this; rfl
    have f2 : r2 = r := by have := hin2.right; rw [k.rR, hin.right] at this; cases this; rfl
    have f3 : u2 = u1 := by have := hin2.up; rw [hdr.2] at this; cases this; rfl
    subst f1 f2 f3
    obtain ⟨nu, hnu, eu1, eu2, -⟩ := D.ns u (hI.upM ti htM u hin.up).1
    obtain ⟨sl, hsl, el1, el2⟩ := D.ss l1 (hI.leftS ti htM _ hin.left)
    obtain ⟨sr, hsr, er1, er2⟩ := D.ss r2 (hI.rightS ti htM _ hin.right)
    have gl : okInner tr.left = .ok l1 := by
      have := hin.left; rw [hT] at this; simp only at this
      rw [this]; rfl
    have gr : okInner tr.right = .ok r2 := by
      have := hin.right; rw [hT] at this; simp only at this
      rw [this]; rfl
    have gu : okInner tr.up = .ok u := by
      have := hin.up; rw [hT] at this; simp only at this
      rw [this]; rfl
    refine ⟨⟨dl, some (.one (chn key (A.mx l1) (L ++ [u2]))), (dc, none) :: (dr, some (.one (chn key (A.mx r2) (Rr ++ [u2])))) :: bs, mst⟩,
      ⟨dl, L ++ [u2], []⟩, ⟨dc, [], []⟩ :: ⟨dr, [], Rr ++ [u2]⟩ :: gs, ks, [], ?_, ?_⟩
    · refine triStepB_in (bs := []) (bs' := []) hnd hft rfl hadv ?_
      simp only [descendB, descendAB]
      have hsplit : splitMonotones st tr nd (if L = [] then .one (chn key (A.mx r2) (Rr ++ [u2])) else
          if Rr = [] then .one (chn key (A.mx l1) (L ++ [u2])) else
          .two (chn key (A.mx l1) (L ++ [u2])) (chn key (A.mx r2) (Rr ++ [u2]))) =
          .ok (chn key (A.mx l1) (L ++ [u2]), chn key (A.mx r2) (Rr ++ [u2])) := by
        have hnew : (MonoB.new nu.vi nu.c).addVertex nd.vi nd.c = chn key u [u2] := by
          rw [eu1, eu2, hvi, hc]; rfl
        by_cases hL : L = []
        · rw [if_pos hL]
          simp only [splitMonotones, gu, gl, bind, Except.bind, getP, hnu, hnew, hsl]
          rw [el2, if_pos (c1.nil_iff.1 hL), hL, c1.nil_iff.1 hL]; rfl
        · rw [if_neg hL]
          by_cases hR : Rr = []
          · rw [if_pos hR]
            simp only [splitMonotones, gu, gl, gr, bind, Except.bind, getP, hnu, hnew, hsl, hsr]
            rw [el2, if_neg (fun h => hL (c1.nil_iff.2 h)), er2, if_pos (c2.nil_iff.1 hR), hR, c2.nil_iff.1 hR]; rfl
          · rw [if_neg hR]; rfl
      rw [hsplit]
      rfl
    · refine R.next (.mkIn hin1 c1' ?_ ?_) (.cons (.mkOut hdc.1 ldc) (.cons (.mkIn hin2 ?_ c2' ?_) R.rest)) R.stk hrowL
        (hrowR _ _ _ _) (by simp [hnext]) (by simp) ?_
      · have := Ch.nil (P := P) (A := A) (sgn := sgn) r1; rwa [k.mx0] at this
      · simp [comb]
      · have := Ch.nil (P := P) (A := A) (sgn := sgn) l2; rwa [k.mx1] at this
      · simp [comb]
      · intro G _ g β hdeg
        rw [hin.visW, if_neg n1, if_neg n2]
        simp only [finW, PG.wt, List.map_nil, List.sum_nil, hin1.left, hin2.right, hin.left, hin.right, Option.getD_some, c1.wt_snoc,
          c2.wt_snoc, wt_nil, List.map_cons, List.sum_cons, hin.sl, hin.sr]
        abel

theorem KI.same {n n' ul ur dl dr s0 s1 ul' ur' dl' dr' s0' s1' : Nat} (k : KI P A n ul ur dl dr s0 s1) (k' : KI P A n' ul' ur' dl' dr' s0' s1')
    (h : n = n') : ul' = ul ∧ ur' = ur ∧ dl' = dl ∧ dr' = dr ∧ s0' = s0 ∧ s1' = s1 := by
  subst h
  have h1 := k'.ups; have h2 := k'.downs
  rw [k.ups] at h1; rw [k.downs] at h2
  simp only [List.cons.injEq, and_true] at h1 h2
  obtain ⟨rfl, rfl⟩ := h1
  obtain ⟨rfl, rfl⟩ := h2
  have h3 := k'.ul0; have h4 := k'.dl1
  rw [k.ul0] at h3; rw [k.dl1] at h4
  cases h3; cases h4
  exact ⟨rfl, rfl, rfl, rfl, rfl, rfl⟩

theorem KV.same {n n' ul uc ur d s0 s1 ul' uc' ur' d' s0' s1' : Nat} (k : KV P A n ul uc ur d s0 s1) (k' : KV P A n' ul' uc' ur' d' s0' s1')
    (h : n = n') : ul' = ul ∧ uc' = uc ∧ ur' = ur ∧ d' = d ∧ s0' = s0 ∧ s1' = s1 := by
  subst h
  have h1 := k'.ups; have h2 := k'.downs
  rw [k.ups] at h1; rw [k.downs] at h2
  simp only [List.cons.injEq, and_true] at h1 h2
  obtain ⟨rfl, rfl, rfl⟩ := h1
  subst h2
  have h3 := k'.l0; have h4 := k'.c1
  rw [k.l0] at h3; rw [k.c1] at h4
  cases h3; cases h4
  exact ⟨rfl, rfl, rfl, rfl, rfl, rfl⟩

theorem KI.not_V {n n' ul ur dl dr s0 s1 ul' uc' ur' d' s0' s1' : Nat} (k : KI P A n ul ur dl dr s0 s1)
    (k' : KV P A n' ul' uc' ur' d' s0' s1') : n ≠ n' := by
  rintro rfl
  have := k.ups; rw [k'.ups] at this; simp at this

/-- The first waiting trapezoid. -/
theorem Stk.first {kg : KG} {ks : List KG} {mst : List (MonoB I K)} (h : Stk P A key lab sgn (kg :: ks) mst) :
    ∃ n < A.N, ∃ ul uc ur d s0 s1, KV P A n ul uc ur d s0 s1 ∧ ((kg.a = ul) ∨ (kg.a = uc)) := by
  obtain ⟨n, hn, ul, uc, ur, d, s0, s1, k, h⟩ := h
  refine ⟨n, hn, ul, uc, ur, d, s0, s1, k, ?_⟩
  rcases h with h | h | h
  · exact .inl h.1
  · exact .inl h.1
  · exact .inr h.1

theorem Dfs.step_IL (D : Dfs P p xy A st key lab sgn) {top : Nat} {x : TI I K} {g0 : PG} {gs : List PG} {ks : List KG} {W : List Nat}
    {fin : List (Nat × List Nat)} (R : Run P A key lab sgn top x g0 gs ks W fin) {tr : Trapezoid} {d ur dl dr s0 s1 : Nat}
    (htr : st.ts[x.ti]? = some tr) (hd : tr.down = some d) (hdN : d < A.N) (k : KI P A d x.ti ur dl dr s0 s1) :
    ∃ x' g0' gs' ks' new, triStepB p xy st x tr d = ⟨new.map (toB key A), .ok x'⟩ ∧
      Run P A key lab sgn top x' g0' gs' ks' (x.ti :: W) (fin ++ new) := by
  have hI := D.whole.inv
  obtain ⟨ti, ms, bs, mst⟩ := x
  obtain ⟨t, L, Rr⟩ := g0
  have ht : ti = t := R.cur.t
  subst ht
  have htM : ti < A.M := R.cur.M
  obtain ⟨tr', htr', hT⟩ := D.ts ti htM
  simp only at htr k
  rw [htr] at htr'; cases htr'
  obtain ⟨nd, hnd, hvi, hc, -, hf0, -⟩ := D.ns d hdN
  have hft := hf0 _ _ _ _ _ _ k
  obtain ⟨lur, ldl, ldr⟩ := D.labs.at_I hdN k
  have hdl := hI.rowD d hdN dl (by rw [k.downs]; simp)
  have hTd : (A.T ti).down = some d := by rw [hT]; exact hd
  have hrowL : RowL P A dl (ks.map (·.a)) := R.rowL.congr k.lL
  have hrowR : RowR P A dl (gs.map (·.t)) := by
    have h := R.rowR
    cases gs with
    | nil => have h : (A.T ti).right = none := h; rw [k.ul0] at h; cases h
    | cons g gs =>
      obtain ⟨⟨s, s', h1, h2, h3⟩, h4⟩ := h
      simp only at h2
      rw [k.ul0] at h2; cases h2
      exact ⟨⟨s, s1, h1, k.dl1, h3.snoc ⟨d, hdN, _, _, _, _, k⟩⟩, h4⟩
  have hnext : nexts A ti = [dl] := by simp only [nexts, hTd, k.ups, k.downs, if_true]
  cases hlt : lab ti with
  | false =>
    obtain ⟨hm, rfl, rfl⟩ := R.cur.out hlt
    simp only at hm
    subst hm
    rw [hlt] at ldl
    refine ⟨⟨dl, none, bs, mst⟩, ⟨dl, [], []⟩, gs, ks, [], ?_, ?_⟩
    · rw [triStepB_out hnd hft rfl]
      show descendIB _ _ _ _ _ = _
      simp only [descendIB, if_true]; rfl
    · refine R.next (.mkOut hdl.1 ldl) R.rest R.stk hrowL hrowR (by simp [hnext]) (by simp) ?_
      intro G _ g β hdeg
      simp [finW, PG.wt, visW, hlt]
  | true =>
    obtain ⟨l, r, u, d', hin⟩ := D.ins htM hlt
    have e3 : d' = d := by have := hin.down; rw [hTd] at this; cases this; rfl
    subst e3
    obtain ⟨c1, c2, hm⟩ := R.cur.ins l r u d' hin
    simp only at hm c1 c2
    subst hm
    rw [hlt] at ldl
    have e4 : r = s0 := by have := hin.right; rw [k.ul0] at this; cases this; rfl
    subst e4
    have hadv := advance_run D htM hT hin.left hin.right hin.up hvi hc c1.nil_iff c2.nil_iff
    have n1 := (k.pL l hin.left).ne
    rw [if_neg (fun h => n1 h.1), if_pos ⟨k.mn0.symm, n1⟩, ← toB_newFin] at hadv
    have c1' := hin.chL D c1
    have c2' := hin.chR D c2
    obtain ⟨l1, r1, u1, d1, hin1⟩ := D.ins hdl.1 ldl
    have f1 : l1 = l := by have := hin1.left; rw [k.lL, hin.left] at this; cases this; rfl
    have f2 : r1 = s1 := by have := hin1.right; rw [k.dl1] at this; cases this; rfl
    have f3 : u1 = d' := by have := hin1.up; rw [hdl.2] at this; cases this; rfl
    subst f1 f2 f3
    refine ⟨⟨dl, some (.one (chn key (A.mx l1) (L ++ [u1]))), bs, mst⟩, ⟨dl, L ++ [u1], []⟩, gs, ks, newFin r Rr u1, ?_, ?_⟩
    · rw [← List.append_nil ((newFin r Rr u1).map _)]
      refine triStepB_in hnd hft rfl hadv ?_
      show descendIB _ _ _ _ _ = _
      simp only [descendIB, if_true]; rfl
    · refine R.next (.mkIn hin1 c1' ?_ ?_) R.rest R.stk hrowL hrowR (by simp [hnext]) (c2'.newFin_ok k.S0 k.mn0) ?_
      · have := Ch.nil (P := P) (A := A) (sgn := sgn) r1; rwa [k.mx1] at this
      · simp [comb]
      · intro G _ g β hdeg
        rw [hin.visW, if_neg n1, if_pos k.mn0.symm, c2.newFin_wt hdeg k.S0 k.mn0]
        simp only [PG.wt, hin1.left, hin.left, hin.right, Option.getD_some, c1.wt_snoc, wt_nil, hin.sl, hin.sr]
        abel

theorem Dfs.step_IR (D : Dfs P p xy A st key lab sgn) {top : Nat} {x : TI I K} {g0 : PG} {gs : List PG} {ks : List KG} {W : List Nat}
    {fin : List (Nat × List Nat)} (R : Run P A key lab sgn top x g0 gs ks W fin) {tr : Trapezoid} {d ul dl dr s0 s1 : Nat}
    (htr : st.ts[x.ti]? = some tr) (hd : tr.down = some d) (hdN : d < A.N) (k : KI P A d ul x.ti dl dr s0 s1) :
    ∃ x' g0' gs' ks' new, triStepB p xy st x tr d = ⟨new.map (toB key A), .ok x'⟩ ∧
      Run P A key lab sgn top x' g0' gs' ks' (x.ti :: W) (fin ++ new) := by
  have hI := D.whole.inv
  obtain ⟨ti, ms, bs, mst⟩ := x
  obtain ⟨t, L, Rr⟩ := g0
  have ht : ti = t := R.cur.t
  subst ht
  have htM : ti < A.M := R.cur.M
  obtain ⟨tr', htr', hT⟩ := D.ts ti htM
  simp only at htr k
  rw [htr] at htr'; cases htr'
  obtain ⟨nd, hnd, hvi, hc, -, hf0, -⟩ := D.ns d hdN
  have hft := hf0 _ _ _ _ _ _ k
  obtain ⟨lur, ldl, ldr⟩ := D.labs.at_I hdN k
  have hdr := hI.rowD d hdN dr (by rw [k.downs]; simp)
  have hTd : (A.T ti).down = some d := by rw [hT]; exact hd
  have hne : ti ≠ ul := by
    obtain ⟨_, _, hX⟩ := hI.nex d hdN
    have := hX.nodupU; rw [k.ups] at this
    rintro rfl; simp at this
  have hrowR : RowR P A dr (gs.map (·.t)) := R.rowR.congr k.rR
  have hrowL : RowL P A dr (ks.map (·.a)) := by
    have h := R.rowL
    have hst := R.stk
    cases ks with
    | nil => have h : (A.T ti).left = none := h; rw [k.ur0] at h; cases h
    | cons g ks =>
      obtain ⟨⟨s, s', h1, h2, h3⟩, h4⟩ := h
      simp only at h1 h2 h4
      rw [k.ur0] at h1; cases h1
      refine ⟨⟨s1, s', k.dr1, h2, ?_⟩, h4⟩
      obtain ⟨n, hn, ul', uc', ur', d', t0, t1, kv, ha⟩ := hst.first
      have hmn : A.mn s' = n := by
        rcases ha with ha | ha
        · rw [ha, kv.l0] at h2; cases h2; exact kv.mn0
        · rw [ha, kv.c1] at h2; cases h2; exact kv.mn1
      cases h3 with
      | refl => exact absurd (k.mn0.symm.trans hmn) (k.not_V kv)
      | head h h' =>
        obtain ⟨n', hn', a, b, c, e, k'⟩ := h
        obtain ⟨-, -, -, -, -, rfl⟩ := k.same k' (k.mn0.symm.trans k'.mn0)
        exact h'
  have hnext : nexts A ti = [dr] := by simp only [nexts, hTd, k.ups, k.downs, if_neg hne]
  cases hlt : lab ti with
  | false =>
    obtain ⟨hm, rfl, rfl⟩ := R.cur.out hlt
    simp only at hm
    subst hm
    rw [← lur, hlt] at ldr
    refine ⟨⟨dr, none, bs, mst⟩, ⟨dr, [], []⟩, gs, ks, [], ?_, ?_⟩
    · rw [triStepB_out hnd hft rfl]
      show descendIB _ _ _ _ _ = _
      simp only [descendIB, if_neg hne, if_true]; rfl
    · refine R.next (.mkOut hdr.1 ldr) R.rest R.stk hrowL hrowR (by simp [hnext]) (by simp) ?_
      intro G _ g β hdeg
      simp [finW, PG.wt, visW, hlt]
  | true =>
    obtain ⟨l, r, u, d', hin⟩ := D.ins htM hlt
    have e3 : d' = d := by have := hin.down; rw [hTd] at this; cases this; rfl
    subst e3
    obtain ⟨c1, c2, hm⟩ := R.cur.ins l r u d' hin
    simp only at hm c1 c2
    subst hm
    rw [← lur, hlt] at ldr
    have e4 : l = s0 := by have := hin.left; rw [k.ur0] at this; cases this; rfl
    subst e4
    have hadv := advance_run D htM hT hin.left hin.right hin.up hvi hc c1.nil_iff c2.nil_iff
    have n2 := (k.pR r hin.right).ne
    rw [if_pos ⟨k.mn0.symm, n2⟩, ← toB_newFin] at hadv
    have c1' := hin.chL D c1
    have c2' := hin.chR D c2
    obtain ⟨l1, r1, u1, d1, hin1⟩ := D.ins hdr.1 ldr
    have f1 : r1 = r := by have := hin1.right; rw [k.rR, hin.right] at this; cases this; rfl
    have f2 : l1 = s1 := by have := hin1.left; rw [k.dr1] at this; cases this; rfl
    have f3 : u1 = d' := by have := hin1.up; rw [hdr.2] at this; cases this; rfl
    subst f1 f2 f3
    refine ⟨⟨dr, some (.one (chn key (A.mx r1) (Rr ++ [u1]))), bs, mst⟩, ⟨dr, [], Rr ++ [u1]⟩, gs, ks, newFin l L u1, ?_, ?_⟩
    · rw [← List.append_nil ((newFin l L u1).map _)]
      refine triStepB_in hnd hft rfl hadv ?_
      show descendIB _ _ _ _ _ = _
      simp only [descendIB, if_neg hne, if_true]; rfl
    · refine R.next (.mkIn hin1 ?_ c2' ?_) R.rest R.stk hrowL hrowR (by simp [hnext]) (c1'.newFin_ok k.S0 k.mn0) ?_
      · have := Ch.nil (P := P) (A := A) (sgn := sgn) l1; rwa [k.mx1] at this
      · simp [comb]
      · intro G _ g β hdeg
        rw [hin.visW, if_neg n2, if_pos k.mn0.symm, c1.newFin_wt hdeg k.S0 k.mn0]
        simp only [PG.wt, hin1.right, hin.left, hin.right, Option.getD_some, c2.wt_snoc, wt_nil, hin.sl, hin.sr]
        abel

/-- A trapezoid that waits at vertex `n`, and has the right side `s` that ends there. -/
theorem Stk.at_V {kg : KG} {ks : List KG} {mst : List (MonoB I K)} (h : Stk P A key lab sgn (kg :: ks) mst)
    {n ul uc ur d s0 s1 a s : Nat} (k : KV P A n ul uc ur d s0 s1) (hl : (A.T a).left = some s) (hs : A.mn s = n) (hadj : Adj P A kg.a a) :
    (A.T kg.a).right = some s ∧ ((kg.a = ul ∧ lab ul = true ∧ ∃ l mst', (A.T ul).left = some l ∧ Ch P A sgn l n kg.L ∧ kg.L ≠ [] ∧
        mst = chn key (A.mx l) kg.L :: mst' ∧ Stk P A key lab sgn ks mst') ∨
      (kg.a = ul ∧ lab ul = false ∧ kg.L = [] ∧ Stk P A key lab sgn ks mst) ∨
      (kg.a = uc ∧ kg.L = [] ∧ Stk P A key lab sgn ks mst)) := by
  obtain ⟨t, s', h1, h2, h3⟩ := hadj
  rw [hl] at h1; cases h1
  have e : s' = s := by
    cases h3 with
    | refl => rfl
    | head h h' =>
      obtain ⟨n', hn', a, b, c, e, k'⟩ := h
      exact absurd (k'.mn0.symm.trans hs) (k'.not_V k)
  subst e
  refine ⟨h2, ?_⟩
  obtain ⟨n', hn', ul', uc', ur', d', t0, t1, kv, ha⟩ := h.first
  obtain ⟨n2, hn2, ul2, uc2, ur2, d2, t02, t12, kv2, hb⟩ := h
  have hmn : A.mn s' = n2 := by
    rcases hb with hb | hb | hb
    · rw [hb.1, kv2.l0] at h2; cases h2; exact kv2.mn0
    · rw [hb.1, kv2.l0] at h2; cases h2; exact kv2.mn0
    · rw [hb.1, kv2.c1] at h2; cases h2; exact kv2.mn1
  rw [hs] at hmn
  subst hmn
  obtain ⟨rfl, rfl, rfl, rfl, rfl, rfl⟩ := k.same kv2 rfl
  exact hb

/-- Going on with the next pending trapezoid. -/
theorem Run.pop {top : Nat} {x : TI I K} {g0 : PG} {gs : List PG} {ks : List KG} {W : List Nat}
    {fin : List (Nat × List Nat)} (R : Run P A key lab sgn top x g0 gs ks W fin) {s : Nat} (hr : (A.T x.ti).right = some s) :
    ∃ t m bs g gs', x.branchStack = (t, m) :: bs ∧ gs = g :: gs' ∧ PendOK P A key lab sgn (t, m) g ∧
      List.Forall₂ (PendOK P A key lab sgn) bs gs' ∧ Adj P A x.ti t ∧ RowR P A t (gs'.map (·.t)) := by
  obtain ⟨ti, ms, bs, mst⟩ := x
  have h1 := R.rest
  have h2 := R.rowR
  simp only at h1 h2 hr ⊢
  cases h1 with
  | nil => have h : (A.T ti).right = none := h2; rw [hr] at h; cases h
  | @cons b g bs gs h h' =>
    obtain ⟨t, m⟩ := b
    have e : t = g.t := h.t
    obtain ⟨h3, h4⟩ := h2
    exact ⟨t, m, bs, g, gs, rfl, rfl, h, h', by rw [e]; exact h3, by rw [e]; exact h4⟩

theorem Dfs.step_VL (D : Dfs P p xy A st key lab sgn) {top : Nat} {x : TI I K} {g0 : PG} {gs : List PG} {ks : List KG} {W : List Nat}
    {fin : List (Nat × List Nat)} (R : Run P A key lab sgn top x g0 gs ks W fin) {tr : Trapezoid} {d uc ur dd s0 s1 : Nat}
    (htr : st.ts[x.ti]? = some tr) (hd : tr.down = some d) (hdN : d < A.N) (k : KV P A d x.ti uc ur dd s0 s1) :
    ∃ x' g0' gs' ks' new, triStepB p xy st x tr d = ⟨new.map (toB key A), .ok x'⟩ ∧
      Run P A key lab sgn top x' g0' gs' ks' (x.ti :: W) (fin ++ new) := by
  have hI := D.whole.inv
  obtain ⟨t', m', bs', g', gs', hbs, hgs, hp', hrest', hadj, hrow⟩ := R.pop k.l0
  obtain ⟨ti, ms, bs, mst⟩ := x
  obtain ⟨t, L, Rr⟩ := g0
  have ht : ti = t := R.cur.t
  subst ht
  have htM : ti < A.M := R.cur.M
  obtain ⟨tr', htr', hT⟩ := D.ts ti htM
  simp only at htr k hbs hgs hadj
  subst hbs hgs
  rw [htr] at htr'; cases htr'
  obtain ⟨nd, hnd, hvi, hc, -, -, hf0⟩ := D.ns d hdN
  have hft := hf0 _ _ _ _ _ _ k
  have hTd : (A.T ti).down = some d := by rw [hT]; exact hd
  obtain ⟨_, _, hX⟩ := hI.nex d hdN
  have hnodup := hX.nodupU
  rw [k.ups] at hnodup
  simp only [List.nodup_cons, List.mem_cons, List.not_mem_nil, or_false, not_or] at hnodup
  obtain ⟨⟨hne1, hne2⟩, -⟩ := hnodup
  have hnext : nexts A ti = [] := by simp only [nexts, hTd, k.ups, k.downs, if_neg hne2]
  have hrowL : ∀ L, RowL P A t' (((⟨ti, L⟩ : KG) :: ks).map (·.a)) := fun L => ⟨hadj, R.rowL⟩
  cases hlt : lab ti with
  | false =>
    obtain ⟨hm, rfl, rfl⟩ := R.cur.out hlt
    simp only at hm
    subst hm
    refine ⟨⟨t', m', bs', mst⟩, g', gs', ⟨ti, []⟩ :: ks, [], ?_, ?_⟩
    · rw [triStepB_out hnd hft rfl]
      simp only [descendB, joinVB, BM.pure_def, BM.mk_ok_bind, leaveV, if_neg hne2, BM.lift]; rfl
    · refine R.next hp' hrest' ⟨d, hdN, ti, uc, ur, dd, s0, s1, k, .inr (.inl ⟨rfl, hlt, rfl, R.stk⟩)⟩ (hrowL _) hrow (by simp [hnext]) (by simp) ?_
      intro G _ g β hdeg
      simp [finW, PG.wt, KG.wt, visW, hlt]
  | true =>
    obtain ⟨l, r, u, d', hin⟩ := D.ins htM hlt
    have e3 : d' = d := by have := hin.down; rw [hTd] at this; cases this; rfl
    subst e3
    obtain ⟨c1, c2, hm⟩ := R.cur.ins l r u d' hin
    simp only at hm c1 c2
    subst hm
    have e4 : r = s0 := by have := hin.right; rw [k.l0] at this; cases this; rfl
    subst e4
    have hadv := advance_run D htM hT hin.left hin.right hin.up hvi hc c1.nil_iff c2.nil_iff
    have n1 := (k.pL l hin.left).ne
    rw [if_neg (fun h => n1 h.1), if_pos ⟨k.mn0.symm, n1⟩, ← toB_newFin] at hadv
    have c1' := hin.chL D c1
    have c2' := hin.chR D c2
    refine ⟨⟨t', m', bs', chn key (A.mx l) (L ++ [d']) :: mst⟩, g', gs', ⟨ti, L ++ [d']⟩ :: ks, newFin r Rr d', ?_, ?_⟩
    · rw [← List.append_nil ((newFin r Rr d').map _)]
      refine triStepB_in hnd hft rfl hadv ?_
      simp only [descendB, joinVB, if_true, Ot.okOne, BM.lift_ok_bind, BM.pure_def, BM.mk_ok_bind, leaveV, if_neg hne2, BM.lift]; rfl
    · refine R.next hp' hrest' ⟨d', hdN, ti, uc, ur, dd, r, s1, k, .inl ⟨rfl, hlt, l, mst, hin.left, c1', by simp, rfl, R.stk⟩⟩
        (hrowL _) hrow (by simp [hnext]) (c2'.newFin_ok k.S0 k.mn0) ?_
      intro G _ g β hdeg
      rw [hin.visW, if_neg n1, if_pos k.mn0.symm, c2.newFin_wt hdeg k.S0 k.mn0]
      simp only [PG.wt, KG.wt, hin.left, hin.right, Option.getD_some, c1.wt_snoc, hin.sl, hin.sr, List.map_cons, List.sum_cons]
      abel

theorem Dfs.step_VC (D : Dfs P p xy A st key lab sgn) {top : Nat} {x : TI I K} {g0 : PG} {gs : List PG} {ks : List KG} {W : List Nat}
    {fin : List (Nat × List Nat)} (R : Run P A key lab sgn top x g0 gs ks W fin) {tr : Trapezoid} {d ul ur dd s0 s1 : Nat}
    (htr : st.ts[x.ti]? = some tr) (hd : tr.down = some d) (hdN : d < A.N) (k : KV P A d ul x.ti ur dd s0 s1) :
    ∃ x' g0' gs' ks' new, triStepB p xy st x tr d = ⟨new.map (toB key A), .ok x'⟩ ∧
      Run P A key lab sgn top x' g0' gs' ks' (x.ti :: W) (fin ++ new) := by
  have hI := D.whole.inv
  obtain ⟨t', m', bs', g', gs', hbs, hgs, hp', hrest', hadj, hrow⟩ := R.pop k.c1
  obtain ⟨ti, ms, bs, mst⟩ := x
  obtain ⟨t, L, Rr⟩ := g0
  have ht : ti = t := R.cur.t
  subst ht
  have htM : ti < A.M := R.cur.M
  obtain ⟨tr', htr', hT⟩ := D.ts ti htM
  simp only at htr k hbs hgs hadj
  subst hbs hgs
  rw [htr] at htr'; cases htr'
  obtain ⟨nd, hnd, hvi, hc, -, -, hf0⟩ := D.ns d hdN
  have hft := hf0 _ _ _ _ _ _ k
  have hTd : (A.T ti).down = some d := by rw [hT]; exact hd
  obtain ⟨_, _, hX⟩ := hI.nex d hdN
  have hnodup := hX.nodupU
  rw [k.ups] at hnodup
  simp only [List.nodup_cons, List.mem_cons, List.not_mem_nil, or_false, not_or] at hnodup
  obtain ⟨⟨hne1, -⟩, hne2, -⟩ := hnodup
  have hne1 : ti ≠ ul := fun h => hne1 h.symm
  have hnext : nexts A ti = [] := by simp only [nexts, hTd, k.ups, k.downs, if_neg hne2]
  have hrowL : ∀ L, RowL P A t' (((⟨ti, L⟩ : KG) :: ks).map (·.a)) := fun L => ⟨hadj, R.rowL⟩
  have hstk : Stk P A key lab sgn (⟨ti, []⟩ :: ks) mst := ⟨d, hdN, ul, ti, ur, dd, s0, s1, k, .inr (.inr ⟨rfl, rfl, R.stk⟩)⟩
  cases hlt : lab ti with
  | false =>
    obtain ⟨hm, rfl, rfl⟩ := R.cur.out hlt
    simp only at hm
    subst hm
    refine ⟨⟨t', m', bs', mst⟩, g', gs', ⟨ti, []⟩ :: ks, [], ?_, ?_⟩
    · rw [triStepB_out hnd hft rfl]
      simp only [descendB, joinVB, BM.pure_def, BM.mk_ok_bind, leaveV, if_neg hne2, BM.lift]; rfl
    · refine R.next hp' hrest' hstk (hrowL _) hrow (by simp [hnext]) (by simp) ?_
      intro G _ g β hdeg
      simp [finW, PG.wt, KG.wt, visW, hlt]
  | true =>
    obtain ⟨l, r, u, d', hin⟩ := D.ins htM hlt
    have e3 : d' = d := by have := hin.down; rw [hTd] at this; cases this; rfl
    subst e3
    obtain ⟨c1, c2, hm⟩ := R.cur.ins l r u d' hin
    simp only at hm c1 c2
    subst hm
    have e4 : l = s0 := by have := hin.left; rw [k.c0] at this; cases this; rfl
    have e5 : r = s1 := by have := hin.right; rw [k.c1] at this; cases this; rfl
    subst e4 e5
    have hadv := advance_run D htM hT hin.left hin.right hin.up hvi hc c1.nil_iff c2.nil_iff
    rw [if_neg (fun h => h.2 k.mn1.symm), if_neg (fun h => h.2 k.mn0.symm)] at hadv
    have c1' := hin.chL D c1
    have c2' := hin.chR D c2
    have hboth : ¬ (L = [] ∧ Rr = []) := by
      rintro ⟨h1, h2⟩
      have e1 := c1.nil_iff.1 h1
      have e2 := c2.nil_iff.1 h2
      have : A.sg l = A.sg r := by
        refine Prod.ext ?_ ?_
        · rw [← D.whole.mnC l k.S0, ← D.whole.mnC r k.S1, k.mn0, k.mn1]
        · rw [← (hI.mxN l k.S0).2, ← (hI.mxN r k.S1).2, ← e1, ← e2]
      have e6 := hI.sinj l k.S0 r k.S1 this
      subst e6
      exact hI.ne ti htM l hin.left hin.right
    refine ⟨⟨t', m', bs', mst⟩, g', gs', ⟨ti, []⟩ :: ks, newFin l L d' ++ newFin r Rr d', ?_, ?_⟩
    · rw [← List.nil_append (List.map _ _)]
      refine triStepB_in hnd hft rfl hadv ?_
      have hlist : (if L = [] then Ot.one (chn key (A.mx r) (Rr ++ [d'])) else if Rr = [] then Ot.one (chn key (A.mx l) (L ++ [d']))
          else Ot.two (chn key (A.mx l) (L ++ [d'])) (chn key (A.mx r) (Rr ++ [d']))).toList =
          (newFin l L d' ++ newFin r Rr d').map (toB key A) := by
        rw [List.map_append, toB_newFin, toB_newFin]
        by_cases h1 : L = []
        · rw [if_pos h1, if_pos h1, if_neg (fun h2 => hboth ⟨h1, h2⟩)]; rfl
        · rw [if_neg h1, if_neg h1]
          by_cases h2 : Rr = []
          · rw [if_pos h2, if_pos h2]; rfl
          · rw [if_neg h2, if_neg h2]; rfl
      have hfor : ∀ (bs : List (MonoB I K)), bs.forM BM.finish = (⟨bs, .ok ()⟩ : BM I K Unit) := by
        intro bs
        induction bs with
        | nil => rfl
        | cons b bs ih =>
          show (BM.finish b >>= fun _ => bs.forM BM.finish) = _
          rw [ih]; rfl
      simp only [descendB, joinVB, if_neg hne1, if_true, hlist, hfor, BM.pure_def, BM.mk_ok_bind, leaveV, if_neg hne2, BM.lift, List.append_nil]
    · refine R.next hp' hrest' hstk (hrowL _) hrow (by simp [hnext]) ?_ ?_
      · intro f hf
        rcases List.mem_append.1 hf with hf | hf
        · exact c1'.newFin_ok k.S0 k.mn0 f hf
        · exact c2'.newFin_ok k.S1 k.mn1 f hf
      intro G _ g β hdeg
      rw [hin.visW, if_pos k.mn0.symm, if_pos k.mn1.symm, finW_append, c1.newFin_wt hdeg k.S0 k.mn0, c2.newFin_wt hdeg k.S1 k.mn1]
      simp only [PG.wt, KG.wt, hin.left, hin.right, Option.getD_some, wt_nil, hin.sl, hin.sr, List.map_cons, List.sum_cons]
      abel

theorem Dfs.step_VR (D : Dfs P p xy A st key lab sgn) {top : Nat} {x : TI I K} {g0 : PG} {gs : List PG} {ks : List KG} {W : List Nat}
    {fin : List (Nat × List Nat)} (R : Run P A key lab sgn top x g0 gs ks W fin) {tr : Trapezoid} {d ul uc dd s0 s1 : Nat}
    (htr : st.ts[x.ti]? = some tr) (hd : tr.down = some d) (hdN : d < A.N) (k : KV P A d ul uc x.ti dd s0 s1) :
    ∃ x' g0' gs' ks' new, triStepB p xy st x tr d = ⟨new.map (toB key A), .ok x'⟩ ∧
      Run P A key lab sgn top x' g0' gs' ks' (x.ti :: W) (fin ++ new) := by
  have hI := D.whole.inv
  obtain ⟨ti, ms, bs, mst⟩ := x
  obtain ⟨t, L, Rr⟩ := g0
  have ht : ti = t := R.cur.t
  subst ht
  have htM : ti < A.M := R.cur.M
  obtain ⟨tr', htr', hT⟩ := D.ts ti htM
  simp only at htr k
  rw [htr] at htr'; cases htr'
  obtain ⟨nd, hnd, hvi, hc, -, -, hf0⟩ := D.ns d hdN
  have hft := hf0 _ _ _ _ _ _ k
  have hTd : (A.T ti).down = some d := by rw [hT]; exact hd
  obtain ⟨lab1, lab2, lab3⟩ := D.labs.at_V hdN k
  obtain ⟨_, _, hX⟩ := hI.nex d hdN
  have hnodup := hX.nodupU
  rw [k.ups] at hnodup
  simp only [List.nodup_cons, List.mem_cons, List.not_mem_nil, or_false, not_or] at hnodup
  obtain ⟨⟨hne0, hne1⟩, hne2, -⟩ := hnodup
  have hne1 : ti ≠ ul := fun h => hne1 h.symm
  have hne2 : ti ≠ uc := fun h => hne2 h.symm
  have hdd := hI.rowD d hdN dd (by rw [k.downs]; simp)
  have hucM := (hI.rowU d hdN uc (by rw [k.ups]; simp)).1
  have hulM := (hI.rowU d hdN ul (by rw [k.ups]; simp)).1
  have hnext : nexts A ti = [dd] := by simp only [nexts, hTd, k.ups, k.downs, if_true]
  have hrowR : RowR P A dd (gs.map (·.t)) := R.rowR.congr k.rR
  have h01 : s0 ≠ s1 := fun h => hI.ne uc hucM s0 k.c0 (by rw [k.c1, h])
  -- the two trapezoids that wait at this vertex
  obtain ⟨k2, ks', rfl, h2a, h2L, hst2, hL2, hul⟩ : ∃ k2 ks', ks = ⟨uc, []⟩ :: k2 :: ks' ∧ k2.a = ul ∧
      (lab ul = false → k2.L = [] ∧ Stk P A key lab sgn ks' mst) ∧
      (lab ul = true → ∃ l mst', (A.T ul).left = some l ∧ Ch P A sgn l d k2.L ∧ k2.L ≠ [] ∧ mst = chn key (A.mx l) k2.L :: mst' ∧
        Stk P A key lab sgn ks' mst') ∧ True ∧ RowL P A ul (ks'.map (·.a)) := by
    have h := R.rowL
    have hst := R.stk
    simp only at h hst
    rcases ks with _ | ⟨k1, ks⟩
    · have h : (A.T ti).left = none := h; rw [k.r1] at h; cases h
    obtain ⟨h1, h⟩ := h
    simp only at h1 h
    obtain ⟨e1, h1'⟩ := hst.at_V k k.r1 k.mn1 h1
    have hstk' : k1.a = uc ∧ k1.L = [] ∧ Stk P A key lab sgn ks mst := by
      rcases h1' with h' | h' | h'
      · rw [h'.1, k.l0] at e1; cases e1; exact absurd rfl h01
      · rw [h'.1, k.l0] at e1; cases e1; exact absurd rfl h01
      · exact h'
    obtain ⟨a1, a2, a3⟩ := hstk'
    obtain ⟨ka, kL⟩ := k1
    simp only at a1 a2 h h1 e1
    subst a1 a2
    rcases ks with _ | ⟨k2, ks⟩
    · have h : (A.T ka).left = none := h; rw [k.c0] at h; cases h
    obtain ⟨h2, h⟩ := h
    simp only at h2 h
    obtain ⟨e2, h2'⟩ := a3.at_V k k.c0 k.mn0 h2
    refine ⟨k2, ks, rfl, ?_, ?_, ?_, trivial, ?_⟩
    · rcases h2' with h' | h' | h'
      · exact h'.1
      · exact h'.1
      · rw [h'.1, k.c1] at e2; cases e2; exact absurd rfl h01
    · intro hl
      rcases h2' with h' | h' | h'
      · rw [hl] at h'; simp at h'
      · exact h'.2.2
      · rw [h'.1, k.c1] at e2; cases e2; exact absurd rfl h01
    · intro hl
      rcases h2' with h' | h' | h'
      · exact h'.2.2
      · rw [hl] at h'; simp at h'
      · rw [h'.1, k.c1] at e2; cases e2; exact absurd rfl h01
    · have : k2.a = ul := by
        rcases h2' with h' | h' | h'
        · exact h'.1
        · exact h'.1
        · rw [h'.1, k.c1] at e2; cases e2; exact absurd rfl h01
      rw [← this]; exact h
  obtain ⟨ka, kL⟩ := k2
  simp only at h2a h2L hst2
  subst h2a
  have hrowL : RowL P A dd (ks'.map (·.a)) := hul.congr k.lL
  cases hlt : lab ti with
  | false =>
    obtain ⟨hm, rfl, rfl⟩ := R.cur.out hlt
    simp only at hm
    subst hm
    obtain ⟨rfl, hst'⟩ := h2L (by rw [← lab2, hlt])
    refine ⟨⟨dd, none, bs, mst⟩, ⟨dd, [], []⟩, gs, ks', [], ?_, ?_⟩
    · rw [triStepB_out hnd hft rfl]
      simp only [descendB, joinVB, BM.pure_def, BM.mk_ok_bind, leaveV, if_true, BM.lift]; rfl
    · refine R.next (.mkOut hdd.1 (by rw [lab3, ← lab2, hlt])) R.rest hst' hrowL hrowR (by simp [hnext]) (by simp) ?_
      intro G _ g β hdeg
      simp [finW, PG.wt, KG.wt, visW, hlt]
  | true =>
    obtain ⟨l, r, u, d', hin⟩ := D.ins htM hlt
    have e3 : d' = d := by have := hin.down; rw [hTd] at this; cases this; rfl
    subst e3
    obtain ⟨c1, c2, hm⟩ := R.cur.ins l r u d' hin
    simp only at hm c1 c2
    subst hm
    have e4 : l = s1 := by have := hin.left; rw [k.r1] at this; cases this; rfl
    subst e4
    obtain ⟨l0, mst', hl0, hch0, hkne, rfl, hst'⟩ := hst2 (by rw [← lab2, hlt])
    have hadv := advance_run D htM hT hin.left hin.right hin.up hvi hc c1.nil_iff c2.nil_iff
    have n2 := (k.pR r hin.right).ne
    rw [if_pos ⟨k.mn1.symm, n2⟩, ← toB_newFin] at hadv
    have c1' := hin.chL D c1
    have c2' := hin.chR D c2
    obtain ⟨l1, r1, u1, d1, hin1⟩ := D.ins hdd.1 (by rw [lab3, ← lab2, hlt])
    have f1 : r1 = r := by have := hin1.right; rw [k.rR, hin.right] at this; cases this; rfl
    have f2 : l1 = l0 := by have := hin1.left; rw [k.lL, hl0] at this; cases this; rfl
    have f3 : u1 = d' := by have := hin1.up; rw [hdd.2] at this; cases this; rfl
    subst f1 f2 f3
    refine ⟨⟨dd, some (.two (chn key (A.mx l1) kL) (chn key (A.mx r1) (Rr ++ [u1]))), bs, mst'⟩, ⟨dd, kL, Rr ++ [u1]⟩, gs, ks', newFin l L u1, ?_, ?_⟩
    · rw [← List.append_nil ((newFin l L u1).map _)]
      refine triStepB_in hnd hft rfl hadv ?_
      simp only [descendB, joinVB, if_neg hne1, if_neg hne2, if_true, Ot.okOne, BM.lift_ok_bind, BM.pure_def, BM.mk_ok_bind, leaveV,
        BM.lift]; rfl
    · refine R.next (.mkIn hin1 hch0 c2' ?_) R.rest hst' hrowL hrowR (by simp [hnext]) (c1'.newFin_ok k.S1 k.mn1) ?_
      · simp [comb, hkne]
      · intro G _ g β hdeg
        rw [hin.visW, if_neg n2, if_pos k.mn1.symm, c1.newFin_wt hdeg k.S1 k.mn1]
        simp only [PG.wt, KG.wt, hin1.right, hin1.left, hl0, hin.left, hin.right, Option.getD_some, c2.wt_snoc, wt_nil, hin.sl, hin.sr, List.map_cons,
          List.sum_cons]
        abel

/-- One step of the traversal. -/
theorem Dfs.step (D : Dfs P p xy A st key lab sgn) {top : Nat} {x : TI I K} {g0 : PG} {gs : List PG} {ks : List KG} {W : List Nat}
    {fin : List (Nat × List Nat)} (R : Run P A key lab sgn top x g0 gs ks W fin) {tr : Trapezoid} {d : Nat}
    (htr : st.ts[x.ti]? = some tr) (hd : tr.down = some d) :
    ∃ x' g0' gs' ks' new, triStepB p xy st x tr d = ⟨new.map (toB key A), .ok x'⟩ ∧
      Run P A key lab sgn top x' g0' gs' ks' (x.ti :: W) (fin ++ new) := by
  have hI := D.whole.inv
  have htM : x.ti < A.M := by have h1 := R.cur.t; have h2 := R.cur.M; simp only at h1; rw [h1]; exact h2
  obtain ⟨tr', htr', hT⟩ := D.ts x.ti htM
  rw [htr] at htr'; cases htr'
  obtain ⟨hdN, hmem⟩ := hI.downM x.ti htM d (by rw [hT]; exact hd)
  rcases D.whole.kind d hdN with ⟨u, dl, dc, dr, s0, s1, k⟩ | ⟨ul, ur, dl, dr, s0, s1, k⟩ | ⟨ul, uc, ur, dd, s0, s1, k⟩
  · rw [k.ups] at hmem
    simp only [List.mem_cons, List.not_mem_nil, or_false] at hmem
    subst hmem
    exact D.step_A R htr hd hdN k
  · rw [k.ups] at hmem
    simp only [List.mem_cons, List.not_mem_nil, or_false] at hmem
    rcases hmem with rfl | rfl
    · exact D.step_IL R htr hd hdN k
    · exact D.step_IR R htr hd hdN k
  · rw [k.ups] at hmem
    simp only [List.mem_cons, List.not_mem_nil, or_false] at hmem
    rcases hmem with rfl | rfl | rfl
    · exact D.step_VL R htr hd hdN k
    · exact D.step_VC R htr hd hdN k
    · exact D.step_VR R htr hd hdN k

end Tri
