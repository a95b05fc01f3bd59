import Mathlib.Algebra.BigOperators.Group.List.Basic
import Mathlib.Tactic.Abel
import Verif.Proof.Chain
import Verif.Spec.Mesh

/-!
# Sums over directed edges
-/

set_option linter.unusedSectionVars false

namespace Tri

variable {I V C α β : Type}

/-! ## Neighbours in a list -/

/-- Neighbouring elements. -/
def pairs : List α → List (α × α)
  | a :: b :: l => (a, b) :: pairs (b :: l)
  | _ => []

theorem zip_tail (l : List α) : l.zip l.tail = pairs l := by
  induction l with
  | nil => rfl
  | cons a l ih =>
    cases l with
    | nil => rfl
    | cons b l =>
      simp only [List.tail_cons, List.zip_cons_cons, pairs]
      rw [← ih]; rfl

theorem pairs_append (l l' : List α) (a : α) : pairs (l ++ a :: l') = pairs (l ++ [a]) ++ pairs (a :: l') := by
  induction l with
  | nil => rfl
  | cons b l ih =>
    cases l with
    | nil => rfl
    | cons c l => simp only [List.cons_append, pairs] at ih ⊢; rw [ih]

theorem pairs_reverse (l : List α) : pairs l.reverse = ((pairs l).map Prod.swap).reverse := by
  induction l with
  | nil => rfl
  | cons a l ih =>
    cases l with
    | nil => rfl
    | cons b l =>
      have : (a :: b :: l).reverse = l.reverse ++ b :: [a] := by simp
      rw [this, pairs_append]
      have e : l.reverse ++ [b] = (b :: l).reverse := by simp
      rw [e, ih]
      simp [pairs]

theorem pairs_map (g : α → β) (l : List α) : pairs (l.map g) = (pairs l).map (Prod.map g g) := by
  induction l with
  | nil => rfl
  | cons a l ih =>
    cases l with
    | nil => rfl
    | cons b l =>
      simp only [List.map_cons, pairs] at ih ⊢
      rw [ih]; rfl

theorem pairs_length (l : List α) : (pairs l).length = l.length - 1 := by
  induction l with
  | nil => rfl
  | cons a l ih =>
    cases l with
    | nil => rfl
    | cons b l => simp only [pairs, List.length_cons] at ih ⊢; omega

theorem fanTriangles_pairs (r : α) (W : List α) :
    fanTriangles (r :: W) = (pairs W).map fun p => (r, p.1, p.2) := by
  rw [← zip_tail]; rfl

theorem earsOf_pairs (bt : Bool) (r : α) (W : List α) :
    earsOf bt r W = (pairs W).map fun p => if bt then (p.2, p.1, r) else (r, p.1, p.2) := by
  rw [← zip_tail]; rfl

/-- An ear of a left or right chain as a counterclockwise triangle. -/
def earTri (left : Bool) (e : α × α × α) : α × α × α := if left then e else (e.2.2, e.2.1, e.1)

/-- `t'` is `t`, possibly starting with another vertex. -/
def Rot (t t' : α × α × α) : Prop :=
  t' = t ∨ t' = (t.2.1, t.2.2, t.1) ∨ t' = (t.2.2, t.1, t.2.1)

/-- The triangles of a fan made for a counterclockwise format are the ears, turned. -/
theorem fan_tris (left bt : Bool) (r : α) (W : List α) (hW : 2 ≤ W.length) :
    (fanTriangles (fanOf .counterclockwise left bt r W)).Perm
      ((pairs W).map fun p => if bt = left then (r, p.2, p.1) else (r, p.1, p.2)) := by
  unfold fanOf
  have : (Winding.counterclockwise == .clockwise) = false := rfl
  rw [this]
  cases bt <;> cases left
  · simp only [Bool.xor_self, Bool.false_eq_true, if_false, if_true]
    rw [fanTriangles_pairs, pairs_reverse, List.map_reverse]
    refine (List.reverse_perm _).trans ?_
    rw [List.map_map]
    exact List.Perm.refl _
  · rcases W with _ | ⟨b, _ | ⟨x, P⟩⟩
    · simp at hW
    · simp at hW
    · simp only [Bool.xor_true, Bool.not_false, Bool.xor_false, if_true, Bool.false_eq_true, if_false]
      rw [fanTriangles_pairs]
  · rcases W with _ | ⟨b, _ | ⟨x, P⟩⟩
    · simp at hW
    · simp at hW
    · simp only [Bool.xor_false, if_true, Bool.true_eq_false, if_false]
      rw [fanTriangles_pairs]
  · simp only [Bool.xor_self, Bool.false_eq_true, if_false, if_true]
    rw [fanTriangles_pairs, pairs_reverse, List.map_reverse]
    refine (List.reverse_perm _).trans ?_
    rw [List.map_map]
    exact List.Perm.refl _

theorem fan_rot (left bt : Bool) (r : α) (W : List α) :
    List.Forall₂ Rot ((earsOf bt r W).map (earTri left))
      ((pairs W).map fun p => if bt = left then (r, p.2, p.1) else (r, p.1, p.2)) := by
  rw [earsOf_pairs, List.map_map]
  induction pairs W with
  | nil => exact .nil
  | cons p l ih =>
    refine .cons ?_ ih
    cases bt <;> cases left <;> simp [Rot, earTri]

theorem fan_length (w : Winding) (left bt : Bool) (r : α) (W : List α) (hW : 2 ≤ W.length) :
    (fanTriangles (fanOf w left bt r W)).length = W.length - 1 ∧
    3 ≤ (fanOf w left bt r W).length := by
  have h : ∀ r' (W' : List α), W'.length = W.length → (fanTriangles (r' :: W')).length = W.length - 1 := by
    intro r' W' h
    rw [fanTriangles_pairs, List.length_map, pairs_length, h]
  unfold fanOf
  rcases W with _ | ⟨b, _ | ⟨x, P⟩⟩
  · simp at hW
  · simp at hW
  · split
    · simp only
      split
      · exact ⟨h _ _ (by simp), by simp⟩
      · exact ⟨h _ _ (by simp), by simp⟩
    · exact ⟨h _ _ (by simp), by simp⟩

/-! ## Sums -/

variable {G : Type} [AddCommGroup G]

/-- The sum of `f` over directed edges. -/
def esum (f : α → α → G) (es : List (α × α)) : G := (es.map fun e => f e.1 e.2).sum

/-- The sum of `f` around a triangle. -/
def tsum (f : α → α → G) (t : α × α × α) : G := f t.1 t.2.1 + f t.2.1 t.2.2 + f t.2.2 t.1

theorem esum_append (f : α → α → G) (es es' : List (α × α)) :
    esum f (es ++ es') = esum f es + esum f es' := by simp [esum]

theorem esum_sides (f : α → α → G) (ts : List (α × α × α)) :
    esum f (ts.flatMap sides) = (ts.map (tsum f)).sum := by
  induction ts with
  | nil => rfl
  | cons t ts ih =>
    rw [List.flatMap_cons, esum_append, ih, List.map_cons, List.sum_cons]
    congr 1
    simp [esum, sides, tsum, add_assoc]

theorem tsum_rot (f : α → α → G) {t t' : α × α × α} (h : Rot t t') : tsum f t' = tsum f t := by
  rcases h with rfl | rfl | rfl
  · rfl
  · simp only [tsum]; abel
  · simp only [tsum]; abel

theorem tsum_rev {f : α → α → G} (hf : ∀ a b, f a b = - f b a) (a b c : α) :
    tsum f (c, b, a) = - tsum f (a, b, c) := by
  simp only [tsum]
  rw [hf c b, hf b a, hf a c]; abel

theorem cycleEdges_eq (a : α) (l : List α) : cycleEdges (a :: l) = pairs (a :: l ++ [a]) := by
  have : ∀ (x : α) (l : List α), (x :: l).zip (l ++ [a]) = pairs (x :: l ++ [a]) := by
    intro x l
    induction l generalizing x with
    | nil => rfl
    | cons y l ih =>
      simp only [List.cons_append, List.zip_cons_cons, pairs, List.cons.injEq, true_and]
      exact ih y
  exact this a l

theorem esum_cycle_ear {f : α → α → G} (hf : ∀ a b, f a b = - f b a) (X : List α) (a b c : α)
    (Y : List α) : esum f (cycleEdges (X ++ a :: b :: c :: Y)) =
      tsum f (a, b, c) + esum f (cycleEdges (X ++ a :: c :: Y)) := by
  have main : ∀ (x : α) (A B : List α), esum f (pairs (A ++ a :: b :: c :: B)) =
      tsum f (a, b, c) + esum f (pairs (A ++ a :: c :: B)) := by
    intro x A B
    rw [pairs_append A (b :: c :: B) a, pairs_append A (c :: B) a]
    simp only [pairs, esum_append]
    simp only [esum, List.map_cons, List.sum_cons, tsum]
    rw [hf c a]
    abel
  cases X with
  | nil =>
    simp only [List.nil_append, cycleEdges_eq]
    exact main a [] (Y ++ [a])
  | cons x X =>
    simp only [List.cons_append, cycleEdges_eq]
    have := main x (x :: X) (Y ++ [x])
    simpa using this

theorem Ears.esum {ok : α → α → α → Prop} {f : α → α → G} (hf : ∀ a b, f a b = - f b a) {L L' : List α}
    {T : List (α × α × α)} (h : Ears ok L T L') (h2 : L'.length = 2) :
    Tri.esum f (cycleEdges L) = (T.map (tsum f)).sum := by
  induction h with
  | nil L =>
    obtain ⟨x, y, rfl⟩ := List.length_eq_two.1 h2
    simp only [cycleEdges_eq, List.cons_append, List.nil_append, pairs, Tri.esum, List.map_cons,
      List.map_nil, List.sum_cons, List.sum_nil]
    rw [hf y x]; simp
  | cons X a b c Y T L' h1 h3 ih =>
    rw [esum_cycle_ear hf, ih h2, List.map_cons, List.sum_cons]

/-- The triangles of a chain's fans, for a counterclockwise format: turned ears. -/
theorem fans_perm (left : Bool) (fs : List (FanRec α)) (h : ∀ f ∈ fs, 2 ≤ f.outer.length) :
    ∃ T, ((fs.map fun f => fanOf .counterclockwise left f.bt f.root f.outer).flatMap fanTriangles).Perm T ∧
      List.Forall₂ Rot ((fs.flatMap fun f => earsOf f.bt f.root f.outer).map (earTri left)) T := by
  induction fs with
  | nil => exact ⟨[], List.Perm.refl _, .nil⟩
  | cons f fs ih =>
    obtain ⟨T, h1, h2⟩ := ih fun f hf => h f (by simp [hf])
    refine ⟨((pairs f.outer).map fun p => if f.bt = left then (f.root, p.2, p.1)
      else (f.root, p.1, p.2)) ++ T, ?_, ?_⟩
    · rw [List.map_cons, List.flatMap_cons]
      exact (fan_tris left f.bt f.root f.outer (h f (by simp))).append h1
    · rw [List.flatMap_cons, List.map_append]
      exact List.rel_append (fan_rot left f.bt f.root f.outer) h2

theorem sum_rot (f : α → α → G) {T T' : List (α × α × α)} (h : List.Forall₂ Rot T T') :
    (T'.map (tsum f)).sum = (T.map (tsum f)).sum := by
  induction h with
  | nil => rfl
  | cons h1 h2 ih => rw [List.map_cons, List.map_cons, List.sum_cons, List.sum_cons, ih, tsum_rot f h1]

theorem sum_earTri {f : α → α → G} (hf : ∀ a b, f a b = - f b a) (left : Bool) (T : List (α × α × α)) :
    ((T.map (earTri left)).map (tsum f)).sum =
      if left then (T.map (tsum f)).sum else - (T.map (tsum f)).sum := by
  cases left
  · simp only [Bool.false_eq_true, if_false]
    induction T with
    | nil => simp
    | cons t T ih =>
      simp only [List.map_cons, List.sum_cons, neg_add]
      rw [ih]
      congr 1
      exact tsum_rev hf t.1 t.2.1 t.2.2
  · simp only [if_true]
    congr 1
    rw [List.map_map]
    rfl

theorem pairs_esum_reverse {f : α → α → G} (hf : ∀ a b, f a b = - f b a) (l : List α) :
    esum f (pairs l.reverse) = - esum f (pairs l) := by
  rw [pairs_reverse]
  unfold esum
  rw [List.map_reverse, List.sum_reverse, List.map_map]
  induction pairs l with
  | nil => simp
  | cons p l ih =>
    simp only [List.map_cons, List.sum_cons, ih, neg_add]
    congr 1
    exact hf _ _

theorem esum_cycle_reverse {f : α → α → G} (hf : ∀ a b, f a b = - f b a) (l : List α) :
    esum f (cycleEdges l.reverse) = - esum f (cycleEdges l) := by
  cases l with
  | nil => simp [cycleEdges, esum]
  | cons a l =>
    rcases List.eq_nil_or_concat' l with rfl | ⟨A, b, rfl⟩
    · simp only [List.reverse_cons, List.reverse_nil, List.nil_append, cycleEdges_eq,
        List.cons_append, pairs, esum, List.map_cons, List.map_nil, List.sum_cons, List.sum_nil, add_zero]
      exact hf a a
    · have e : (a :: (A ++ [b])).reverse = b :: (A.reverse ++ [a]) := by simp
      have e1 : b :: (A.reverse ++ [a]) ++ [b] = (b :: A.reverse) ++ a :: [b] := by simp
      have e2 : a :: (A ++ [b]) ++ [a] = (a :: A) ++ b :: [a] := by simp
      have e3 : b :: A.reverse ++ [a] = (a :: A ++ [b]).reverse := by simp
      rw [e, cycleEdges_eq, cycleEdges_eq, e1, e2, pairs_append, pairs_append (a :: A), esum_append,
        esum_append, e3, pairs_esum_reverse hf, neg_add]
      congr 1
      simp only [pairs, esum, List.map_cons, List.map_nil, List.sum_cons, List.sum_nil, add_zero]
      exact hf a b

end Tri

namespace Tri

variable {I V C : Type}

/-- The edge function whose sums are `net` counts. -/
def netFn [DecidableEq I] (u v a b : I) : Int :=
  (if (a, b) = (u, v) then 1 else 0) - (if (a, b) = (v, u) then 1 else 0)

theorem netFn_anti [DecidableEq I] (u v a b : I) : netFn u v a b = - netFn u v b a := by
  unfold netFn
  simp only [Prod.mk.injEq]
  simp only [and_comm (a := b = u), and_comm (a := b = v)]
  omega

theorem esum_netFn [DecidableEq I] (u v : I) (es : List (I × I)) : esum (netFn u v) es = net es u v := by
  induction es with
  | nil => rfl
  | cons e es ih =>
    have : esum (netFn u v) (e :: es) = netFn u v e.1 e.2 + esum (netFn u v) es := by simp [esum]
    rw [this, ih]
    simp only [net, netFn, List.count_cons, beq_iff_eq, Prod.mk.eta]
    split <;> split <;> push_cast <;> omega

theorem esum_map {G : Type} [AddCommGroup G] {α β : Type} (f : β → β → G) (g : α → β) (es : List (α × α)) :
    esum f (es.map (Prod.map g g)) = esum (fun a b => f (g a) (g b)) es := by
  simp [esum, Function.comp_def]

theorem cycleEdges_map {α β : Type} (g : α → β) (l : List α) :
    cycleEdges (l.map g) = (cycleEdges l).map (Prod.map g g) := by
  cases l with
  | nil => rfl
  | cons a l =>
    rw [List.map_cons, cycleEdges_eq, cycleEdges_eq, ← pairs_map]; simp

/-- Triangles over an image. -/
def mapTri {α β : Type} (g : α → β) (t : α × α × α) : β × β × β := (g t.1, g t.2.1, g t.2.2)

theorem fanTriangles_map {α β : Type} (g : α → β) (l : List α) :
    fanTriangles (l.map g) = (fanTriangles l).map (mapTri g) := by
  cases l with
  | nil => rfl
  | cons r W =>
    rw [List.map_cons, fanTriangles_pairs, fanTriangles_pairs, pairs_map, List.map_map, List.map_map]
    rfl

theorem fanOf_map {α β : Type} (g : α → β) (w : Winding) (left bt : Bool) (r : α) (W : List α) :
    (fanOf w left bt r W).map g = fanOf w left bt (g r) (W.map g) := by
  unfold fanOf
  split
  · rcases W with _ | ⟨b, _ | ⟨x, P⟩⟩
    · rfl
    · rfl
    · simp only [List.map_cons]
      split <;> rfl
  · simp

variable [Scalar C]

/-- What one run over a chain does, for the chain given to `build`. -/
theorem chain_run (b : MonoB I C) (M : Mono I C) (hb : b.build = .ok (some M)) (fuel : Nat) :
    ∃ fs : List (FanRec (I × Coords C)), ∃ L',
      (∀ f ∈ fs, 2 ≤ f.outer.length) ∧
      (∀ w, (Mono.buildFans (m := TrM I) w fuel M).calls =
        (fs.map fun f => (fanOf w M.isLeftChain f.bt f.root f.outer).map Prod.fst).flatMap fanCalls) ∧
      Ears (earOk M.isLeftChain) (b.first :: b.rest) (fs.flatMap fun f => earsOf f.bt f.root f.outer) L' ∧
      ((∀ w, (Mono.buildFans (m := TrM I) w fuel M).res = .error .timeout) ∨
        (∀ w, (Mono.buildFans (m := TrM I) w fuel M).res = .ok ()) ∧ L'.length = 2) := by
  unfold MonoB.build at hb
  split at hb
  · next v1 v2 tl hr =>
    split at hb
    · simp only [Except.ok.injEq, Option.some.injEq] at hb
      have hR : Rep M [v1, b.first] [] (v2 :: tl) := by
        subst hb
        exact ⟨by simp, rfl, rfl⟩
      obtain ⟨fs, L', h1, h2, h3, h4⟩ := buildFans_tr (I := I) fuel M _ _ _ hR (by simp)
      refine ⟨fs, L', h1, ?_, ?_, h4⟩
      · intro w; rw [h2, List.flatMap_map]
      · simpa [hr] using h3
    · cases hb
  · cases hb

theorem feed_recorder (w : Winding) (cs l : List (Call I)) :
    feed (recorder I w) cs (.init l) = (.init (l ++ cs), .ok ()) := by
  induction cs generalizing l with
  | nil => simp [feed]
  | cons c cs ih =>
    cases c with
    | newFan x y z =>
      show feed (recorder I w) cs (.init (l ++ [.newFan x y z])) = _
      rw [ih]; simp
    | extend v =>
      show feed (recorder I w) cs (.init (l ++ [.extend v])) = _
      rw [ih]; simp

end Tri
