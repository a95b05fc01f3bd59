import Mathlib.Data.List.Forall2
import Verif.Proof.Play

/-!
# Triangulation of one chain: ears of a list of vertices
-/

set_option linter.unusedSectionVars false

namespace Tri

variable {I V C α : Type}

/-- `Ears ok L T L'`: cutting off the ears `T` one after the other turns the list `L` into `L'`.  An
ear `(a, b, c)` removes `b` from between its neighbours `a` and `c`, and satisfies `ok`. -/
inductive Ears (ok : α → α → α → Prop) : List α → List (α × α × α) → List α → Prop
  | nil (L : List α) : Ears ok L [] L
  | cons (X : List α) (a b c : α) (Y : List α) (T : List (α × α × α)) (L' : List α) : ok a b c →
      Ears ok (X ++ a :: c :: Y) T L' → Ears ok (X ++ a :: b :: c :: Y) ((a, b, c) :: T) L'

theorem Ears.append {ok : α → α → α → Prop} {L L' L'' : List α} {T T' : List (α × α × α)}
    (h : Ears ok L T L') (h' : Ears ok L' T' L'') : Ears ok L (T ++ T') L'' := by
  induction h with
  | nil L => exact h'
  | cons X a b c Y T L' h1 h2 ih => exact .cons X a b c Y _ _ h1 (ih h')

theorem Ears.cast {ok : α → α → α → Prop} {L L' K K' : List α} {T : List (α × α × α)}
    (h : Ears ok L T L') (h1 : K = L) (h2 : K' = L') : Ears ok K T K' := by
  subst h1 h2; exact h

theorem Ears.length {ok : α → α → α → Prop} {L L' : List α} {T : List (α × α × α)}
    (h : Ears ok L T L') : L.length = T.length + L'.length := by
  induction h with
  | nil L => simp
  | cons X a b c Y T L' h1 h2 ih => simp at ih ⊢; omega

/-- `M` holds the stack `S` (top first), the expended vertices `D` and the pending vertices `Q`. -/
structure Rep (M : Mono I C) (S D Q : List (I × Coords C)) : Prop where
  arr : M.arr = S.reverse ++ (D ++ Q)
  sk : M.skippedTop = S.length
  pt : M.pendingTop = S.length + D.length

theorem getP_append {xs ys : List α} {i : Nat} (h : i = xs.length) (a : α) (ys' : List α) (hy : ys = a :: ys') :
    (getP (xs ++ ys) i : Res IErr α) = .ok a := by
  subst h hy
  simp [getP]

def rotL : List α → List α
  | [] => []
  | a :: l => l ++ [a]

theorem rotL_length (l : List α) : (rotL l).length = l.length := by
  cases l <;> simp [rotL]

namespace Rep
variable {M : Mono I C} {S D Q : List (I × Coords C)} {a b c : I × Coords C}

theorem skippedPeek (h : Rep M (a :: S) D Q) : M.skippedPeek = .ok a := by
  unfold Mono.skippedPeek
  rw [h.sk, h.arr]
  simp [subP, getP, bind, Except.bind]

theorem skippedPeek2 (h : Rep M (b :: a :: S) D Q) : M.skippedPeek2 = .ok (a, b) := by
  unfold Mono.skippedPeek2
  rw [h.sk, h.arr]
  simp [subP, getP, bind, Except.bind]

theorem skippedPop (h : Rep M (a :: S) D Q) :
    M.skippedPop = .ok (a, { M with skippedTop := S.length }) ∧
      Rep { M with skippedTop := S.length } S (a :: D) Q := by
  refine ⟨?_, ?_, rfl, ?_⟩
  · unfold Mono.skippedPop
    rw [h.sk, h.arr]
    simp [subP, getP, bind, Except.bind]
  · simp [h.arr]
  · simp [h.pt]; omega

theorem pendingPeek (h : Rep M S D (a :: Q)) : M.pendingPeek = .ok a := by
  unfold Mono.pendingPeek
  rw [h.pt, h.arr, ← List.append_assoc]
  exact getP_append (by simp) a Q rfl

theorem remaining (h : Rep M S D Q) : M.remaining = .ok (Q.length + S.length) := by
  unfold Mono.remaining
  rw [h.sk, h.arr, h.pt]
  have : S.length + D.length ≤ S.length + (D.length + Q.length) := by omega
  simp only [List.length_append, List.length_reverse, subP, if_pos this, bind, Except.bind]
  congr 2
  omega

theorem hasPending (h : Rep M S D Q) : M.hasPending = decide (Q ≠ []) := by
  unfold Mono.hasPending
  rw [h.arr, h.pt]
  congr 1
  cases Q <;> simp

theorem transferPending (h : Rep M S D (a :: Q)) :
    ∃ M', M.transferPending = .ok M' ∧ M'.isLeftChain = M.isLeftChain ∧ Rep M' (a :: S) (rotL D) Q := by
  unfold Mono.transferPending Mono.swapIfNe
  cases D with
  | nil =>
    have : M.skippedTop = M.pendingTop := by rw [h.sk, h.pt]; simp
    rw [if_neg (by simp [this])]
    refine ⟨_, rfl, rfl, ?_, ?_, ?_⟩
    · simp [h.arr, rotL]
    · simp [h.sk]
    · simp [h.pt, rotL]
  | cons d D =>
    have hne : M.skippedTop ≠ M.pendingTop := by rw [h.sk, h.pt]; simp
    rw [if_pos hne]
    unfold Mono.swapP
    have g1 : (getP M.arr M.skippedTop : Res IErr _) = .ok d := by
      rw [h.arr, h.sk]
      exact getP_append (by simp) d _ (List.cons_append ..)
    have g2 : (getP M.arr M.pendingTop : Res IErr _) = .ok a := by
      rw [h.arr, h.pt, ← List.append_assoc]
      exact getP_append (by simp) a Q rfl
    rw [g1, g2]
    refine ⟨_, rfl, rfl, ?_, ?_, ?_⟩
    · simp only [h.arr, h.sk, h.pt]
      rw [List.set_append_right _ _ (by simp)]
      simp only [List.length_reverse, Nat.sub_self, List.cons_append, List.set_cons_zero]
      rw [List.set_append_right _ _ (by simp)]
      simp only [List.length_reverse, List.length_cons, Nat.add_sub_cancel_left, List.set_cons_succ]
      rw [List.set_append_right _ _ (by simp)]
      simp [rotL]
    · simp [h.sk]
    · simp [h.pt, rotL]; omega

theorem reset (h : Rep M S D []) {x y : I × Coords C} {L : List (I × Coords C)}
    (hS : S.reverse = x :: y :: L) : Rep M.resetPosition [y, x] [] L := by
  refine ⟨?_, rfl, rfl⟩
  show List.take M.skippedTop M.arr = _
  rw [h.arr, h.sk]
  simp [hS]
  have : S.length = L.length + 2 := by
    rw [← List.length_reverse, hS]; simp
  rw [this]
  simp

theorem deferredBack (h : Rep M S D Q) {i : Nat} (hi : D[i]? = some a) :
    M.deferredIndex true i = .ok a.1 := by
  unfold Mono.deferredIndex Mono.deferredPos
  rw [h.arr, h.sk]
  have : i < D.length := (List.getElem?_eq_some_iff.1 hi).1
  have e : (S.reverse ++ (D ++ Q))[S.length + i]? = some a := by
    rw [List.getElem?_append_right (by simp)]
    simp only [List.length_reverse, Nat.add_sub_cancel_left]
    rw [List.getElem?_append_left this, hi]
  simp [getP, bind, Except.bind, e]

theorem deferredAdv (h : Rep M S D Q) {i : Nat} (hi : D.reverse[i]? = some a) :
    M.deferredIndex false i = .ok a.1 := by
  unfold Mono.deferredIndex Mono.deferredPos
  rw [h.arr, h.pt]
  have hl : i < D.length := by
    have := (List.getElem?_eq_some_iff.1 hi).1
    simpa using this
  have e : (S.reverse ++ (D ++ Q))[S.length + D.length - 1 - i]? = some a := by
    rw [List.getElem?_append_right (by simp; omega)]
    simp only [List.length_reverse]
    rw [List.getElem?_append_left (by omega), ← hi, List.getElem?_reverse hl]
    congr 1
    omega
  have h1 : 1 ≤ S.length + D.length := by omega
  have h2 : i ≤ S.length + D.length - 1 := by omega
  simp [subP, h1, h2, getP, bind, Except.bind, e]

end Rep

section
variable [Scalar C]

/-- The test of `can_triangulate` for the ear `b` between `a` and `c`. -/
def earOk (left : Bool) (a b c : I × Coords C) : Prop := isLeftOfLine c.2 a.2 b.2 = left

theorem Rep.can {M : Mono I C} {S D Q : List (I × Coords C)} (h : Rep M S D Q) :
    (M.canTriangulate = .ok true ∧ ∃ b a S' c Q', S = b :: a :: S' ∧ Q = c :: Q' ∧
      earOk M.isLeftChain a b c) ∨
    (M.canTriangulate = .ok false ∧ ∀ b a S' c Q', S = b :: a :: S' → Q = c :: Q' →
      ¬ earOk M.isLeftChain a b c) := by
  unfold Mono.canTriangulate
  rw [h.sk, h.hasPending]
  rcases S with _ | ⟨b, _ | ⟨a, S⟩⟩
  · right; simp
  · right; simp
  · rcases Q with _ | ⟨c, Q⟩
    · right; simp
    · simp only [List.length_cons, ne_eq, reduceCtorEq, not_false_eq_true, decide_true, and_true]
      rw [if_pos (by omega), h.pendingPeek, h.skippedPeek2]
      simp only [bind, Except.bind]
      by_cases hb : isLeftOfLine c.2 a.2 b.2 = M.isLeftChain
      · left
        exact ⟨by simp [hb], _, _, _, _, _, rfl, rfl, hb⟩
      · right
        refine ⟨by simp [Ne.symm hb], ?_⟩
        rintro b' a' S' c' Q' h1 h2 h3
        cases h1; cases h2
        exact hb h3

/-- What a fan's bookkeeping becomes after `n` more triangles. -/
def Mono.Bodt.grow : Mono.Bodt → Nat → Mono.Bodt
  | .builder, _ => .builder
  | .deferred dt, n => .deferred (dt + n)

/-- The calls for further outer vertices `vs`. -/
def Mono.Bodt.ext (b : Mono.Bodt) (vs : List (I × Coords C)) : List (Call I) :=
  match b with
  | .builder => vs.map fun v => .extend v.1
  | .deferred _ => []

theorem addTriangle_tr (b : Mono.Bodt) (v : I × Coords C) :
    (b.addTriangle v.1 : TrM I Mono.Bodt) = ⟨b.ext [v], .ok (b.grow 1)⟩ := by
  cases b <;> rfl

theorem Mono.Bodt.ext_grow (b : Mono.Bodt) (n : Nat) (vs : List (I × Coords C)) :
    (b.grow n).ext vs = b.ext vs := by cases b <;> rfl

theorem Mono.Bodt.ext_append (b : Mono.Bodt) (u v : List (I × Coords C)) :
    b.ext (u ++ v) = b.ext u ++ b.ext v := by cases b <;> simp [ext]

theorem Mono.Bodt.grow_grow (b : Mono.Bodt) (n m : Nat) : (b.grow n).grow m = b.grow (n + m) := by
  cases b
  · rfl
  · simp [grow, Nat.add_assoc]

/-- The backtracking loop pops `P`. -/
theorem backLoop_tr (fuel : Nat) (M : Mono I C) (s0 : I × Coords C)
    (S D Q : List (I × Coords C)) (c : I × Coords C) (hR : Rep M (s0 :: S) D (c :: Q))
    (hf : S.length < fuel) :
    ∃ M' P s S', s0 :: S = P ++ s :: S' ∧ Rep M' (s :: S') (P.reverse ++ D) (c :: Q) ∧
      M'.isLeftChain = M.isLeftChain ∧ M'.arr.length = M.arr.length ∧
      (∀ b : Mono.Bodt, Mono.backLoop (m := TrM I) fuel M b =
        ⟨b.ext (P ++ [s]).tail, .ok (M', b.grow P.length)⟩) ∧
      (∀ X x y Y, P ++ [s] = X ++ x :: y :: Y → earOk M.isLeftChain y x c) := by
  induction fuel generalizing M s0 S D with
  | zero => omega
  | succ k ih =>
    unfold Mono.backLoop
    rcases hR.can with ⟨hc, b1, a1, S1, c1, Q1, hS, hQ, hok⟩ | ⟨hc, -⟩
    · rw [hc]
      cases hQ
      cases hS
      obtain ⟨hp1, hp2⟩ := hR.skippedPop
      obtain ⟨M', P, s, S', h1, h2, h3, h3', h4, h5⟩ := ih _ a1 S1 (s0 :: D) hp2
        (by simp at hf; omega)
      refine ⟨M', s0 :: P, s, S', by rw [h1]; rfl, by simpa using h2, h3, h3', ?_, ?_⟩
      · intro b
        rw [TrM.lift_ok, if_pos rfl, hp1, TrM.lift_ok]
        simp only
        rw [hp2.skippedPeek, TrM.lift_ok, addTriangle_tr, TrM.mk_ok_bind, h4]
        simp only [List.cons_append, List.tail_cons, Mono.Bodt.ext_grow, Mono.Bodt.grow_grow,
          List.length_cons, TrM.mk.injEq]
        refine ⟨?_, by rw [Nat.add_comm]⟩
        rw [← Mono.Bodt.ext_append]
        congr 1
        cases P with
        | nil =>
          simp only [List.nil_append, List.cons.injEq] at h1
          simp [h1.1]
        | cons p P =>
          simp only [List.cons_append, List.cons.injEq] at h1
          simp [h1.1]
      · intro X x y Y hX
        cases X with
        | nil =>
          simp only [List.cons_append, List.nil_append, List.cons.injEq] at hX
          obtain ⟨rfl, hX⟩ := hX
          have : y = a1 := by
            cases P with
            | nil =>
              simp only [List.nil_append, List.cons.injEq] at h1 hX
              rw [← hX.1, ← h1.1]
            | cons p P =>
              simp only [List.cons_append, List.cons.injEq] at h1 hX
              rw [← hX.1, ← h1.1]
          rw [this]
          exact hok
        | cons x0 X =>
          simp only [List.cons_append, List.cons.injEq] at hX
          exact h5 X x y Y hX.2
    · rw [hc]
      refine ⟨M, [], s0, S, rfl, hR, rfl, rfl, ?_, ?_⟩
      · intro b
        rw [TrM.lift_ok, if_neg (by simp)]
        cases b <;> rfl
      · intro X x y Y hX
        have := congrArg List.length hX
        simp at this
        omega

/-- The advancing loop consumes `P`. -/
theorem advLoop_tr (fuel : Nat) (M : Mono I C) (t a : I × Coords C)
    (S D Q : List (I × Coords C)) (hR : Rep M (t :: a :: S) D Q) (hf : Q.length < fuel) :
    ∃ M' P Q', Q = P ++ Q' ∧
      Rep M' ((t :: P).getLast (by simp) :: a :: S) (D ++ (t :: P).dropLast) Q' ∧
      M'.isLeftChain = M.isLeftChain ∧ M'.arr.length = M.arr.length ∧
      (∀ b : Mono.Bodt, Mono.advLoop (m := TrM I) fuel M b = ⟨b.ext P, .ok (M', b.grow P.length)⟩) ∧
      (∀ X x y Y, t :: P = X ++ x :: y :: Y → earOk M.isLeftChain a x y) := by
  induction fuel generalizing M t D Q with
  | zero => omega
  | succ k ih =>
    unfold Mono.advLoop
    rcases hR.can with ⟨hc, b1, a1, S1, c1, Q1, hS, hQ, hok⟩ | ⟨hc, -⟩
    · rw [hc]
      cases hQ
      cases hS
      obtain ⟨hp1, hp2⟩ := hR.skippedPop
      obtain ⟨M2, ht1, ht3, ht2⟩ := hp2.transferPending
      obtain ⟨M', P, Q', h1, h2, h3, h3', h4, h5⟩ := ih _ c1 (rotL (t :: D)) Q1 ht2
        (by simp at hf; omega)
      refine ⟨M', c1 :: P, Q', by rw [h1]; rfl, ?_, h3.trans ht3, ?_, ?_, ?_⟩
      · simpa [rotL] using h2
      · rw [h3', ht2.arr, hR.arr]
        simp [rotL_length]; omega
      · intro b
        rw [TrM.lift_ok, if_pos rfl, hp1, TrM.lift_ok]
        simp only
        rw [hp2.pendingPeek, TrM.lift_ok, addTriangle_tr, TrM.mk_ok_bind, ht1, TrM.lift_ok, h4]
        simp only [Mono.Bodt.ext_grow, Mono.Bodt.grow_grow, List.length_cons, TrM.mk.injEq]
        refine ⟨?_, by rw [Nat.add_comm]⟩
        rw [← Mono.Bodt.ext_append]
        rfl
      · intro X x y Y hX
        cases X with
        | nil =>
          simp only [List.nil_append, List.cons.injEq] at hX
          obtain ⟨rfl, rfl, -⟩ := hX
          exact hok
        | cons x0 X =>
          simp only [List.cons_append, List.cons.injEq] at hX
          have := h5 X x y Y hX.2
          rwa [ht3] at this
    · rw [hc]
      refine ⟨M, [], Q, rfl, by simpa using hR, rfl, rfl, ?_, ?_⟩
      · intro b
        rw [TrM.lift_ok, if_neg (by simp)]
        cases b <;> rfl
      · intro X x y Y hX
        have := congrArg List.length hX
        simp at this
        omega

theorem extendDeferred_tr (M : Mono I C) (bt : Bool) (i n : Nat) (vs : List (I × Coords C))
    (h : ∀ j (hj : j < vs.length), M.deferredIndex bt (i + j) = .ok (vs[j]).1) (hn : vs.length = n) :
    Mono.extendDeferred (m := TrM I) M bt i n = ⟨vs.map fun v => .extend v.1, .ok ()⟩ := by
  induction n generalizing i vs with
  | zero =>
    rw [List.length_eq_zero_iff] at hn
    subst hn
    rfl
  | succ n ih =>
    obtain ⟨v, vs, rfl⟩ := List.exists_cons_of_length_eq_add_one hn
    unfold Mono.extendDeferred
    have h0 := h 0 (by simp)
    simp only [Nat.add_zero, List.getElem_cons_zero] at h0
    rw [h0, TrM.lift_ok, TrM.extendFan_bind, ih (i + 1) vs ?_ (by simpa using hn)]
    · rfl
    · intro j hj
      have := h (j + 1) (by simpa using hj)
      simp only [List.getElem_cons_succ] at this
      rw [← this]
      congr 1
      omega

/-- Emission of a deferred fan with root `r` around `a :: vs` where `vs` are the expended vertices. -/
theorem emitDeferred_tr (M : Mono I C) (bt : Bool) (r s v : I × Coords C) (vs : List (I × Coords C))
    (hb : Mono.deferredBase M bt = .ok (r.1, s.1))
    (h : ∀ j (hj : j < (v :: vs).length), M.deferredIndex bt j = .ok ((v :: vs)[j]).1) :
    Mono.emitDeferred (m := TrM I) M bt (vs.length + 1) =
      ⟨fanCalls ((r :: s :: v :: vs).map Prod.fst), .ok ()⟩ := by
  unfold Mono.emitDeferred
  have h0 := h 0 (by simp)
  simp only [List.getElem_cons_zero] at h0
  rw [hb, TrM.lift_ok]
  simp only
  rw [h0, TrM.lift_ok, TrM.newFan_bind, extendDeferred_tr M bt 1 _ vs ?_ (by simp)]
  · simp [fanCalls, List.map_map, Function.comp_def]
  · intro j hj
    have := h (j + 1) (by simpa using hj)
    simp only [List.getElem_cons_succ] at this
    rw [← this]
    congr 1
    omega

/-- The outer vertices with the root put in front, as the code orders them. -/
def fanOf (w : Winding) (left bt : Bool) (r : α) (W : List α) : List α :=
  if (bt ^^ left) ^^ (w == .clockwise) then
    match W with
    | b :: x :: P => if bt = left then x :: b :: r :: P else r :: b :: x :: P
    | _ => []
  else r :: W.reverse

/-- The ears of a fan with root `r` and outer vertices `W`. -/
def earsOf (bt : Bool) (r : α) (W : List α) : List (α × α × α) :=
  (W.zip W.tail).map fun p => if bt then (p.2, p.1, r) else (r, p.1, p.2)

theorem ears_adv {ok : α → α → α → Prop} (X : List α) (r b : α) (W Q : List α)
    (h : ∀ A x y B, b :: W = A ++ x :: y :: B → ok r x y) :
    Ears ok (X ++ r :: (b :: W ++ Q)) (earsOf false r (b :: W))
      (X ++ r :: (b :: W).getLast (by simp) :: Q) := by
  induction W generalizing b with
  | nil => exact .nil _
  | cons y W ih =>
    have h1 : earsOf false r (b :: y :: W) = (r, b, y) :: earsOf false r (y :: W) := rfl
    rw [h1]
    refine .cons X r b y (W ++ Q) _ _ (h [] b y W rfl) ?_
    rw [List.getLast_cons_cons]
    exact ih y fun A x z B hA => h (b :: A) x z B (by rw [hA]; rfl)

theorem ears_back {ok : α → α → α → Prop} (X : List α) (r b : α) (W Q : List α)
    (h : ∀ A x y B, b :: W = A ++ x :: y :: B → ok y x r) :
    Ears ok (X ++ (b :: W).reverse ++ r :: Q) (earsOf true r (b :: W))
      (X ++ (b :: W).getLast (by simp) :: r :: Q) := by
  induction W generalizing b with
  | nil =>
    have := Ears.nil (ok := ok) (X ++ [b].reverse ++ r :: Q)
    simpa [earsOf] using this
  | cons y W ih =>
    have h1 : earsOf true r (b :: y :: W) = (y, b, r) :: earsOf true r (y :: W) := rfl
    rw [h1]
    have := ih y fun A x z B hA => h (b :: A) x z B (by rw [hA]; rfl)
    rw [List.getLast_cons_cons]
    have e1 : X ++ (b :: y :: W).reverse ++ r :: Q = (X ++ W.reverse) ++ y :: b :: r :: Q := by simp
    have e2 : X ++ (y :: W).reverse ++ r :: Q = (X ++ W.reverse) ++ y :: r :: Q := by simp
    rw [e1]
    rw [e2] at this
    exact .cons _ y b r Q _ _ (h [] b y W rfl) this

theorem startFan_tr (w : Winding) (left bt : Bool) (v0 v1 v2 : I × Coords C) :
    (Mono.startFan w left bt v0.1 v1.1 v2.1 : TrM I Mono.Bodt) =
      if (bt ^^ left) ^^ (w == .clockwise) then
        ⟨[.newFan (if !left then v2.1 else v0.1) v1.1 (if !left then v0.1 else v2.1)], .ok .builder⟩
      else ⟨[], .ok (.deferred 1)⟩ := by
  unfold Mono.startFan
  split <;> rfl

theorem fanStep_tr (M : Mono I C) (b a c : I × Coords C) (S D Q : List (I × Coords C))
    (hR : Rep M (b :: a :: S) D (c :: Q)) (hok : earOk M.isLeftChain a b c) :
    ∃ M' bt r W S' D' Q', (∀ w, Mono.fanStep (m := TrM I) w M =
        ⟨fanCalls ((fanOf w M.isLeftChain bt r W).map Prod.fst), .ok M'⟩) ∧
      Rep M' S' D' Q' ∧ M'.isLeftChain = M.isLeftChain ∧ 2 ≤ W.length ∧
      Ears (earOk M.isLeftChain) ((b :: a :: S).reverse ++ c :: Q) (earsOf bt r W) (S'.reverse ++ Q') ∧
      S' ≠ [] ∧ (Q' ≠ [] ∨ 2 ≤ S'.length) := by
  obtain ⟨hp1, hp2⟩ := hR.skippedPop
  generalize hM1 : ({ M with skippedTop := (a :: S).length } : Mono I C) = M1 at hp1 hp2
  have hl1 : M1.isLeftChain = M.isLeftChain := by rw [← hM1]
  rcases hp2.can with ⟨hc, b1, a1, S1, c1, Q1, hS, hQ, hok1⟩ | ⟨hc, -⟩
  · -- backtracking
    cases hQ
    cases hS
    obtain ⟨hq1, hq2⟩ := hp2.skippedPop
    generalize hM2 : ({ M1 with skippedTop := (a1 :: S1).length } : Mono I C) = M2 at hq1 hq2
    have hl2 : M2.isLeftChain = M.isLeftChain := by rw [← hM2]; exact hl1
    have hlen : S1.length < M2.arr.length + 1 := by
      rw [hq2.arr]; simp; omega
    obtain ⟨M', P, s, S', h1, h2, h3, -, h4, h5⟩ :=
      backLoop_tr (M2.arr.length + 1) M2 a1 S1 (a :: b :: D) Q c hq2 hlen
    have hgrow : ∀ bd : Mono.Bodt, (Mono.growFan true M1 bd : TrM I _) =
        (⟨bd.ext [a1], .ok ()⟩ : TrM I Unit) >>= fun _ => Mono.backLoop (M2.arr.length + 1) M2 (bd.grow 1) := by
      intro bd
      unfold Mono.growFan
      rw [if_pos rfl, hq1, TrM.lift_ok]
      simp only
      rw [hq2.skippedPeek, TrM.lift_ok, addTriangle_tr]
      rfl
    have hW : a1 :: (P ++ [s]).tail = P ++ [s] := by
      cases P with
      | nil => simp only [List.nil_append, List.cons.injEq] at h1; simp [h1.1]
      | cons p P => simp only [List.cons_append, List.cons.injEq] at h1; simp [h1.1]
    refine ⟨M', true, c, b :: a :: (P ++ [s]), s :: S', P.reverse ++ (a :: b :: D), c :: Q, ?_, h2,
      h3.trans hl2, by simp, ?_, by simp, .inl (by simp)⟩
    · intro w
      unfold Mono.fanStep
      rw [hp1, TrM.lift_ok]
      simp only
      rw [hp2.skippedPeek, TrM.lift_ok, hp2.pendingPeek, TrM.lift_ok, hl1, hc, TrM.lift_ok, startFan_tr]
      split
      · rename_i hbt
        rw [TrM.mk_ok_bind, hgrow, show Mono.Bodt.builder.grow 1 = .builder from rfl, h4]
        simp only [TrM.mk_ok_bind, Mono.Bodt.grow, Mono.finishFan, TrM.pure_def, List.append_nil,
          List.nil_append, TrM.mk.injEq, and_true]
        unfold fanOf
        rw [if_pos hbt]
        simp only [Mono.Bodt.ext]
        rw [← List.map_append]
        have : [a1] ++ (P ++ [s]).tail = P ++ [s] := hW
        rw [this]
        cases hleft : M.isLeftChain <;> simp [fanCalls, List.map_map, Function.comp_def]
      · rename_i hbt
        rw [TrM.mk_ok_bind, hgrow, show (Mono.Bodt.deferred 1).grow 1 = .deferred 2 from rfl, h4]
        simp only [TrM.mk_ok_bind, Mono.Bodt.grow, Mono.finishFan, TrM.pure_def, List.append_nil,
          List.nil_append, Mono.Bodt.ext]
        have he : 2 + P.length = (P.reverse ++ [a, b]).tail.length + 1 := by simp; omega
        obtain ⟨v, vs, hvs⟩ : ∃ v vs, P.reverse ++ [a, b] = v :: vs := by
          cases h : P.reverse ++ [a, b] with
          | nil => simp at h
          | cons v vs => exact ⟨v, vs, rfl⟩
        rw [he, hvs, List.tail_cons]
        rw [emitDeferred_tr M' true c s v vs]
        · simp only [TrM.mk_ok_bind, List.append_nil, TrM.mk.injEq, and_true]
          unfold fanOf
          rw [if_neg hbt]
          have : (b :: a :: (P ++ [s])).reverse = s :: v :: vs := by
            simp [← hvs]
          rw [this]
        · unfold Mono.deferredBase
          rw [if_pos rfl, h2.pendingPeek, h2.skippedPeek]
          rfl
        · intro j hj
          refine h2.deferredBack ?_
          have e : P.reverse ++ a :: b :: D = (v :: vs) ++ D := by rw [← hvs]; simp
          rw [e, List.getElem?_append_left hj, List.getElem?_eq_getElem hj]
    · have := ears_back (ok := earOk M.isLeftChain) S'.reverse c b (a :: (P ++ [s])) Q ?_
      · refine this.cast ?_ ?_
        · have e : a1 :: S1 = P ++ s :: S' := h1
          rw [e]; simp
        · simp
      · intro A x y B hA
        rcases A with _ | ⟨x0, _ | ⟨x1, A⟩⟩
        · simp only [List.nil_append, List.cons.injEq] at hA
          obtain ⟨rfl, rfl, -⟩ := hA
          exact hok
        · simp only [List.cons_append, List.nil_append, List.cons.injEq] at hA
          obtain ⟨-, rfl, hA⟩ := hA
          rw [← hW, List.cons.injEq] at hA
          rw [← hA.1, ← hl1]
          exact hok1
        · simp only [List.cons_append, List.cons.injEq] at hA
          have := h5 A x y B hA.2.2
          rwa [hl2] at this
  · -- advancing
    obtain ⟨M2, ht1, ht3, ht2⟩ := hp2.transferPending
    have hl2 : M2.isLeftChain = M.isLeftChain := ht3.trans hl1
    have hlen : Q.length < M2.arr.length + 1 := by
      rw [ht2.arr]; simp; omega
    obtain ⟨M', P, Q', h1, h2, h3, -, h4, h5⟩ :=
      advLoop_tr (M2.arr.length + 1) M2 c a S (rotL (b :: D)) Q ht2 hlen
    have hgrow : ∀ bd : Mono.Bodt, (Mono.growFan false M1 bd : TrM I _) =
        Mono.advLoop (M2.arr.length + 1) M2 bd := by
      intro bd
      unfold Mono.growFan
      rw [if_neg (by simp), ht1, TrM.lift_ok]
    refine ⟨M', false, a, b :: c :: P, _, _, Q', ?_, h2, h3.trans hl2, by simp, ?_, by simp,
      .inr (by simp)⟩
    · intro w
      unfold Mono.fanStep
      rw [hp1, TrM.lift_ok]
      simp only
      rw [hp2.skippedPeek, TrM.lift_ok, hp2.pendingPeek, TrM.lift_ok, hl1, hc, TrM.lift_ok, startFan_tr]
      split
      · rename_i hbt
        rw [TrM.mk_ok_bind, hgrow, h4]
        simp only [TrM.mk_ok_bind, Mono.Bodt.grow, Mono.finishFan, TrM.pure_def, List.append_nil,
          List.nil_append, TrM.mk.injEq, and_true]
        unfold fanOf
        rw [if_pos hbt]
        simp only [Mono.Bodt.ext]
        cases hleft : M.isLeftChain <;> simp [fanCalls, List.map_map, Function.comp_def]
      · rename_i hbt
        rw [TrM.mk_ok_bind, hgrow, h4]
        simp only [TrM.mk_ok_bind, Mono.Bodt.grow, Mono.finishFan, TrM.pure_def, List.append_nil,
          List.nil_append, Mono.Bodt.ext]
        have he : 1 + P.length = (b :: (c :: P).dropLast).reverse.tail.length + 1 := by simp; omega
        obtain ⟨v, vs, hvs⟩ : ∃ v vs, (b :: (c :: P).dropLast).reverse = v :: vs := by
          cases h : (b :: (c :: P).dropLast).reverse with
          | nil => simp at h
          | cons v vs => exact ⟨v, vs, rfl⟩
        rw [he, hvs, List.tail_cons]
        rw [emitDeferred_tr M' false a ((c :: P).getLast (by simp)) v vs]
        · simp only [TrM.mk_ok_bind, List.append_nil, TrM.mk.injEq, and_true]
          unfold fanOf
          rw [if_neg hbt]
          have : (b :: c :: P).reverse = (c :: P).getLast (by simp) :: v :: vs := by
            rw [← hvs]
            have : b :: c :: P = b :: ((c :: P).dropLast ++ [(c :: P).getLast (by simp)]) := by
              rw [List.dropLast_append_getLast]
            rw [this]
            simp
          rw [this]
        · unfold Mono.deferredBase
          rw [if_neg (by simp), h2.skippedPeek2]
          rfl
        · intro j hj
          refine h2.deferredAdv ?_
          have e : (rotL (b :: D) ++ (c :: P).dropLast).reverse = (v :: vs) ++ D.reverse := by
            rw [← hvs]; simp [rotL]
          rw [e, List.getElem?_append_left hj, List.getElem?_eq_getElem hj]
    · have := ears_adv (ok := earOk M.isLeftChain) S.reverse a b (c :: P) Q' ?_
      · refine this.cast ?_ ?_
        · rw [h1]; simp
        · simp
      · intro A x y B hA
        cases A with
        | nil =>
          simp only [List.nil_append, List.cons.injEq] at hA
          obtain ⟨rfl, rfl, -⟩ := hA
          exact hok
        | cons x0 A =>
          simp only [List.cons_append, List.cons.injEq] at hA
          have := h5 A x y B hA.2
          rwa [hl2] at this

/-- A fan the code made: whether it went back over the stack, its root and its outer vertices. -/
structure FanRec (α : Type) where
  bt : Bool
  root : α
  outer : List α

/-- The triangulation of one chain: it cuts off ears, and never stops with an error. -/
theorem buildFans_tr (fuel : Nat) (M : Mono I C) (S D Q : List (I × Coords C))
    (hR : Rep M S D Q) (hS : 2 ≤ S.length) :
    ∃ (fs : List (FanRec (I × Coords C))) (L' : List (I × Coords C)),
      (∀ f ∈ fs, 2 ≤ f.outer.length) ∧
      (∀ w, (Mono.buildFans (m := TrM I) w fuel M).calls =
        fs.flatMap (fun f => fanCalls ((fanOf w M.isLeftChain f.bt f.root f.outer).map Prod.fst))) ∧
      Ears (earOk M.isLeftChain) (S.reverse ++ Q) (fs.flatMap fun f => earsOf f.bt f.root f.outer) L' ∧
      ((∀ w, (Mono.buildFans (m := TrM I) w fuel M).res = .error .timeout) ∨
        (∀ w, (Mono.buildFans (m := TrM I) w fuel M).res = .ok ()) ∧ L'.length = 2) := by
  induction fuel generalizing M S D Q with
  | zero => exact ⟨[], _, by simp, fun _ => rfl, .nil _, .inl fun _ => rfl⟩
  | succ k ih =>
    by_cases h3 : 3 ≤ Q.length + S.length
    · -- the step after the fan
      have adv : ∀ (M1 : Mono I C) (S1 D1 Q1 : List (I × Coords C)), Rep M1 S1 D1 Q1 → S1 ≠ [] →
          (Q1 ≠ [] ∨ 2 ≤ S1.length) → ∃ M2 S2 D2 Q2, M1.advancePosition = .ok M2 ∧ Rep M2 S2 D2 Q2 ∧
            M2.isLeftChain = M1.isLeftChain ∧ 2 ≤ S2.length ∧ S2.reverse ++ Q2 = S1.reverse ++ Q1 := by
        intro M1 S1 D1 Q1 h1 h2 h3
        unfold Mono.advancePosition
        rw [h1.hasPending]
        cases Q1 with
        | nil =>
          rw [if_neg (by simp)]
          rcases hS1 : S1.reverse with _ | ⟨x, _ | ⟨y, L⟩⟩
          · have := congrArg List.length hS1
            simp at h3; simp at this; simp [this] at h3
          · have := congrArg List.length hS1
            simp at h3 this; omega
          · exact ⟨_, _, _, _, rfl, h1.reset hS1, rfl, by simp, by simp⟩
        | cons q Q1 =>
          rw [if_pos (by simp)]
          obtain ⟨M2, g1, g2, g3⟩ := h1.transferPending
          refine ⟨M2, _, _, _, g1, g3, g2, ?_, by simp⟩
          have := List.length_pos_iff.2 h2
          simp; omega
      rcases hR.can with ⟨hc, b, a, S1, c, Q1, rfl, rfl, hok⟩ | ⟨hc, -⟩
      · obtain ⟨M1, bt, r, W, S1', D1, Q1', g1, g2, g3, g4, g5, g6, g7⟩ := fanStep_tr M b a c S1 D Q1 hR hok
        obtain ⟨M2, S2, D2, Q2, k1, k2, k3, k4, k5⟩ := adv M1 S1' D1 Q1' g2 g6 g7
        have hrun : ∀ w, (Mono.buildFans (m := TrM I) w (k + 1) M) =
            ⟨fanCalls ((fanOf w M.isLeftChain bt r W).map Prod.fst) ++ (Mono.buildFans (m := TrM I) w k M2).calls,
              (Mono.buildFans (m := TrM I) w k M2).res⟩ := by
          intro w
          rw [Mono.buildFans, hR.remaining, TrM.lift_ok, if_pos h3]
          unfold Mono.maybeFan
          rw [hc, TrM.lift_ok, if_pos rfl, g1, TrM.mk_ok_bind, k1, TrM.lift_ok]
        obtain ⟨fs, L', i0, i1, i2, i3⟩ := ih M2 S2 D2 Q2 k2 k4
        have hl : M2.isLeftChain = M.isLeftChain := k3.trans g3
        rw [hl] at i1 i2
        refine ⟨⟨bt, r, W⟩ :: fs, L', ?_, ?_, ?_, ?_⟩
        · intro f hf
          rcases List.mem_cons.1 hf with rfl | hf
          · exact g4
          · exact i0 f hf
        · intro w
          rw [hrun]
          simp only [List.flatMap_cons, i1]
        · rw [List.flatMap_cons]
          rw [k5] at i2
          exact g5.append i2
        · simp only [hrun]
          exact i3
      · obtain ⟨M2, S2, D2, Q2, k1, k2, k3, k4, k5⟩ := adv M S D Q hR
          (by intro h; rw [h] at hS; simp at hS) (.inr hS)
        have hrun : ∀ w, (Mono.buildFans (m := TrM I) w (k + 1) M) = Mono.buildFans (m := TrM I) w k M2 := by
          intro w
          rw [Mono.buildFans, hR.remaining, TrM.lift_ok, if_pos h3]
          unfold Mono.maybeFan
          rw [hc, TrM.lift_ok, if_neg (by simp), TrM.pure_bind, k1, TrM.lift_ok]
        obtain ⟨fs, L', i0, i1, i2, i3⟩ := ih M2 S2 D2 Q2 k2 k4
        rw [k3] at i1 i2
        rw [k5] at i2
        refine ⟨fs, L', i0, ?_, i2, ?_⟩
        · intro w; rw [hrun]; exact i1 w
        · simp only [hrun]; exact i3
    · have h2 : Q.length + S.length = 2 := by omega
      have hrun : ∀ w, (Mono.buildFans (m := TrM I) w (k + 1) M) = ⟨[], .ok ()⟩ := by
        intro w
        rw [Mono.buildFans, hR.remaining, TrM.lift_ok, if_neg h3, if_pos h2]; rfl
      refine ⟨[], S.reverse ++ Q, by simp, fun w => by rw [hrun]; rfl, .nil _,
        .inr ⟨fun w => by rw [hrun], ?_⟩⟩
      simp; omega

end

end Tri
