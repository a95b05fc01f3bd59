import Mathlib.Tactic.Linarith
import Mathlib.Tactic.Ring
import Verif.Proof.Chain
import Verif.Proof.ExactLemmas
import Verif.Spec.Geometry

/-!
# Triangulation of chains: every pass finds an ear, so it ends
-/

set_option linter.unusedSectionVars false

namespace Tri

variable {I V C α : Type}

/-! ## Termination from the existence of ears -/

section
variable [Scalar C]

/-- No three consecutive elements of `L` are an ear. -/
def NoEar (ok : α → α → α → Prop) (L : List α) : Prop :=
  ∀ X a b c Y, L = X ++ a :: b :: c :: Y → ¬ ok a b c

theorem NoEar.snoc {ok : α → α → α → Prop} {S : List α} {q : α} (h : NoEar ok S.reverse)
    (h1 : ∀ b a S', S = b :: a :: S' → ¬ ok a b q) : NoEar ok (S.reverse ++ [q]) := by
  intro X a b c Y e
  rcases List.eq_nil_or_concat' Y with rfl | ⟨Y, y, rfl⟩
  · have e' : S.reverse ++ [q] = (X ++ [a, b]) ++ [c] := by simpa using e
    obtain ⟨e1, e2⟩ := List.append_inj' e' rfl
    have e3 := congrArg List.reverse e1
    rw [List.reverse_reverse] at e3
    simp only [List.reverse_append, List.reverse_cons, List.reverse_nil, List.nil_append,
      List.cons_append] at e3
    cases e2
    exact h1 b a _ e3
  · have e' : S.reverse ++ [q] = (X ++ a :: b :: c :: Y) ++ [y] := by simpa using e
    obtain ⟨e1, -⟩ := List.append_inj' e' rfl
    exact h X a b c Y e1

/-- `Ears` keeps every property that survives the removal of an ear. -/
theorem Ears.keep {ok : α → α → α → Prop} {P : List α → Prop}
    (hP : ∀ X a b c Y, P (X ++ a :: b :: c :: Y) → P (X ++ a :: c :: Y)) {L L' : List α}
    {T : List (α × α × α)} (h : Ears ok L T L') (hL : P L) : P L' := by
  induction h with
  | nil L => exact hL
  | cons X a b c Y T L' h1 h2 ih => exact ih (hP X a b c Y hL)

/-- If the chain and everything ear removal makes of it has an ear as long as it has three vertices,
the triangulation ends after at most `n ^ 2 + n` passes. -/
theorem buildFans_ends (w : Winding) (left : Bool) {P : List (I × Coords C) → Prop}
    (hP : ∀ X a b c Y, P (X ++ a :: b :: c :: Y) → P (X ++ a :: c :: Y))
    (hE : ∀ L, P L → 3 ≤ L.length → ¬ NoEar (earOk left) L) (fuel : Nat) (M : Mono I C)
    (S D Q : List (I × Coords C)) (hR : Rep M S D Q) (hS : 2 ≤ S.length) (hl : M.isLeftChain = left)
    (hL : P (S.reverse ++ Q))
    (hf : (NoEar (earOk left) S.reverse ∧
        Q.length + 1 + (S.length + Q.length) * (S.length + Q.length) ≤ fuel) ∨
      Q.length + 1 + (S.length + Q.length) + (S.length + Q.length) * (S.length + Q.length) ≤ fuel) :
    (Mono.buildFans (m := TrM I) w fuel M).res = .ok () := by
  induction fuel generalizing M S D Q with
  | zero => omega
  | succ k ih =>
    unfold Mono.buildFans
    rw [hR.remaining, TrM.lift_ok]
    by_cases h3 : 3 ≤ Q.length + S.length
    · rw [if_pos h3]
      unfold Mono.maybeFan
      rcases hR.can with ⟨hc, b, a, S1, c, Q1, rfl, rfl, hok⟩ | ⟨hc, hno⟩
      · rw [hc, TrM.lift_ok, if_pos rfl]
        obtain ⟨M1, bt, r, W, S1', D1, Q1', g1, g2, g3, g4, g5, g6, g7⟩ := fanStep_tr M b a c S1 D Q1 hR hok
        rw [g1, TrM.mk_ok_bind]
        have hlen := g5.length
        have hW : 1 ≤ (earsOf bt r W).length := by
          simp only [earsOf, List.length_map, List.length_zip, List.length_tail]; omega
        have hL1 : P (S1'.reverse ++ Q1') := g5.keep hP hL
        simp only [List.length_append, List.length_reverse, List.length_cons] at hlen hf
        have hn : (S1'.length + Q1'.length) + 1 ≤ S1.length + 1 + 1 + (Q1.length + 1) := by omega
        have hmul : (S1'.length + Q1'.length + 1) * (S1'.length + Q1'.length + 1) ≤
            (S1.length + 1 + 1 + (Q1.length + 1)) * (S1.length + 1 + 1 + (Q1.length + 1)) :=
          Nat.mul_le_mul hn hn
        have hring : (S1'.length + Q1'.length + 1) * (S1'.length + Q1'.length + 1) =
            (S1'.length + Q1'.length) * (S1'.length + Q1'.length) + 2 * (S1'.length + Q1'.length) + 1 := by
          ring
        unfold Mono.advancePosition
        rw [g2.hasPending]
        cases Q1' with
        | nil =>
          rw [if_neg (by simp), TrM.lift_ok]
          rcases hS1 : S1'.reverse with _ | ⟨x, _ | ⟨y, L⟩⟩
          · have := congrArg List.length hS1
            simp at g7; simp at this; simp [this] at g7
          · have := congrArg List.length hS1
            simp at g7 this; omega
          · have hx := congrArg List.length hS1
            simp only [List.length_reverse, List.length_cons] at hx
            refine ih _ _ _ _ (g2.reset hS1) (by simp) (g3.trans hl) ?_ (.inr ?_)
            · rw [hS1] at hL1; simpa using hL1
            · simp only [List.length_cons, List.length_nil] at hring hmul ⊢
              have e : 0 + 1 + 1 + L.length = S1'.length + 0 := by omega
              rw [e]; omega
        | cons q Q1' =>
          rw [if_pos (by simp)]
          obtain ⟨M2, k1, k2, k3⟩ := g2.transferPending
          rw [k1, TrM.lift_ok]
          have := List.length_pos_iff.2 g6
          refine ih _ _ _ _ k3 (by simp; omega) (k2.trans (g3.trans hl)) ?_ (.inr ?_)
          · simpa using hL1
          · simp only [List.length_cons] at hring hmul ⊢
            have e : S1'.length + 1 + Q1'.length = S1'.length + (Q1'.length + 1) := by omega
            rw [e]; omega
      · rw [hc, TrM.lift_ok, if_neg (by simp), TrM.pure_bind]
        unfold Mono.advancePosition
        rw [hR.hasPending]
        cases Q with
        | nil =>
          rw [if_neg (by simp), TrM.lift_ok]
          rcases hf with ⟨hne, -⟩ | hf
          · exact absurd (by simpa using hne) (hE _ hL (by simpa using h3))
          · rcases hS1 : S.reverse with _ | ⟨x, _ | ⟨y, L⟩⟩
            · have := congrArg List.length hS1
              simp at this; simp [this] at hS
            · have := congrArg List.length hS1
              simp at this; omega
            · have hx := congrArg List.length hS1
              simp only [List.length_reverse, List.length_cons] at hx
              refine ih _ _ _ _ (hR.reset hS1) (by simp) hl ?_ (.inl ⟨?_, ?_⟩)
              · rw [hS1] at hL; simpa using hL
              · intro X a b c Y e
                have := congrArg List.length e
                simp at this; omega
              · simp only [List.length_cons, List.length_nil] at hf ⊢
                have e : 0 + 1 + 1 + L.length = S.length + 0 := by omega
                rw [e]; omega
        | cons q Q =>
          rw [if_pos (by simp)]
          obtain ⟨M2, k1, k2, k3⟩ := hR.transferPending
          rw [k1, TrM.lift_ok]
          simp only [List.length_cons] at hf
          have e : S.length + 1 + Q.length = S.length + (Q.length + 1) := by omega
          refine ih _ _ _ _ k3 (by simp; omega) (k2.trans hl) (by simpa using hL) ?_
          rcases hf with ⟨hne, hf⟩ | hf
          · left
            refine ⟨?_, ?_⟩
            · rw [List.reverse_cons]
              exact hne.snoc fun b a S' h => hl ▸ hno b a S' q Q h rfl
            · simp only [List.length_cons]; rw [e]; omega
          · right
            simp only [List.length_cons]; rw [e]; omega
    · have h2 : Q.length + S.length = 2 := by omega
      rw [if_neg h3, if_pos h2]; rfl

/-- More passes do not change a run that ended. -/
theorem buildFans_mono (w : Winding) (k k' : Nat) (hk : k ≤ k') (M : Mono I C)
    (h : (Mono.buildFans (m := TrM I) w k M).res ≠ .error .timeout) :
    Mono.buildFans (m := TrM I) w k' M = Mono.buildFans (m := TrM I) w k M := by
  induction k generalizing k' M with
  | zero => exact absurd rfl h
  | succ k ih =>
    cases k' with
    | zero => omega
    | succ k' =>
      unfold Mono.buildFans at h ⊢
      rcases hrem : M.remaining with e | r
      · rfl
      · rw [hrem, TrM.lift_ok] at h
        rw [TrM.lift_ok]
        rw [TrM.lift_ok]
        split
        · next h3 =>
          rw [if_pos h3] at h
          rcases hf : (Mono.maybeFan w M : TrM I _) with ⟨cs, e | M1⟩
          · rfl
          · rw [hf, TrM.mk_ok_bind] at h
            rw [TrM.mk_ok_bind, TrM.mk_ok_bind]
            rcases ha : M1.advancePosition with e | M2
            · rfl
            · rw [ha, TrM.lift_ok] at h
              rw [TrM.lift_ok, TrM.lift_ok]
              rw [ih k' (by omega) M2 h]
        · rfl

end

/-! ## Mountains have ears -/

section
variable {K : Type} [Field K] [LinearOrder K] [IsStrictOrderedRing K]

attribute [local instance] exact

theorem orient_cyc (a b c : Coords K) : orient c a b = orient a b c := by
  unfold orient; ring

theorem below_trans {a b c : Coords K} (h1 : below a b) (h2 : below b c) : below a c := by
  rcases h1 with h1 | ⟨h1, h1'⟩ <;> rcases h2 with h2 | ⟨h2, h2'⟩
  · exact .inl (h1.trans h2)
  · exact .inl (h2 ▸ h1)
  · exact .inl (h1 ▸ h2)
  · exact .inr ⟨h1.trans h2, h1'.trans h2'⟩

theorem below_irrefl (a : Coords K) : ¬ below a a := by
  rintro (h | ⟨-, h⟩) <;> exact lt_irrefl _ h

/-- The side test for a point between the ends of a segment, in the order of the library. -/
theorem isLeft_between {a b c : Coords K} (h1 : below c b) (h2 : below b a) :
    (isLeftOfLine c a b = true → 0 ≤ orient a b c) ∧
    (isLeftOfLine c a b = false → orient a b c ≤ 0) ∧
    (0 < orient a b c → isLeftOfLine c a b = true) ∧
    (orient a b c < 0 → isLeftOfLine c a b = false) := by
  have key : (isLeftOfLine c a b = true ↔ 0 < orient a b c) ∨
      (isLeftOfLine c a b = true ∧ orient a b c = 0) := by
    have hle : c.y ≤ a.y := by
      rcases below_trans h1 h2 with h | ⟨h, -⟩
      · exact h.le
      · exact h.le
    rcases hle.lt_or_eq with h | h
    · left
      rw [isLeft_unfold]
      have hp : 0 < a.y - c.y := by linarith
      unfold orient
      split
      · rename_i e
        rw [e]
        constructor
        · intro hx; nlinarith
        · intro hx; nlinarith
      · split
        · rename_i e
          rw [e]
          constructor
          · intro hx; nlinarith
          · intro hx; nlinarith
        · constructor
          · intro hx; nlinarith
          · intro hx; nlinarith
    · right
      have hb : b.y = a.y := by
        rcases h1 with h1 | ⟨h1, -⟩ <;> rcases h2 with h2 | ⟨h2, -⟩
        · exact absurd (h ▸ h1.trans h2) (lt_irrefl _)
        · exact h2
        · exact absurd (h ▸ h1 ▸ h2) (lt_irrefl _)
        · exact h2
      have hx : b.x < a.x := by
        rcases h2 with h2 | ⟨-, h2⟩
        · exact absurd (hb ▸ h2) (lt_irrefl _)
        · exact h2
      rw [isLeft_unfold, if_pos hb]
      refine ⟨hx, ?_⟩
      unfold orient; rw [h, hb]; ring
  rcases key with h | ⟨h, h'⟩
  · refine ⟨fun e => (h.1 e).le, fun e => ?_, fun e => h.2 e, fun e => ?_⟩
    · by_contra hc
      rw [h.2 (not_le.1 hc)] at e
      cases e
    · cases hx : isLeftOfLine c a b with
      | false => rfl
      | true => exact absurd (h.1 hx) (not_lt.2 e.le)
  · refine ⟨fun _ => h'.ge, fun e => ?_, fun _ => h, fun e => ?_⟩
    · rw [h] at e; cases e
    · rw [h'] at e; exact absurd e (lt_irrefl _)

/-- An ear of a chain that goes down is counterclockwise (left chain) or clockwise (right chain), or
flat. -/
theorem earOk_orient {left : Bool} {a b c : I × Coords K} (h1 : below c.2 b.2) (h2 : below b.2 a.2)
    (h : earOk left a b c) : if left then 0 ≤ orient a.2 b.2 c.2 else orient a.2 b.2 c.2 ≤ 0 := by
  obtain ⟨k1, k2, -, -⟩ := isLeft_between h1 h2
  cases left
  · exact k2 h
  · exact k1 h

theorem earOk_of_orient {left : Bool} {a b c : I × Coords K} (h1 : below c.2 b.2) (h2 : below b.2 a.2)
    (h : if left then 0 < orient a.2 b.2 c.2 else orient a.2 b.2 c.2 < 0) : earOk left a b c := by
  obtain ⟨-, -, k1, k2⟩ := isLeft_between h1 h2
  cases left
  · exact k2 h
  · exact k1 h

/-- Positivity in the order by `y`, then `x`: a multiple of a positive vector that is a combination of
positive vectors is a positive multiple. -/
theorem lex_core {o d1 d2 uy ux ay ax by' bx : K} (p1 : 0 < d1) (p2 : 0 ≤ d2)
    (hu : 0 < uy ∨ (uy = 0 ∧ 0 < ux)) (ha : 0 < ay ∨ (ay = 0 ∧ 0 < ax)) (hb : 0 < by' ∨ (by' = 0 ∧ 0 < bx))
    (ey : o * uy = d2 * ay + d1 * by') (ex : o * ux = d2 * ax + d1 * bx) : 0 < o := by
  by_contra hn
  have hn' : o ≤ 0 := not_lt.1 hn
  have hay : 0 ≤ ay := by rcases ha with h | ⟨h, -⟩ <;> linarith
  have hby : 0 ≤ by' := by rcases hb with h | ⟨h, -⟩ <;> linarith
  have huy : 0 ≤ uy := by rcases hu with h | ⟨h, -⟩ <;> linarith
  have l : o * uy ≤ 0 := mul_nonpos_of_nonpos_of_nonneg hn' huy
  have q1 : 0 ≤ d2 * ay := mul_nonneg p2 hay
  have q2 : 0 ≤ d1 * by' := mul_nonneg p1.le hby
  have z1 : d2 * ay = 0 := by linarith
  have z2 : d1 * by' = 0 := by linarith
  have hbx : 0 < bx := by
    rcases mul_eq_zero.1 z2 with h | h
    · linarith
    · rcases hb with h' | ⟨-, h'⟩ <;> linarith
  have q3 : 0 < d1 * bx := mul_pos p1 hbx
  have q4 : 0 ≤ d2 * ax := by
    rcases mul_eq_zero.1 z1 with h | h
    · rw [h]; simp
    · have : 0 < ax := by rcases ha with h' | ⟨-, h'⟩ <;> linarith
      exact mul_nonneg p2 this.le
  have z3 : o * uy = 0 := by linarith
  rcases mul_eq_zero.1 z3 with h | h
  · rw [h] at ex; linarith
  · have : 0 < ux := by rcases hu with h' | ⟨-, h'⟩ <;> linarith
    have : o * ux ≤ 0 := mul_nonpos_of_nonpos_of_nonneg hn' this.le
    linarith

theorem below_sub {a b : Coords K} (h : below a b) : 0 < b.y - a.y ∨ (b.y - a.y = 0 ∧ 0 < b.x - a.x) := by
  rcases h with h | ⟨h, h'⟩
  · left; linarith
  · right; exact ⟨by linarith, by linarith⟩

/-- A corner at which the distance from a line stops growing turns away from that line. -/
theorem corner {u v a b c : Coords K} (huv : below u v) (hab : below b a) (hbc : below c b)
    (h1 : orient u v a < orient u v b) (h2 : orient u v c ≤ orient u v b) : 0 < orient a b c :=
  lex_core (d1 := orient u v b - orient u v a) (d2 := orient u v b - orient u v c) (by linarith)
    (by linarith) (below_sub huv) (below_sub hab) (below_sub hbc) (by unfold orient; ring)
    (by unfold orient; ring)

theorem corner' {u v a b c : Coords K} (huv : below u v) (hab : below b a) (hbc : below c b)
    (h1 : orient u v b < orient u v a) (h2 : orient u v b ≤ orient u v c) : orient a b c < 0 := by
  have : 0 < - orient a b c :=
    lex_core (d1 := orient u v a - orient u v b) (d2 := orient u v c - orient u v b) (by linarith)
      (by linarith) (below_sub huv) (below_sub hab) (below_sub hbc) (by unfold orient; ring)
      (by unfold orient; ring)
  linarith

/-- A list of numbers that ends with its smallest value and does not start with its greatest has a
place where it stops growing. -/
theorem peak (d : α → K) (x : α) (L : List α) (y : α) (h : ∃ c ∈ L, d x < d c ∧ d y ≤ d c) :
    ∃ X a b c Y, x :: L ++ [y] = X ++ a :: b :: c :: Y ∧ d a < d b ∧ d c ≤ d b := by
  induction L generalizing x with
  | nil => obtain ⟨c, hc, -⟩ := h; cases hc
  | cons z L ih =>
    by_cases hz : ∃ c ∈ L, d z < d c ∧ d y ≤ d c
    · obtain ⟨X, a, b, c, Y, e, h1, h2⟩ := ih z hz
      exact ⟨x :: X, a, b, c, Y, by rw [List.cons_append, e]; rfl, h1, h2⟩
    · have hall : ∀ c ∈ L, d z < d c → d c < d y := by
        intro c hc h1
        by_contra h2
        exact hz ⟨c, hc, h1, not_lt.1 h2⟩
      obtain ⟨c, hc, h1, h2⟩ := h
      rcases List.mem_cons.1 hc with rfl | hc
      · cases L with
        | nil => exact ⟨[], x, c, y, [], rfl, h1, h2⟩
        | cons t L =>
          refine ⟨[], x, c, t, L ++ [y], rfl, h1, ?_⟩
          by_contra hn
          have := hall t (by simp) (not_le.1 hn)
          exact absurd (lt_of_lt_of_le this h2) (lt_asymm (not_le.1 hn))
      · have hzc : d c ≤ d z := by
          by_contra hn
          exact absurd (hall c hc (not_le.1 hn)) (not_lt.2 h2)
        cases L with
        | nil => cases hc
        | cons t L =>
          refine ⟨[], x, z, t, L ++ [y], rfl, lt_of_lt_of_le h1 hzc, ?_⟩
          by_contra hn
          have := hall t (by simp) (not_le.1 hn)
          exact absurd (this.trans_le (h2.trans hzc)) (lt_asymm (not_le.1 hn))

/-- `Mountain` for a list of indexed vertices. -/
def MountainL (left : Bool) (L : List (I × Coords K)) : Prop :=
  ∃ x inner y, L = x :: inner ++ [y] ∧ Mountain left x.2 (inner.map Prod.snd) y.2

theorem MountainL.remove {left : Bool} (X : List (I × Coords K)) (a b c : I × Coords K)
    (Y : List (I × Coords K)) (h : MountainL left (X ++ a :: b :: c :: Y)) :
    MountainL left (X ++ a :: c :: Y) := by
  obtain ⟨x, inner, y, e, hm⟩ := h
  -- the ends are not removed
  have hx : ∃ X', X ++ [a] = x :: X' := by
    cases X with
    | nil => exact ⟨[], by simp at e; simp [e.1]⟩
    | cons z X => exact ⟨X ++ [a], by simp at e; simp [e.1]⟩
  have hy : ∃ Y', c :: Y = Y' ++ [y] := by
    rcases List.eq_nil_or_concat' Y with rfl | ⟨Y, z, rfl⟩
    · have e' : (X ++ [a, b]) ++ [c] = (x :: inner) ++ [y] := by simpa using e
      obtain ⟨-, e2⟩ := List.append_inj' e' rfl
      exact ⟨[], by simpa using e2⟩
    · have e' : (X ++ a :: b :: c :: Y) ++ [z] = (x :: inner) ++ [y] := by simpa using e
      obtain ⟨-, e2⟩ := List.append_inj' e' rfl
      exact ⟨c :: Y, by simpa using e2⟩
  obtain ⟨X', hX⟩ := hx
  obtain ⟨Y', hY⟩ := hy
  have e1 : x :: (X' ++ b :: Y') ++ [y] = x :: inner ++ [y] := by
    rw [← e]
    have : X ++ a :: b :: c :: Y = (X ++ [a]) ++ b :: (c :: Y) := by simp
    rw [this, hX, hY]; simp
  have e2 : X' ++ b :: Y' = inner := by
    simp only [List.cons_append, List.cons.injEq, true_and] at e1
    exact List.append_cancel_right e1
  refine ⟨x, X' ++ Y', y, ?_, ?_, ?_⟩
  · have : X ++ a :: c :: Y = (X ++ [a]) ++ (c :: Y) := by simp
    rw [this, hX, hY]; simp
  · refine hm.down.sublist ?_
    rw [← e2]
    simp only [List.map_append, List.map_cons, List.cons_append, List.append_assoc]
    exact List.Sublist.cons_cons _ (List.Sublist.append (List.Sublist.refl _)
      (List.Sublist.cons _ (List.Sublist.refl _)))
  · intro p hp
    apply hm.side
    rw [← e2]
    simp only [List.map_append, List.map_cons, List.mem_append, List.mem_cons] at hp ⊢
    rcases hp with hp | hp
    · exact .inl hp
    · exact .inr (.inr hp)

theorem MountainL.hasEar {left : Bool} (L : List (I × Coords K)) (h : MountainL left L)
    (h3 : 3 ≤ L.length) : ¬ NoEar (earOk left) L := by
  obtain ⟨x, inner, y, rfl, hm⟩ := h
  intro hno
  have hxy : below y.2 x.2 := by
    have := hm.down
    simp only [List.cons_append, List.pairwise_cons] at this
    exact this.1 _ (by simp)
  have ox : orient y.2 x.2 x.2 = 0 := by unfold orient; ring
  have oy : orient y.2 x.2 y.2 = 0 := by unfold orient; ring
  obtain ⟨m, hm'⟩ : ∃ m, m ∈ inner := by
    cases inner with
    | nil => simp at h3
    | cons m l => exact ⟨m, by simp⟩
  have hdown : (x :: inner ++ [y]).Pairwise fun a b => below b.2 a.2 := by
    have := hm.down
    have e : x.2 :: inner.map Prod.snd ++ [y.2] = (x :: inner ++ [y]).map Prod.snd := by simp
    rw [e, List.pairwise_map] at this
    exact this
  cases left with
  | true =>
    have hs : ∀ c ∈ inner, 0 < orient y.2 x.2 c.2 := fun c hc => by
      have := hm.side c.2 (List.mem_map_of_mem hc); simpa using this
    obtain ⟨X, a, b, c, Y, e, h1, h2⟩ := peak (fun p : I × Coords K => orient y.2 x.2 p.2) x inner y
      ⟨m, hm', by rw [ox]; exact hs m hm', by rw [oy]; exact (hs m hm').le⟩
    rw [e] at hdown
    have hd := (List.pairwise_append.1 hdown).2.1
    simp only [List.pairwise_cons] at hd
    have hba : below b.2 a.2 := hd.1 b (by simp)
    have hcb : below c.2 b.2 := hd.2.1 c (by simp)
    exact hno X a b c Y e (earOk_of_orient hcb hba (by simpa using corner hxy hba hcb h1 h2))
  | false =>
    have hs : ∀ c ∈ inner, orient y.2 x.2 c.2 < 0 := fun c hc => by
      have := hm.side c.2 (List.mem_map_of_mem hc); simpa using this
    obtain ⟨X, a, b, c, Y, e, h1, h2⟩ := peak (fun p : I × Coords K => - orient y.2 x.2 p.2) x inner y
      ⟨m, hm', by rw [ox]; simpa using hs m hm', by rw [oy]; simpa using (hs m hm').le⟩
    rw [e] at hdown
    have hd := (List.pairwise_append.1 hdown).2.1
    simp only [List.pairwise_cons] at hd
    have hba : below b.2 a.2 := hd.1 b (by simp)
    have hcb : below c.2 b.2 := hd.2.1 c (by simp)
    -- reflect
    have hc := corner' hxy hba hcb (neg_lt_neg_iff.1 h1) (neg_le_neg_iff.1 h2)
    exact hno X a b c Y e (earOk_of_orient hcb hba (by simpa using hc))

/-- What the builder makes of a mountain. -/
theorem mountain_build (left : Bool) (x y : I × Coords K) (inner : List (I × Coords K))
    (hm : Mountain left x.2 (inner.map Prod.snd) y.2) (dx dy : Bool) (M : Mono I K)
    (hb : (MonoB.mk x (inner ++ [y]) dx dy).build = .ok (some M)) :
    M.isLeftChain = left ∧ ∃ v1 v2 tl, inner ++ [y] = v1 :: v2 :: tl ∧ Rep M [v1, x] [] (v2 :: tl) := by
  unfold MonoB.build at hb
  split at hb
  · next v1 v2 tl hr =>
    simp only at hr
    split at hb
    · simp only [Except.ok.injEq, Option.some.injEq] at hb
      refine ⟨?_, v1, v2, tl, hr, ?_⟩
      · have hlast : (v2 :: tl).getLast (by simp) = y := by
          have h1 : (v1 :: v2 :: tl).getLast (by simp) = (inner ++ [y]).getLast (by simp) := by
            congr 1; exact hr.symm
          rw [List.getLast_cons (by simp)] at h1
          rw [h1]; simp
        have hv1 : v1 ∈ inner := by
          cases inner with
          | nil => simp at hr
          | cons z l => simp at hr; simp [hr.1]
        have hd := hm.down
        simp only [List.cons_append, List.pairwise_cons] at hd
        have hx1 : below v1.2 x.2 := hd.1 _ (by simp; exact .inl ⟨_, hv1⟩)
        have h1y : below y.2 v1.2 := by
          have := (List.pairwise_append.1 hd.2).2.2
          exact this v1.2 (List.mem_map_of_mem hv1) y.2 (by simp)
        have hs := hm.side v1.2 (List.mem_map_of_mem hv1)
        have hM : M.isLeftChain = isLeftOfLine y.2 x.2 v1.2 := by
          rw [← hb]; simp only [hlast]
        rw [hM]
        obtain ⟨-, -, k1, k2⟩ := isLeft_between h1y hx1
        rw [orient_cyc] at hs
        cases left
        · exact k2 hs
        · exact k1 hs
      · subst hb
        exact ⟨by simp, rfl, rfl⟩
    · cases hb
  · cases hb

end

end Tri
