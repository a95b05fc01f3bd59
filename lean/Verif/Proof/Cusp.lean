import Verif.Proof.Mountain

/-!
# A chain that `build_fans` goes through again and again

After a fan that advances, `build_fans` does not look back at the ear it may have made behind it, so it finds the next fan
of the chain below only on its next pass.
-/

set_option linter.unusedSectionVars false

namespace Tri

variable {I C : Type} [Scalar C]

/-- The vertices `r 0, …, r (j - 1)`. -/
def upper (r : Nat → I × Coords C) (j : Nat) : List (I × Coords C) := (List.range j).map r

/-- The vertices `v (j - 1), …, v 0`. -/
def lower (v : Nat → I × Coords C) (j : Nat) : List (I × Coords C) := ((List.range j).map v).reverse

theorem upper_succ (r : Nat → I × Coords C) (j : Nat) : (upper r (j + 1)).reverse = r j :: (upper r j).reverse := by
  simp [upper, List.range_succ]

theorem lower_succ (v : Nat → I × Coords C) (j : Nat) : lower v (j + 1) = v j :: lower v j := by
  simp [lower, List.range_succ]

theorem upper_length (r : Nat → I × Coords C) (j : Nat) : (upper r j).length = j := by simp [upper]

theorem lower_length (v : Nat → I × Coords C) (j : Nat) : (lower v j).length = j := by simp [lower]

/-- The tests that decide the passes over the chain `r 0, …, r k, v k, …, v 0`. -/
structure CuspTests (left : Bool) (r v : Nat → I × Coords C) : Prop where
  rrr : ∀ i, ¬ earOk left (r i) (r (i + 1)) (r (i + 2))
  rrv : ∀ i, earOk left (r i) (r (i + 1)) (v (i + 1))
  back : ∀ i, ¬ earOk left (r i) (r (i + 1)) (v (i + 2))
  rvv : ∀ i, earOk left (r i) (v (i + 1)) (v i)
  stop : ∀ i, ¬ earOk left (r (i + 1)) (v (i + 1)) (v i)
  vvv : ∀ i, ¬ earOk left (v (i + 2)) (v (i + 1)) (v i)

theorem Rep.can_true {M : Mono I C} {S D Q : List (I × Coords C)} {a b c : I × Coords C}
    (h : Rep M (b :: a :: S) D (c :: Q)) (ho : earOk M.isLeftChain a b c) : M.canTriangulate = .ok true := by
  rcases h.can with ⟨h1, -⟩ | ⟨-, h1⟩
  · exact h1
  · exact absurd ho (h1 _ _ _ _ _ rfl rfl)

theorem Rep.can_false {M : Mono I C} {S D Q : List (I × Coords C)} {a b c : I × Coords C}
    (h : Rep M (b :: a :: S) D (c :: Q)) (ho : ¬ earOk M.isLeftChain a b c) : M.canTriangulate = .ok false := by
  rcases h.can with ⟨-, b', a', S', c', Q', h1, h2, h3⟩ | ⟨h1, -⟩
  · cases h1; cases h2; exact absurd h3 ho
  · exact h1

theorem Rep.can_short {M : Mono I C} {S D Q : List (I × Coords C)}
    (h : Rep M S D Q) (hs : S.length < 2 ∨ Q = []) : M.canTriangulate = .ok false := by
  rcases h.can with ⟨-, b', a', S', c', Q', h1, h2, h3⟩ | ⟨h1, -⟩
  · subst h1 h2; simp at hs; omega
  · exact h1

/-- The fan at the tip of the cusp takes two ears. -/
theorem fanStep_tip (w : Winding) {M : Mono I C} {a b c d : I × Coords C} {S D Q : List (I × Coords C)}
    (hR : Rep M (b :: a :: S) D (c :: d :: Q)) (h1 : earOk M.isLeftChain a b c)
    (h2 : ∀ x S', S = x :: S' → ¬ earOk M.isLeftChain x a c) (h3 : earOk M.isLeftChain a c d)
    (h4 : ∀ x Q', Q = x :: Q' → ¬ earOk M.isLeftChain a d x) :
    ∃ cs M' D', Mono.fanStep (m := TrM I) w M = ⟨cs, .ok M'⟩ ∧ Rep M' (d :: a :: S) D' Q ∧
      M'.isLeftChain = M.isLeftChain := by
  obtain ⟨M', bt, root, W, -, -, -, hM', -⟩ := fanStep_tr M b a c S D (d :: Q) hR h1
  have hM' := hM' w
  obtain ⟨hp1, hp2⟩ := hR.skippedPop
  generalize hM1 : ({ M with skippedTop := (a :: S).length } : Mono I C) = M1 at hp1 hp2
  have hl1 : M1.isLeftChain = M.isLeftChain := by rw [← hM1]
  have hc1 : M1.canTriangulate = .ok false := by
    cases S with
    | nil => exact hp2.can_short (.inl (by simp))
    | cons x S => exact hp2.can_false (hl1 ▸ h2 x S rfl)
  obtain ⟨M2, ht1, ht3, ht2⟩ := hp2.transferPending
  have hc2 : M2.canTriangulate = .ok true := ht2.can_true (by rw [ht3, hl1]; exact h3)
  obtain ⟨hp3, hp4⟩ := ht2.skippedPop
  generalize hM3 : ({ M2 with skippedTop := (a :: S).length } : Mono I C) = M3 at hp3 hp4
  have hl3 : M3.isLeftChain = M.isLeftChain := by rw [← hM3]; exact ht3.trans hl1
  obtain ⟨M4, ht4, ht5, ht6⟩ := hp4.transferPending
  have hc4 : M4.canTriangulate = .ok false := by
    cases Q with
    | nil => exact ht6.can_short (.inr rfl)
    | cons x Q => exact ht6.can_false (by rw [ht5, hl3]; exact h4 x Q rfl)
  have hlen : ∃ n, M2.arr.length + 1 = n + 2 := ⟨M2.arr.length - 1, by rw [ht2.arr]; simp; omega⟩
  have hgrow : ∀ bd : Mono.Bodt, ∃ cs bd', (Mono.growFan false M1 bd : TrM I _) = ⟨cs, .ok (M4, bd')⟩ := by
    intro bd
    obtain ⟨n, hn⟩ := hlen
    refine ⟨bd.ext [d], bd.grow 1, ?_⟩
    unfold Mono.growFan
    rw [if_neg (by simp), ht1, TrM.lift_ok, hn]
    unfold Mono.advLoop
    rw [hc2, TrM.lift_ok, if_pos rfl, hp3, TrM.lift_ok]
    simp only
    rw [hp4.pendingPeek, TrM.lift_ok, addTriangle_tr, TrM.mk_ok_bind, ht4, TrM.lift_ok]
    unfold Mono.advLoop
    rw [hc4, TrM.lift_ok, if_neg (by simp), TrM.pure_def]
    simp
  have e : M' = M4 := by
    have hres := congrArg TrM.res hM'
    unfold Mono.fanStep at hres
    rw [hp1, TrM.lift_ok] at hres
    simp only at hres
    rw [hp2.skippedPeek, TrM.lift_ok, hp2.pendingPeek, TrM.lift_ok, hl1, hc1, TrM.lift_ok, startFan_tr] at hres
    have fin : ∀ cs bd, ((⟨cs, .ok bd⟩ : TrM I Mono.Bodt) >>= fun bodt => Mono.growFan false M1 bodt >>= fun x =>
        Mono.finishFan false x.1 x.2 >>= fun _ => pure x.1).res = .ok M' → M' = M4 := by
      intro cs bd h
      obtain ⟨cs', bd', e⟩ := hgrow bd
      rw [TrM.mk_ok_bind, e, TrM.mk_ok_bind] at h
      simp only [TrM.res_bind] at h
      split at h
      · simpa [TrM.pure_def] using h.symm
      · cases h
    split at hres
    · exact fin _ _ hres
    · exact fin _ _ hres
  subst e
  exact ⟨_, M', _, hM', ht6, ht5.trans hl3⟩

/-- The run from `M` on ends within `fuel` iterations. -/
def Ends (w : Winding) (fuel : Nat) (M : Mono I C) : Prop := (Mono.buildFans (m := TrM I) w fuel M).res = .ok ()

/-- The same, from the end of an iteration on. -/
def EndsAdv (w : Winding) (fuel : Nat) (M : Mono I C) : Prop := ∃ M', M.advancePosition = .ok M' ∧ Ends w fuel M'

theorem Ends.pos {w : Winding} {fuel : Nat} {M : Mono I C} (h : Ends w fuel M) : ∃ f, fuel = f + 1 := by
  cases fuel with
  | zero => cases h
  | succ f => exact ⟨f, rfl⟩

/-- An iteration without a fan. -/
theorem Ends.skip {w : Winding} {fuel : Nat} {M : Mono I C} {S D Q : List (I × Coords C)} (h : Ends w (fuel + 1) M)
    (hR : Rep M S D Q) (h3 : 3 ≤ Q.length + S.length) (hc : M.canTriangulate = .ok false) : EndsAdv w fuel M := by
  unfold Ends Mono.buildFans at h
  rw [hR.remaining, TrM.lift_ok, if_pos h3] at h
  unfold Mono.maybeFan at h
  rw [hc, TrM.lift_ok, if_neg (by simp), TrM.pure_bind] at h
  cases ha : M.advancePosition with
  | error e => rw [ha] at h; cases h
  | ok M' => rw [ha, TrM.lift_ok] at h; exact ⟨M', ha, h⟩

/-- An iteration with a fan. -/
theorem Ends.fan {w : Winding} {fuel : Nat} {M M1 : Mono I C} {S D Q : List (I × Coords C)} {cs : List (Call I)}
    (h : Ends w (fuel + 1) M) (hR : Rep M S D Q) (h3 : 3 ≤ Q.length + S.length) (hc : M.canTriangulate = .ok true)
    (hf : Mono.fanStep (m := TrM I) w M = ⟨cs, .ok M1⟩) : EndsAdv w fuel M1 := by
  unfold Ends Mono.buildFans at h
  rw [hR.remaining, TrM.lift_ok, if_pos h3] at h
  unfold Mono.maybeFan at h
  rw [hc, TrM.lift_ok, if_pos rfl, hf, TrM.mk_ok_bind] at h
  cases ha : M1.advancePosition with
  | error e => rw [ha] at h; cases h
  | ok M' => rw [ha, TrM.lift_ok] at h; exact ⟨M', ha, h⟩

theorem EndsAdv.transfer {w : Winding} {fuel : Nat} {M : Mono I C} {S D Q : List (I × Coords C)} {q : I × Coords C}
    (h : EndsAdv w fuel M) (hR : Rep M S D (q :: Q)) :
    ∃ M' D', Ends w fuel M' ∧ M'.isLeftChain = M.isLeftChain ∧ Rep M' (q :: S) D' Q := by
  obtain ⟨M', h1, h2⟩ := h
  obtain ⟨M2, k1, k2, k3⟩ := hR.transferPending
  unfold Mono.advancePosition at h1
  rw [hR.hasPending, if_pos (by simp), k1] at h1
  cases h1
  exact ⟨_, _, h2, k2, k3⟩

theorem EndsAdv.reset {w : Winding} {fuel : Nat} {M : Mono I C} {S D : List (I × Coords C)} {x y : I × Coords C}
    {L : List (I × Coords C)} (h : EndsAdv w fuel M) (hR : Rep M S D []) (hS : S.reverse = x :: y :: L) :
    ∃ M', Ends w fuel M' ∧ M'.isLeftChain = M.isLeftChain ∧ Rep M' [y, x] [] L := by
  obtain ⟨M', h1, h2⟩ := h
  unfold Mono.advancePosition at h1
  rw [hR.hasPending, if_neg (by simp)] at h1
  cases h1
  exact ⟨_, h2, rfl, hR.reset hS⟩

/-- The way from the tip to the end of the chain, and back to its start. -/
theorem EndsAdv.tail {left : Bool} {r v : Nat → I × Coords C} (H : CuspTests left r v) {w : Winding} (m : Nat) {fuel : Nat}
    {M : Mono I C} {S D : List (I × Coords C)} (h : EndsAdv w fuel M) (hl : M.isLeftChain = left)
    (hR : Rep M (v m :: S) D (lower v m)) (hS : S ≠ []) :
    ∃ f M' x y L, fuel = f + m ∧ Ends w f M' ∧ M'.isLeftChain = left ∧ Rep M' [y, x] [] L ∧
      x :: y :: L = S.reverse ++ lower v (m + 1) := by
  induction m generalizing fuel M S D with
  | zero =>
    rcases hS1 : (v 0 :: S).reverse with _ | ⟨x, _ | ⟨y, L⟩⟩
    · simp at hS1
    · have := congrArg List.length hS1
      simp at this; exact absurd this hS
    · obtain ⟨M', h1, h2, h3⟩ := h.reset hR hS1
      exact ⟨fuel, M', x, y, L, rfl, h1, h2.trans hl, h3, by rw [← hS1]; simp [lower_succ, lower]⟩
  | succ m ih =>
    rw [lower_succ] at hR
    obtain ⟨M1, D1, h1, h2, h3⟩ := h.transfer hR
    obtain ⟨f, rfl⟩ := h1.pos
    have hlen := List.length_pos_iff.2 hS
    have hc : M1.canTriangulate = .ok false := by
      cases m with
      | zero => exact h3.can_short (.inr rfl)
      | succ m =>
        rw [lower_succ] at h3
        exact h3.can_false (by rw [h2, hl]; exact H.vvv m)
    obtain ⟨f', M', x, y, L, e, k1, k2, k3, k4⟩ := ih (h1.skip h3 (by simp; omega) hc) (h2.trans hl) h3 (by simp)
    refine ⟨f', M', x, y, L, by omega, k1, k2, k3, ?_⟩
    rw [k4, lower_succ v (m + 1)]; simp

/-- The way from the start of the chain to the tip. -/
theorem Ends.head {left : Bool} {r v : Nat → I × Coords C} (H : CuspTests left r v) {w : Winding} (d i : Nat) {fuel : Nat}
    {M : Mono I C} {D Q : List (I × Coords C)} (h : Ends w fuel M) (hl : M.isLeftChain = left)
    (hR : Rep M (upper r (i + 2)).reverse D ((List.range' (i + 2) d).map r ++ Q)) :
    ∃ f M' D', fuel = f + d ∧ Ends w f M' ∧ M'.isLeftChain = left ∧ Rep M' (upper r (i + d + 2)).reverse D' Q := by
  induction d generalizing i fuel M D with
  | zero => exact ⟨fuel, M, D, rfl, h, hl, by simpa using hR⟩
  | succ d ih =>
    obtain ⟨f, rfl⟩ := h.pos
    rw [List.range'_succ, List.map_cons, List.cons_append] at hR
    have hR' := hR
    rw [upper_succ, upper_succ] at hR'
    have hc : M.canTriangulate = .ok false := hR'.can_false (by rw [hl]; exact H.rrr i)
    obtain ⟨M1, D1, h1, h2, h3⟩ := (h.skip hR (by simp [upper_length]; omega) hc).transfer hR
    rw [← upper_succ] at h3
    obtain ⟨f', M', D', e, k1, k2, k3⟩ := ih (i + 1) h1 (h2.trans hl) h3
    refine ⟨f', M', D', by omega, k1, k2, ?_⟩
    have : i + 1 + d + 2 = i + (d + 1) + 2 := by omega
    rwa [this] at k3

/-- The chain `r 0, …, r k, v k, …, v 0` takes more than `k * k` iterations. -/
theorem Ends.cusp {left : Bool} {r v : Nat → I × Coords C} (H : CuspTests left r v) {w : Winding} (k : Nat) {fuel : Nat}
    {M : Mono I C} {x y : I × Coords C} {L : List (I × Coords C)} (h : Ends w fuel M) (hl : M.isLeftChain = left)
    (hR : Rep M [y, x] [] L) (hL : x :: y :: L = upper r (k + 1) ++ lower v (k + 1)) : k * k < fuel := by
  induction k generalizing fuel M x y L with
  | zero => obtain ⟨f, rfl⟩ := h.pos; omega
  | succ m ih =>
    have e : upper r (m + 2) = r 0 :: r 1 :: (List.range' 2 m).map r := by
      unfold upper
      rw [List.range_eq_range', show m + 2 = m + 1 + 1 from rfl, List.range'_succ, List.range'_succ]
      simp
    have hL' := hL
    rw [e] at hL'
    simp only [List.cons_append, List.cons.injEq] at hL'
    obtain ⟨rfl, rfl, rfl⟩ := hL'
    obtain ⟨f, M1, D1, rfl, h1, h2, h3⟩ := h.head H m 0 hl (by simpa [upper, List.range_succ] using hR)
    rw [Nat.zero_add, upper_succ, upper_succ, lower_succ, lower_succ] at h3
    obtain ⟨f, rfl⟩ := h1.pos
    obtain ⟨cs, M2, D2, g1, g2, g3⟩ := fanStep_tip w h3 (by rw [h2]; exact H.rrv m) (by
      intro x S' hx
      rw [h2]
      cases m with
      | zero => simp [upper] at hx
      | succ m =>
        rw [upper_succ] at hx
        cases hx
        exact H.back m) (by rw [h2]; exact H.rvv m) (by
      intro x Q' hx
      rw [h2]
      cases m with
      | zero => simp [lower] at hx
      | succ m =>
        rw [lower_succ] at hx
        cases hx
        exact H.stop m)
    have h4 := h1.fan h3 (by simp; omega) (h3.can_true (by rw [h2]; exact H.rrv m)) g1
    rw [← upper_succ] at g2
    obtain ⟨f', M', x, y, L, e', k1, k2, k3, k4⟩ := h4.tail H m (g3.trans h2) g2 (by rw [upper_succ]; simp)
    rw [List.reverse_reverse] at k4
    have := ih k1 k2 k3 k4
    have : (m + 1) * (m + 1) = m * m + 2 * m + 1 := by ring
    omega

end Tri
