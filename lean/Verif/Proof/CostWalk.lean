import Verif.Proof.CostChain

/-!
# What the counting version counts for the traversal
-/

set_option linter.unusedSectionVars false

namespace Tri

variable {I V C : Type} [Scalar C]

open TrE

/-- The cost of chains, finished one after the other. -/
def chainsLen (w : Winding) (fuel : Nat) (bs : List (MonoB I C)) : Nat :=
  (bs.map fun b => (finishMonotoneC (tick (I := I)) w fuel b).len).sum

/-- A counted run and a traversal without the triangulation: if all its chains are finished well, the results agree and the
cost is that of the chains and `t`. -/
def WalkLen (w : Winding) (fuel : Nat) {α : Type} (t : Nat) (x : TrE I α) (y : BM I C α) : Prop :=
  (∀ b ∈ y.done, (finishMonotoneC (tick (I := I)) w fuel b).res = .ok ()) →
    x.res = y.res ∧ x.len ≤ t + chainsLen w fuel y.done

namespace WalkLen

variable {w : Winding} {fuel : Nat}

theorem bind {α β : Type} {t t' : Nat} {x : TrE I α} {y : BM I C α} {f : α → TrE I β} {g : α → BM I C β}
    (h : WalkLen w fuel t x y) (h' : ∀ a, WalkLen w fuel t' (f a) (g a)) : WalkLen w fuel (t + t') (x >>= f) (y >>= g) := by
  intro hd
  rcases x with ⟨l, r⟩
  rcases y with ⟨bs, e | a⟩
  · rw [BM.mk_error_bind] at hd ⊢
    obtain ⟨h1, h2⟩ := h hd
    simp only at h1; subst h1
    rw [error_bind]
    exact ⟨rfl, by simp only [len] at h2 ⊢; omega⟩
  · rw [BM.mk_ok_bind] at hd ⊢
    simp only at hd
    obtain ⟨h1, h2⟩ := h fun b hb => hd b (List.mem_append_left _ hb)
    obtain ⟨k1, k2⟩ := h' a fun b hb => hd b (List.mem_append_right _ hb)
    simp only at h1; subst h1
    rw [ok_bind]
    refine ⟨k1, ?_⟩
    simp only [len, List.length_append, chainsLen, List.map_append, List.sum_append] at h2 k2 ⊢
    omega

theorem lift {α : Type} (r : Res IErr α) : WalkLen w fuel 0 (FanM.lift r : TrE I α) (BM.lift r : BM I C α) := by
  intro _
  cases r <;> exact ⟨rfl, Nat.zero_le _⟩

theorem pure {α : Type} (a : α) : WalkLen w fuel 0 (Pure.pure a : TrE I α) (Pure.pure a : BM I C α) := lift (.ok a)

theorem mono {α : Type} {t t' : Nat} {x : TrE I α} {y : BM I C α} (h : WalkLen w fuel t x y) (ht : t ≤ t') :
    WalkLen w fuel t' x y := fun hd => ⟨(h hd).1, by have := (h hd).2; omega⟩

theorem tick {α : Type} {t : Nat} {x : Unit → TrE I α} {y : BM I C α} (h : WalkLen w fuel t (x ()) y) :
    WalkLen w fuel (t + 1) (TrE.tick >>= x) y := by
  intro hd
  obtain ⟨h1, h2⟩ := h hd
  rw [tick_bind]
  refine ⟨h1, ?_⟩
  simp only [len, List.length_cons] at h2 ⊢
  omega

theorem finish (b : MonoB I C) : WalkLen w fuel 0 (finishMonotoneC (TrE.tick (I := I)) w fuel b) (BM.finish b) := by
  intro hd
  refine ⟨hd b (by simp [BM.finish]), ?_⟩
  simp [BM.finish, chainsLen]

theorem forM (bs : List (MonoB I C)) :
    WalkLen w fuel 0 (bs.forM (finishMonotoneC (TrE.tick (I := I)) w fuel)) (bs.forM BM.finish) := by
  induction bs with
  | nil => exact pure ()
  | cons b bs ih => exact bind (t := 0) (t' := 0) (finish b) fun _ => ih

theorem advance (p : PolyList I V) (xy : V → Coords C) (st : St I C)
    (t : Trapezoid) (niDown : Nat) (nDown : Nexus I C) (ms : Ot (MonoB I C)) :
    WalkLen w fuel 0 (advanceMonotonesC (TrE.tick (I := I)) w fuel p xy st t niDown nDown ms)
      (advanceMonotonesB p xy st t niDown nDown ms) := by
  unfold advanceMonotonesC advanceMonotonesB
  refine bind (t := 0) (t' := 0) (lift _) fun sl => bind (t := 0) (t' := 0) (lift _) fun sr =>
    bind (t := 0) (t' := 0) (lift _) fun nu => ?_
  rcases splitCompleted (addToAll ms nDown.vi nDown.c) niDown nu sl sr with ⟨_ | d, ms'⟩
  · exact pure _
  · exact bind (t := 0) (t' := 0) (finish d) fun _ => lift _

theorem join (x : TI I C) (a b c : Nat) :
    WalkLen w fuel 0 (joinVC (TrE.tick (I := I)) w fuel x a b c) (joinVB x a b c) := by
  unfold joinVC joinVB
  rcases x.monotones with _ | ms
  · exact pure _
  · simp only []
    split
    · exact bind (t := 0) (t' := 0) (lift _) fun _ => pure _
    · split
      · exact bind (t := 0) (t' := 0) (forM _) fun _ => pure _
      · split
        · rcases x.monotoneStack with _ | ⟨l, rest⟩
          · exact lift _
          · exact bind (t := 0) (t' := 0) (lift _) fun _ => pure _
        · exact lift _

theorem descend (st : St I C) (x : TI I C) (t : Trapezoid) (nDown : Nexus I C) (ft : FinalType) :
    WalkLen w fuel 0 (descendC (TrE.tick (I := I)) w fuel st x t nDown ft) (descendB st x t nDown ft) := by
  cases ft with
  | V => exact bind (t := 0) (t' := 0) (join _ _ _ _) fun _ => lift _
  | I a b c d =>
    simp only [descendC, descendB, descendI, descendIB]
    split
    · exact pure _
    · split
      · exact pure _
      · exact lift _
  | A a b c d =>
    simp only [descendC, descendB, descendA, descendAB]
    rcases x.monotones with _ | ms
    · exact pure _
    · exact bind (t := 0) (t' := 0) (lift _) fun _ => pure _

theorem step (p : PolyList I V) (xy : V → Coords C) (st : St I C) (x : TI I C) (t : Trapezoid) (niDown : Nat) :
    WalkLen w fuel 0 (triStepC (TrE.tick (I := I)) w fuel p xy st x t niDown) (triStepB p xy st x t niDown) := by
  unfold triStepC triStepB
  refine bind (t := 0) (t' := 0) (lift _) fun nd => bind (t := 0) (t' := 0) ?_ fun x' =>
    bind (t := 0) (t' := 0) (lift _) fun ft => descend _ _ _ _ _
  unfold updateMonotonesC updateMonotonesB
  rcases x.monotones with _ | ms
  · exact pure _
  · exact bind (t := 0) (t' := 0) (advance _ _ _ _ _ _ _) fun _ => pure _

/-- Each pass of the loop counts as one. -/
theorem loop (p : PolyList I V) (xy : V → Coords C) (st : St I C) (k : Nat) (x : TI I C) :
    WalkLen w fuel k (triLoopC (TrE.tick (I := I)) w fuel p xy st k x) (triLoopB p xy st k x) := by
  induction k generalizing x with
  | zero => exact lift _
  | succ k ih =>
    unfold triLoopC triLoopB
    refine tick ?_
    refine (bind (t := 0) (t' := k) (lift _) fun t => ?_).mono (by omega)
    rcases t.down with _ | nd
    · simp only []
      split
      · exact (lift _).mono (Nat.zero_le _)
      · split
        · exact (lift _).mono (Nat.zero_le _)
        · split
          · exact (lift _).mono (Nat.zero_le _)
          · exact (pure _).mono (Nat.zero_le _)
    · exact (bind (t := 0) (t' := k) (step _ _ _ _ _ _) fun x' => ih x').mono (by omega)

end WalkLen

/-- More passes do not change a traversal that ended well. -/
theorem triLoopC_mono (w : Winding) (fuel : Nat) (p : PolyList I V) (xy : V → Coords C) (st : St I C) (k k' : Nat) (hk : k ≤ k')
    (x : TI I C) (h : (triLoopC (tick (I := I)) w fuel p xy st k x).res = .ok ()) :
    triLoopC (tick (I := I)) w fuel p xy st k' x = triLoopC (tick (I := I)) w fuel p xy st k x := by
  induction k generalizing k' x with
  | zero => cases h
  | succ k ih =>
    obtain ⟨k', rfl⟩ : ∃ j, k' = j + 1 := ⟨k' - 1, by omega⟩
    unfold triLoopC at h ⊢
    obtain ⟨u, -, h, -⟩ := bind_ok h
    obtain ⟨t, ht, h, -⟩ := bind_ok h
    rw [res_lift] at ht
    rw [tick_bind, tick_bind, ht, lift_ok, lift_ok]
    rcases hd : t.down with _ | nd
    · rfl
    · rw [hd] at h
      simp only [] at h ⊢
      obtain ⟨x', hx, h, -⟩ := bind_ok h
      rcases hs : triStepC (tick (I := I)) w fuel p xy st x t nd with ⟨l, r⟩
      rw [hs] at hx
      simp only at hx; subst hx
      rw [ok_bind, ok_bind, ih k' (by omega) x' h]

/-- The search for the top trapezoid costs at most as many steps as it is allowed. -/
theorem topTrapezoidC_len (qs : List (QueryNode C)) (k k' : Nat) (hk : k ≤ k') (q t : Nat) (h : topTrapezoid qs k q = .ok t) :
    (topTrapezoidC (tick (I := I)) qs k' q).res = .ok t ∧ (topTrapezoidC (tick (I := I)) qs k' q).len ≤ k := by
  induction k generalizing k' q with
  | zero => cases h
  | succ k ih =>
    obtain ⟨k', rfl⟩ : ∃ j, k' = j + 1 := ⟨k' - 1, by omega⟩
    unfold topTrapezoid at h
    unfold topTrapezoidC
    rw [tick_bind]
    rcases hq : getP (ε := IErr) qs q with e | r
    · rw [hq] at h; cases h
    · rw [hq] at h
      rw [lift_ok]
      rcases r with ⟨_, r, _ | _⟩ | t'
      · cases h
      · obtain ⟨h1, h2⟩ := ih k' (by omega) r h
        refine ⟨h1, ?_⟩
        simp only [len, List.length_cons] at h2 ⊢
        omega
      · cases h
        exact ⟨rfl, by simp [len, pure_def]⟩

/-- The cost of a traversal that finds the top in `a` steps, visits `k` trapezoids and finishes its chains. -/
theorem innerEvents_len (w : Winding) (fuel : Nat) (p : PolyList I V) (xy : V → Coords C) (st : St I C) (a k : Nat)
    (ha : a ≤ fuel) (hk : k ≤ fuel) (t : Nat) (h : topTrapezoid st.qs a 0 = .ok t) (bs : List (MonoB I C))
    (hl : triLoopB p xy st k ⟨t, none, [], []⟩ = ⟨bs, .ok ()⟩)
    (hb : ∀ b ∈ bs, (finishMonotoneC (tick (I := I)) w fuel b).res = .ok ()) :
    (innerEvents w fuel p xy st).len ≤ a + k + chainsLen w fuel bs := by
  obtain ⟨h1, h2⟩ := topTrapezoidC_len (I := I) st.qs a fuel ha 0 t h
  obtain ⟨k1, k2⟩ := WalkLen.loop (w := w) (fuel := fuel) p xy st k ⟨t, none, [], []⟩ (by rw [hl]; exact hb)
  rw [hl] at k1 k2
  have e := triLoopC_mono w fuel p xy st k fuel hk _ k1
  unfold innerEvents triangulateInnerC
  rcases ht : topTrapezoidC (tick (I := I)) st.qs fuel 0 with ⟨l, r⟩
  rw [ht] at h1 h2
  simp only at h1; subst h1
  rw [ok_bind, e]
  simp only [len, List.length_append] at h2 k2 ⊢
  omega

end Tri
