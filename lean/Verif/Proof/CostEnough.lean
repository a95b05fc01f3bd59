import Verif.Proof.CostChain

/-!
# As many steps as are counted are enough

A run that succeeds is the same when each loop may take as many steps as the whole run counts.
-/

set_option linter.unusedSectionVars false

namespace Tri

variable {I V C : Type} [Scalar C]

open TrE

/-- If the first computation ends well within `L` steps, the second one is the same. -/
def SameIf (L : Nat) {α : Type} (x y : TrE I α) : Prop := ∀ a, x.res = .ok a → x.len ≤ L → y = x

namespace SameIf

variable {L : Nat}

theorem rfl' {α : Type} (x : TrE I α) : SameIf L x x := fun _ _ _ => rfl

theorem bind {α β : Type} {x y : TrE I α} {f g : α → TrE I β} (h : SameIf L x y) (h' : ∀ a, SameIf L (f a) (g a)) :
    SameIf L (x >>= f) (y >>= g) := by
  intro b hb hl
  obtain ⟨a, h1, h2, h3, -⟩ := bind_ok hb
  rw [h3] at hl
  rw [h a h1 (by omega)]
  have e := h' a b h2 (by omega)
  rcases x with ⟨l, r⟩
  simp only at h1; subst h1
  rw [ok_bind, ok_bind, e]

end SameIf

theorem buildFansC_enough (w : Winding) (k L : Nat) (M : Mono I C) :
    SameIf L (Mono.buildFansC (tick (I := I)) w k M) (Mono.buildFansC (tick (I := I)) w L M) := by
  intro u h hl
  induction k generalizing L M with
  | zero => cases h
  | succ k ih =>
    have hl' := hl
    unfold Mono.buildFansC at h hl'
    obtain ⟨u, -, h, e1, -⟩ := bind_ok h
    rw [e1, len_tick] at hl'
    obtain ⟨L, rfl⟩ : ∃ j, L = j + 1 := ⟨L - 1, by omega⟩
    unfold Mono.buildFansC
    obtain ⟨r, hr, h, e1, -⟩ := bind_ok h
    rw [e1, len_lift] at hl'
    rw [res_lift] at hr
    rw [tick_bind, tick_bind, hr, lift_ok, lift_ok]
    split at h
    · next h3 =>
      rw [if_pos h3] at hl'
      rw [if_pos h3, if_pos h3]
      obtain ⟨M1, h1, h, e1, -⟩ := bind_ok h
      rw [e1] at hl'
      obtain ⟨M2, h2, h, e1, -⟩ := bind_ok h
      rw [e1, len_lift] at hl'
      rw [res_lift] at h2
      rcases hm : Mono.maybeFanC (tick (I := I)) w M with ⟨l, r⟩
      rw [hm] at h1
      simp only at h1; subst h1
      rw [ok_bind, ok_bind, h2, lift_ok, lift_ok, ih L M2 h (by omega)]
    · next h3 => rw [if_neg h3, if_neg h3]

variable (w : Winding) (f L : Nat)

theorem finishMonotoneC_enough (b : MonoB I C) :
    SameIf L (finishMonotoneC (tick (I := I)) w f b) (finishMonotoneC (tick (I := I)) w L b) := by
  refine SameIf.bind (SameIf.rfl' _) fun M => ?_
  rcases M with _ | M
  · exact SameIf.rfl' _
  · exact buildFansC_enough w f L M

theorem forM_enough (bs : List (MonoB I C)) :
    SameIf L (bs.forM (finishMonotoneC (tick (I := I)) w f)) (bs.forM (finishMonotoneC (tick (I := I)) w L)) := by
  induction bs with
  | nil => exact SameIf.rfl' _
  | cons b bs ih => exact SameIf.bind (finishMonotoneC_enough w f L b) fun _ => ih

theorem advanceMonotonesC_enough (p : PolyList I V) (xy : V → Coords C) (st : St I C)
    (t : Trapezoid) (niDown : Nat) (nDown : Nexus I C) (ms : Ot (MonoB I C)) :
    SameIf L (advanceMonotonesC (tick (I := I)) w f p xy st t niDown nDown ms)
      (advanceMonotonesC (tick (I := I)) w L p xy st t niDown nDown ms) := by
  unfold advanceMonotonesC
  refine SameIf.bind (SameIf.rfl' _) fun sl => SameIf.bind (SameIf.rfl' _) fun sr =>
    SameIf.bind (SameIf.rfl' _) fun nu => ?_
  rcases splitCompleted (addToAll ms nDown.vi nDown.c) niDown nu sl sr with ⟨_ | d, ms'⟩
  · exact SameIf.rfl' _
  · exact SameIf.bind (finishMonotoneC_enough w f L d) fun _ => SameIf.rfl' _

theorem joinVC_enough (x : TI I C) (a b c : Nat) :
    SameIf L (joinVC (tick (I := I)) w f x a b c) (joinVC (tick (I := I)) w L x a b c) := by
  unfold joinVC
  rcases x.monotones with _ | ms
  · exact SameIf.rfl' _
  · simp only []
    split
    · exact SameIf.rfl' _
    · split
      · exact SameIf.bind (forM_enough w f L _) fun _ => SameIf.rfl' _
      · exact SameIf.rfl' _

theorem triStepC_enough (p : PolyList I V) (xy : V → Coords C) (st : St I C) (x : TI I C) (t : Trapezoid) (niDown : Nat) :
    SameIf L (triStepC (tick (I := I)) w f p xy st x t niDown) (triStepC (tick (I := I)) w L p xy st x t niDown) := by
  unfold triStepC
  refine SameIf.bind (SameIf.rfl' _) fun nd => SameIf.bind ?_ fun x' => SameIf.bind (SameIf.rfl' _) fun ft => ?_
  · unfold updateMonotonesC
    rcases x.monotones with _ | ms
    · exact SameIf.rfl' _
    · exact SameIf.bind (advanceMonotonesC_enough w f L p xy st t niDown nd ms) fun _ => SameIf.rfl' _
  · cases ft with
    | V => exact SameIf.bind (joinVC_enough w f L _ _ _ _) fun _ => SameIf.rfl' _
    | I => exact SameIf.rfl' _
    | A => exact SameIf.rfl' _

theorem triLoopC_enough (p : PolyList I V) (xy : V → Coords C) (st : St I C) (k j : Nat) (x : TI I C) (hj : j ≤ L)
    (h : (triLoopC (tick (I := I)) w f p xy st k x).res = .ok ())
    (hl : (triLoopC (tick (I := I)) w f p xy st k x).len ≤ j) :
    triLoopC (tick (I := I)) w L p xy st j x = triLoopC (tick (I := I)) w f p xy st k x := by
  induction k generalizing j x with
  | zero => cases h
  | succ k ih =>
    have hl' := hl
    unfold triLoopC at h hl'
    obtain ⟨u, -, h, e1, -⟩ := bind_ok h
    rw [e1, len_tick] at hl'
    obtain ⟨j, rfl⟩ : ∃ i, j = i + 1 := ⟨j - 1, by omega⟩
    unfold triLoopC
    obtain ⟨t, ht, h, e1, -⟩ := bind_ok h
    rw [e1, len_lift] at hl'
    rw [res_lift] at ht
    rw [tick_bind, tick_bind, ht, lift_ok, lift_ok]
    rcases hd : t.down with _ | nd
    · rfl
    · rw [hd] at h hl'
      simp only [] at h hl' ⊢
      obtain ⟨x', hx, h, e1, -⟩ := bind_ok h
      rw [e1] at hl'
      rw [triStepC_enough w f L p xy st x t nd x' hx (by omega)]
      rcases hs : triStepC (tick (I := I)) w f p xy st x t nd with ⟨l, r⟩
      rw [hs] at hx
      simp only at hx; subst hx
      rw [ok_bind, ok_bind, ih j x' (by omega) h (by omega)]

theorem topTrapezoidC_enough (qs : List (QueryNode C)) (k q : Nat) :
    SameIf L (topTrapezoidC (tick (I := I)) qs k q) (topTrapezoidC (tick (I := I)) qs L q) := by
  intro a h hl
  induction k generalizing L q with
  | zero => cases h
  | succ k ih =>
    have hl' := hl
    unfold topTrapezoidC at h hl'
    obtain ⟨u, -, h, e1, -⟩ := bind_ok h
    rw [e1, len_tick] at hl'
    obtain ⟨L, rfl⟩ : ∃ i, L = i + 1 := ⟨L - 1, by omega⟩
    unfold topTrapezoidC
    obtain ⟨t, ht, h, e1, -⟩ := bind_ok h
    rw [e1, len_lift] at hl'
    rw [res_lift] at ht
    rw [tick_bind, tick_bind, ht, lift_ok, lift_ok]
    rcases t with ⟨_, r, _ | _⟩ | t'
    · rfl
    · simp only [] at h hl' ⊢
      rw [ih L r h (by omega)]
    · rfl

theorem innerEvents_enough (p : PolyList I V) (xy : V → Coords C) (st : St I C)
    (h : (innerEvents w f p xy st).res = .ok ()) (hl : (innerEvents w f p xy st).len ≤ L) :
    innerEvents w L p xy st = innerEvents w f p xy st := by
  unfold innerEvents triangulateInnerC at h hl ⊢
  obtain ⟨t, h1, h2, h3, -⟩ := bind_ok h
  rw [h3] at hl
  rw [topTrapezoidC_enough L st.qs f 0 t h1 (by omega)]
  rcases hs : topTrapezoidC (tick (I := I)) st.qs f 0 with ⟨l, r⟩
  rw [hs] at h1
  simp only at h1; subst h1
  rw [ok_bind, ok_bind, triLoopC_enough w f L p xy st f L _ (Nat.le_refl _) h2 (by omega)]

/-- A run that succeeds also succeeds, in the same way, if no loop may take more steps than are counted. -/
theorem triangulateC_enough (fuel : Nat) (p : PolyList I V) (xy : V → Coords C) (st : St I C) (F : FanFormat I) (o : F.O)
    (h : (st.triangulate fuel p xy F).2 = .ok o) (L : Nat) (hL : (st.triangulateC fuel p xy F).2 ≤ L) :
    st.triangulate L p xy F = st.triangulate fuel p xy F := by
  obtain ⟨-, -, h1⟩ := triangulateC_eq fuel p xy st F
  rw [h1 o h] at hL
  have hres : (innerEvents F.winding fuel p xy st).res = .ok () := by
    have e := congrArg TrM.res (innerEvents_erase F.winding fuel p xy st)
    rw [erase_res] at e
    rw [e]
    rw [triangulate_eq_interp] at h
    rcases hr : innerTrace F.winding fuel p xy st with ⟨cs, e | u⟩
    · rw [hr] at h
      simp only [interp] at h
      generalize feed F cs .uninit = z at h
      rcases z with ⟨s, e' | u⟩
      · rcases s with _ | b | b | w <;> rcases e' with e' | _ | _ | _ <;> cases h
      · rcases s with _ | b | b | w <;> rcases e with e | _ | _ | _ <;> cases h
    · rfl
  rw [triangulate_eq_interp, triangulate_eq_interp, ← innerEvents_erase, ← innerEvents_erase,
    innerEvents_enough F.winding fuel L p xy st hres hL]

end Tri
