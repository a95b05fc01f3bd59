import Verif.Proof.Fuel

/-!
# More steps do not change a run that ended
-/

namespace Tri

variable {I V C : Type}

/-- `y` does what `x` does, unless `x` runs out of steps. -/
def BLe {F : FanFormat I} {α : Type} (x y : FBM F α) : Prop := ∀ s, (x s).2 = .error .timeout ∨ y s = x s

namespace BLe

variable {F : FanFormat I} {α β : Type}

theorem refl (x : FBM F α) : BLe x x := fun _ => .inr rfl

theorem bind {x y : FBM F α} {f g : α → FBM F β} (h : BLe x y) (hf : ∀ a, BLe (f a) (g a)) :
    BLe (x >>= f) (y >>= g) := by
  intro s
  have e : ∀ (x : FBM F α) (f : α → FBM F β), (x >>= f) s =
      match x s with
      | (s, .ok a) => f a s
      | (s, .error e) => (s, .error e) := fun _ _ => rfl
  rw [e, e]
  rcases h s with h | h
  · left
    rcases hx : x s with ⟨s', e | a⟩
    · rw [hx] at h
      injection h with h
      rw [h]
    · rw [hx] at h
      cases h
  · rw [h]
    rcases hx : x s with ⟨s', e | a⟩
    · exact .inr rfl
    · exact hf a s'

theorem bind' {x : FBM F α} {f g : α → FBM F β} (hf : ∀ a, BLe (f a) (g a)) : BLe (x >>= f) (x >>= g) := bind (refl x) hf

theorem out (x : FBM F α) : BLe (FanM.stop .timeout) x := fun _ => .inl rfl

theorem lift {r r' : Res IErr α} (h : FLe r r') : BLe (F := F) (FanM.lift r) (FanM.lift r') := by
  rcases h with rfl | rfl
  · exact out _
  · exact refl _

theorem forM {f g : β → FBM F Unit} (h : ∀ b, BLe (f b) (g b)) (l : List β) : BLe (l.forM f) (l.forM g) := by
  induction l with
  | nil => exact refl _
  | cons b l ih =>
    show BLe (f b >>= fun _ => l.forM f) (g b >>= fun _ => l.forM g)
    exact bind (h b) fun _ => ih

end BLe

section
variable [Scalar C] (F : FanFormat I)

theorem buildFans_ble (w : Winding) {k n : Nat} (h : k ≤ n) (M : Mono I C) :
    BLe (F := F) (Mono.buildFans w k M) (Mono.buildFans w n M) := by
  induction k generalizing n M with
  | zero => exact .out _
  | succ k ih =>
    obtain ⟨n, rfl⟩ : ∃ m, n = m + 1 := ⟨n - 1, by omega⟩
    unfold Mono.buildFans
    refine .bind' fun r => ?_
    split
    · exact .bind' fun M => .bind' fun M => ih (by omega) M
    · exact .refl _

theorem finishMonotone_ble (w : Winding) {k n : Nat} (h : k ≤ n) (b : MonoB I C) :
    BLe (F := F) (finishMonotone w k b) (finishMonotone w n b) := by
  unfold finishMonotone
  refine .bind' fun M => ?_
  split
  · exact buildFans_ble F w h _
  · exact .refl _

theorem triStep_ble (w : Winding) {k n : Nat} (h : k ≤ n) (p : PolyList I V) (xy : V → Coords C) (st : St I C)
    (x : TI I C) (t : Trapezoid) (niDown : Nat) :
    BLe (F := F) (triStep w k p xy st x t niDown) (triStep w n p xy st x t niDown) := by
  unfold triStep
  refine .bind' fun nDown => .bind ?_ fun x => .bind' fun ft => ?_
  · unfold updateMonotones
    split
    · exact .refl _
    · refine .bind ?_ fun _ => .refl _
      unfold advanceMonotones
      refine .bind' fun sl => .bind' fun sr => .bind' fun nu => ?_
      split
      · exact .refl _
      · exact .bind (finishMonotone_ble F w h _) fun _ => .refl _
  · unfold descend
    split
    · unfold descendV
      refine .bind ?_ fun _ => .refl _
      unfold joinV
      split
      · exact .refl _
      · split
        · exact .refl _
        · split
          · exact .bind (.forM (fun b => finishMonotone_ble F w h b) _) fun _ => .refl _
          · exact .refl _
    · exact .refl _
    · exact .refl _

theorem triLoop_ble (w : Winding) {k n : Nat} (h : k ≤ n) (p : PolyList I V) (xy : V → Coords C) (st : St I C)
    {i j : Nat} (hij : i ≤ j) (x : TI I C) :
    BLe (F := F) (triLoop w k p xy st i x) (triLoop w n p xy st j x) := by
  induction i generalizing j x with
  | zero => exact .out _
  | succ i ih =>
    obtain ⟨j, rfl⟩ : ∃ m, j = m + 1 := ⟨j - 1, by omega⟩
    unfold triLoop
    refine .bind' fun t => ?_
    split
    · exact .bind (triStep_ble F w h p xy st x t _) fun x => ih (by omega) x
    · exact .refl _

omit [Scalar C] in
theorem topTrapezoid_fle (qs : List (QueryNode C)) {k n : Nat} (h : k ≤ n) (qi : Nat) :
    FLe (topTrapezoid qs k qi) (topTrapezoid qs n qi) := by
  induction k generalizing n qi with
  | zero => exact .out _
  | succ k ih =>
    obtain ⟨n, rfl⟩ : ∃ m, n = m + 1 := ⟨n - 1, by omega⟩
    unfold topTrapezoid
    refine .bind' fun q => ?_
    split
    · exact ih (by omega) _
    · exact .refl _
    · exact .refl _

theorem complete_timeout {F : FanFormat I} (s : FBS F) : (s.complete (.error .timeout)).2 = .error .timeout := by
  cases s <;> rfl

/-- A run that ended within `k` steps is not changed by a larger number of steps. -/
theorem triangulate_more [DecidableEq I] (cfg : Cfg) (p : PolyList I V) (xy : V → Coords C) (F : FanFormat I) {k n : Nat}
    (h : k ≤ n) (hk : (triangulate cfg k p xy F).2 ≠ .error .timeout) :
    triangulate cfg n p xy F = triangulate cfg k p xy F := by
  unfold triangulate at hk ⊢
  rcases trapezoidize_fle cfg p xy h with h' | h'
  · rw [h'] at hk
    exact absurd rfl hk
  · rw [h']
    rcases hr : trapezoidize cfg k p xy with e | st
    · cases e <;> rfl
    · rw [hr] at hk
      have hk : (st.triangulate k p xy F).2 ≠ .error .timeout := hk
      show st.triangulate n p xy F = st.triangulate k p xy F
      unfold St.triangulate at hk ⊢
      have hi : BLe (F := F) (triangulateInner F.winding k p xy st) (triangulateInner F.winding n p xy st) :=
        .bind (.lift (topTrapezoid_fle _ h _)) fun ti => triLoop_ble F _ h p xy st h _
      rcases hi .uninit with h' | h'
      · simp only [h'] at hk
        exact absurd (complete_timeout _) hk
      · rw [h']

end

end Tri
