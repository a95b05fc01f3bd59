import Verif.Model.WildTri
import Verif.Proof.WildRefine
import Verif.Spec.Ending

/-!
# Runs of triangulation with consistent code are runs with arbitrary code
-/

namespace Tri

variable {I V C : Type} {F : FanFormat I}

/-- The variant of a `FanBuilderState`. -/
def FBS.phase : FBS F → Phase
  | .uninit => .uninit
  | .init _ => .init
  | .error _ => .error
  | .dead _ => .dead

/-- The outcome of `x` is one of the outcomes of `X`, up to `R` on values. -/
def RefR {α β : Type} (R : α → β → Prop) (X : WildM F.E α) (x : FBM F β) : Prop :=
  ∀ s, ∃ y, X s.phase y ∧ y.1 = (x s).1.phase ∧
    match y.2, (x s).2 with
    | .ok a, .ok b => R a b
    | .error e, .error e' => e = e'
    | _, _ => False

/-- `a` is a possible result, the state unchanged. -/
def CanBe {α E : Type} (X : WildM E α) (a : α) : Prop := ∀ s, X s (s, .ok a)

theorem CanBe.pure {α E : Type} (a : α) : CanBe (Pure.pure a : WildM E α) a := fun _ => rfl

theorem CanBe.bind {α β E : Type} {X : WildM E α} {K : α → WildM E β} {a : α} {b : β} (hX : CanBe X a)
    (hK : CanBe (K a) b) : CanBe (X >>= K) b := fun s => ⟨_, hX s, hK s⟩

theorem CanBe.call {α E : Type} (up : Bool) (a : α) : CanBe (WildM.call up α : WildM E α) a := fun _ => .inl ⟨a, rfl⟩

namespace RefR

variable {α β γ δ : Type} {R : α → β → Prop} {S : γ → δ → Prop}

theorem pure {a : α} {b : β} (h : R a b) : RefR (F := F) R (Pure.pure a) (Pure.pure b) :=
  fun _ => ⟨_, rfl, rfl, h⟩

theorem bind {X : WildM F.E α} {x : FBM F β} {K : α → WildM F.E γ} {k : β → FBM F δ} (hX : RefR R X x)
    (hK : ∀ a b, R a b → RefR S (K a) (k b)) : RefR S (X >>= K) (x >>= k) := by
  intro s
  obtain ⟨⟨s', y⟩, h1, h2, h3⟩ := hX s
  have hb : (x >>= k : FBM F δ) s = match x s with
      | (s, .ok a) => k a s
      | (s, .error e) => (s, .error e) := rfl
  rw [hb]
  rcases hx : x s with ⟨t, e | b⟩
  · rw [hx] at h2 h3
    rcases y with e' | a
    · cases h3
      exact ⟨(s', .error _), ⟨_, h1, rfl⟩, h2, rfl⟩
    · exact h3.elim
  · rw [hx] at h2 h3
    rcases y with e' | a
    · exact h3.elim
    · obtain ⟨z, z1, z2, z3⟩ := hK a b h3 t
      refine ⟨z, ⟨_, h1, ?_⟩, z2, z3⟩
      have h2 : s' = t.phase := h2
      subst h2
      exact z1

theorem pre {X : WildM F.E α} {a : α} {K : α → WildM F.E γ} {k : FBM F δ} (hX : CanBe X a) (hK : RefR S (K a) k) :
    RefR S (X >>= K) k := by
  intro s
  obtain ⟨z, z1, z2, z3⟩ := hK s
  exact ⟨z, ⟨_, hX s.phase, z1⟩, z2, z3⟩

theorem lift (x : Res IErr α) : RefR (F := F) Eq (WildM.lift x) (FanM.lift x) := by
  intro s
  refine ⟨_, rfl, ?_⟩
  rcases x with e | a
  · exact ⟨rfl, rfl⟩
  · exact ⟨rfl, rfl⟩

theorem stop (e : Fault IErr) : RefR (F := F) R (WildM.stop e) (FanM.stop e) :=
  fun _ => ⟨_, rfl, rfl, rfl⟩

theorem ite {c c' : Prop} [Decidable c] [Decidable c'] {X Y : WildM F.E α} {x y : FBM F β} (hc : c ↔ c')
    (h1 : c → RefR R X x) (h2 : ¬ c → RefR R Y y) : RefR R (if c then X else Y) (if c' then x else y) := by
  by_cases h : c
  · rw [if_pos h, if_pos (hc.1 h)]
    exact h1 h
  · rw [if_neg h, if_neg fun h' => h (hc.2 h')]
    exact h2 h

theorem forM {X : α → WildM F.E Unit} {x : α → FBM F Unit} (h : ∀ a, RefR Eq (X a) (x a)) (l : List α) :
    RefR Eq (l.forM X) (l.forM x) := by
  induction l with
  | nil => exact pure rfl
  | cons a l ih => exact bind (h a) fun _ _ _ => ih

theorem newFan (hu : F.Never .ub) (ht : F.Never .timeout) (a b c : I) :
    RefR Eq (WildM.newFan true : WildM F.E Unit) (FanM.newFan a b c : FBM F Unit) := by
  intro s
  have he : (FanM.newFan a b c : FBM F Unit) s = FBS.newFan F a b c s := rfl
  rw [he]
  unfold FBS.newFan
  cases s with
  | uninit =>
    have h1 := hu.start a b c
    have h2 := ht.start a b c
    rcases h : F.start a b c with ⟨e, w⟩ | x
    · rw [h] at h1 h2
      rcases e with e | _ | _ | _
      · exact ⟨_, .inr (.inl ⟨e, rfl⟩), by simp only [h]; rfl, by simp only [h]; rfl⟩
      · exact ⟨_, .inr (.inr ⟨rfl, rfl⟩), by simp only [h]; rfl, by simp only [h]; rfl⟩
      · exact absurd rfl (h1 w)
      · exact absurd rfl (h2 w)
    · exact ⟨_, .inl rfl, by simp only [h]; rfl, by simp only [h]⟩
  | init x =>
    have h1 := hu.newFan x a b c
    have h2 := ht.newFan x a b c
    rcases h : F.newFan x a b c with ⟨w, e | u⟩
    · rw [h] at h1 h2
      rcases e with e | _ | _ | _
      · exact ⟨_, .inr (.inl ⟨e, rfl⟩), by simp only [h]; rfl, by simp only [h]; rfl⟩
      · exact ⟨_, .inr (.inr ⟨rfl, rfl⟩), by simp only [h]; rfl, by simp only [h]; rfl⟩
      · exact absurd rfl h1
      · exact absurd rfl h2
    · exact ⟨_, .inl rfl, by simp only [h]; rfl, by simp only [h]⟩
  | error x => exact ⟨_, rfl, rfl, rfl⟩
  | dead w => exact ⟨_, rfl, rfl, rfl⟩

theorem extendFan (hu : F.Never .ub) (ht : F.Never .timeout) (v : I) :
    RefR Eq (WildM.extendFan true : WildM F.E Unit) (FanM.extendFan v : FBM F Unit) := by
  intro s
  have he : (FanM.extendFan v : FBM F Unit) s = FBS.extendFan F v s := rfl
  rw [he]
  unfold FBS.extendFan
  cases s with
  | init x =>
    have h1 := hu.extendFan x v
    have h2 := ht.extendFan x v
    rcases h : F.extendFan x v with ⟨w, e | u⟩
    · rw [h] at h1 h2
      rcases e with e | _ | _ | _
      · exact ⟨_, .inr (.inl ⟨e, rfl⟩), by simp only [h]; rfl, by simp only [h]; rfl⟩
      · exact ⟨_, .inr (.inr ⟨rfl, rfl⟩), by simp only [h]; rfl, by simp only [h]; rfl⟩
      · exact absurd rfl h1
      · exact absurd rfl h2
    · exact ⟨_, .inl rfl, by simp only [h]; rfl, by simp only [h]⟩
  | uninit => exact ⟨_, rfl, rfl, rfl⟩
  | error x => exact ⟨_, rfl, rfl, rfl⟩
  | dead w => exact ⟨_, rfl, rfl, rfl⟩

end RefR

theorem FBM.lift_bind {α β : Type} (x : Res IErr α) (k : α → Res IErr β) :
    (FanM.lift (x >>= k) : FBM F β) = (FanM.lift x >>= fun a => FanM.lift (k a)) := by
  rcases x with e | a <;> rfl

theorem RefR.bindE {α β γ : Type} {R : β → γ → Prop} {X : WildM F.E α} {x : FBM F α} {K : α → WildM F.E β} {k : α → FBM F γ}
    (hX : RefR Eq X x) (hK : ∀ a, RefR R (K a) (k a)) : RefR R (X >>= K) (x >>= k) :=
  RefR.bind hX fun _ a h => h ▸ hK a

theorem RefR.of {α β : Type} {R : α → β → Prop} {X : WildM F.E α} {a : α} {b : β} (h : CanBe X a) (hR : R a b) :
    RefR (F := F) R X (Pure.pure b) := fun s => ⟨_, h s.phase, rfl, hR⟩

theorem RefR.post {α β γ : Type} {R : α → β → Prop} {S : γ → β → Prop} {X : WildM F.E α} {x : FBM F β}
    {K : α → WildM F.E γ} (hX : RefR R X x) (hK : ∀ a b, R a b → ∃ c, CanBe (K a) c ∧ S c b) :
    RefR S (X >>= K) x := by
  intro s
  obtain ⟨⟨s', y⟩, h1, h2, h3⟩ := hX s
  rcases hx : x s with ⟨t, e | b⟩
  · rw [hx] at h2 h3
    rcases y with e' | a
    · cases h3
      exact ⟨(s', .error _), ⟨_, h1, rfl⟩, h2, rfl⟩
    · exact h3.elim
  · rw [hx] at h2 h3
    rcases y with e' | a
    · exact h3.elim
    · obtain ⟨c, hc, hS⟩ := hK a b h3
      exact ⟨(s', .ok c), ⟨_, h1, hc s'⟩, h2, hS⟩

open WildM

theorem cloned_ref (x : Res IErr (I × Coords C)) :
    RefR (F := F) (fun _ _ => True) (cloned true x) (FanM.lift x) :=
  RefR.post (RefR.lift x) fun _ _ _ => ⟨(), CanBe.call true (), trivial⟩

theorem skippedPop_ref (M : Mono I C) :
    RefR (F := F) (fun M' r => M' = r.2) (skippedPop true M) (FanM.lift M.skippedPop) :=
  RefR.post (RefR.lift _) fun a b h => ⟨a.2, CanBe.bind (CanBe.call true ()) (CanBe.pure _), by rw [h]⟩

theorem deferredIndex_ref (M : Mono I C) (bt : Bool) (i : Nat) :
    RefR (F := F) (fun _ _ => True) (deferredIndex true M bt i) (FanM.lift (M.deferredIndex bt i)) :=
  RefR.post (RefR.lift _) fun _ _ _ => ⟨(), CanBe.call true (), trivial⟩

theorem addTriangle_ref (hu : F.Never .ub) (ht : F.Never .timeout) (b : Mono.Bodt) (v : I) :
    RefR (F := F) Eq (addTriangle true b) (b.addTriangle v) := by
  cases b with
  | builder => exact RefR.bind (RefR.extendFan hu ht v) fun _ _ _ => RefR.pure rfl
  | deferred dt => exact RefR.pure rfl

theorem extendDeferred_ref (hu : F.Never .ub) (ht : F.Never .timeout) (M : Mono I C) (bt : Bool) (n i : Nat) :
    RefR (F := F) Eq (extendDeferred true M bt i n) (Mono.extendDeferred M bt i n) := by
  induction n generalizing i with
  | zero => exact RefR.pure rfl
  | succ n ih =>
    unfold extendDeferred Mono.extendDeferred
    exact RefR.bind (deferredIndex_ref M bt i) fun _ v _ => RefR.bind (RefR.extendFan hu ht v) fun _ _ _ => ih _

theorem startFan_ref (hu : F.Never .ub) (ht : F.Never .timeout) (w : Winding) (lc bt : Bool) (a b c : I) :
    RefR (F := F) Eq (startFan true w lc bt) (Mono.startFan w lc bt a b c) := by
  unfold startFan Mono.startFan
  exact RefR.ite .rfl (fun _ => RefR.bind (RefR.newFan hu ht _ _ _) fun _ _ _ => RefR.pure rfl) fun _ => RefR.pure rfl

theorem finishFan_ref (hu : F.Never .ub) (ht : F.Never .timeout) (bt : Bool) (M : Mono I C) (b : Mono.Bodt) :
    RefR (F := F) Eq (finishFan true bt M b) (Mono.finishFan bt M b) := by
  cases b with
  | builder => exact RefR.pure rfl
  | deferred dt =>
    unfold finishFan Mono.finishFan emitDeferred Mono.emitDeferred
    refine RefR.bind (RefR.lift _) fun a b _ => RefR.pre (CanBe.call true ()) ?_
    refine RefR.bind (deferredIndex_ref M bt 0) fun _ v _ => RefR.bind (RefR.newFan hu ht _ _ _) fun _ _ _ => ?_
    exact extendDeferred_ref hu ht M bt _ _

section
variable [Scalar C]

theorem canTriangulate_ref (M : Mono I C) :
    RefR (F := F) Eq (canTriangulate true M) (FanM.lift M.canTriangulate) := by
  unfold canTriangulate Mono.canTriangulate
  by_cases h : 2 ≤ M.skippedTop ∧ M.hasPending = true
  · rw [if_pos h, if_pos h, FBM.lift_bind]
    refine RefR.bind (cloned_ref _) fun _ v _ => ?_
    rw [FBM.lift_bind]
    refine RefR.bind (RefR.lift _) fun _ c _ => RefR.pre (CanBe.call true ()) ?_
    exact RefR.of (CanBe.call true (M.isLeftChain == isLeftOfLine v.2 c.1.2 c.2.2)) rfl
  · rw [if_neg h, if_neg h]
    exact RefR.pure rfl

theorem backLoop_ref (hu : F.Never .ub) (ht : F.Never .timeout) (fuel : Nat) (M : Mono I C) (b : Mono.Bodt) :
    RefR (F := F) Eq (backLoop true fuel M b) (Mono.backLoop fuel M b) := by
  induction fuel generalizing M b with
  | zero => exact RefR.stop _
  | succ k ih =>
    unfold backLoop Mono.backLoop
    refine RefR.bindE (canTriangulate_ref M) fun go => RefR.ite .rfl (fun _ => ?_) fun _ => RefR.pure rfl
    refine RefR.bind (skippedPop_ref M) fun _ r h => h ▸ RefR.bind (cloned_ref _) fun _ v _ => ?_
    exact RefR.bind (addTriangle_ref hu ht b _) fun _ b' h => h ▸ ih _ _

theorem advLoop_ref (hu : F.Never .ub) (ht : F.Never .timeout) (fuel : Nat) (M : Mono I C) (b : Mono.Bodt) :
    RefR (F := F) Eq (advLoop true fuel M b) (Mono.advLoop fuel M b) := by
  induction fuel generalizing M b with
  | zero => exact RefR.stop _
  | succ k ih =>
    unfold advLoop Mono.advLoop
    refine RefR.bindE (canTriangulate_ref M) fun go => RefR.ite .rfl (fun _ => ?_) fun _ => RefR.pure rfl
    refine RefR.bind (skippedPop_ref M) fun _ r h => h ▸ RefR.bind (cloned_ref _) fun _ v _ => ?_
    refine RefR.bind (addTriangle_ref hu ht b _) fun _ b' h => h ▸ ?_
    exact RefR.bind (RefR.lift _) fun _ M' h => h ▸ ih _ _

theorem growFan_ref (hu : F.Never .ub) (ht : F.Never .timeout) (bt : Bool) (M : Mono I C) (b : Mono.Bodt) :
    RefR (F := F) Eq (growFan true bt M b) (Mono.growFan bt M b) := by
  unfold growFan Mono.growFan
  refine RefR.ite .rfl (fun _ => ?_) fun _ => ?_
  · refine RefR.bind (skippedPop_ref M) fun _ r h => h ▸ RefR.bind (cloned_ref _) fun _ v _ => ?_
    exact RefR.bind (addTriangle_ref hu ht b _) fun _ b' h => h ▸ backLoop_ref hu ht _ _ _
  · exact RefR.bind (RefR.lift _) fun _ M' h => h ▸ advLoop_ref hu ht _ _ _

theorem fanStep_ref (hu : F.Never .ub) (ht : F.Never .timeout) (w : Winding) (M : Mono I C) :
    RefR (F := F) Eq (fanStep true w M) (Mono.fanStep w M) := by
  unfold fanStep Mono.fanStep
  refine RefR.bind (skippedPop_ref M) fun _ r h => h ▸ RefR.bind (cloned_ref _) fun _ v0 _ => ?_
  refine RefR.bind (cloned_ref _) fun _ v2 _ => RefR.bindE (canTriangulate_ref _) fun bt => ?_
  refine RefR.bindE (startFan_ref hu ht w _ _ _ _ _) fun bodt => ?_
  refine RefR.bindE (growFan_ref hu ht _ _ _) fun x => ?_
  exact RefR.bind (finishFan_ref hu ht _ _ _) fun _ _ _ => RefR.pure rfl

theorem buildFans_ref (hu : F.Never .ub) (ht : F.Never .timeout) (w : Winding) (fuel : Nat) (M : Mono I C) :
    RefR (F := F) Eq (buildFans true w fuel M) (Mono.buildFans w fuel M) := by
  induction fuel generalizing M with
  | zero => exact RefR.stop _
  | succ k ih =>
    unfold buildFans Mono.buildFans
    refine RefR.bindE (RefR.lift _) fun r => RefR.ite .rfl (fun _ => ?_) fun _ =>
      RefR.ite .rfl (fun _ => RefR.pure rfl) fun _ => RefR.stop _
    refine RefR.bind (R := Eq) ?_ fun _ M' h => h ▸ RefR.bind (RefR.lift _) fun _ M'' h => h ▸ ih _
    unfold maybeFan Mono.maybeFan
    exact RefR.bindE (canTriangulate_ref M) fun go => RefR.ite .rfl (fun _ => fanStep_ref hu ht w M) fun _ =>
      RefR.pure rfl

theorem finishMonotone_ref (hu : F.Never .ub) (ht : F.Never .timeout) (w : Winding) (fuel : Nat) (b : MonoB I C) :
    RefR (F := F) Eq (WildM.finishMonotone true w fuel b) (Tri.finishMonotone w fuel b) := by
  unfold WildM.finishMonotone Tri.finishMonotone
  refine RefR.bindE ?_ fun M => ?_
  · unfold build MonoB.build
    rcases b.rest with _ | ⟨v1, _ | ⟨v2, tl⟩⟩
    · exact RefR.stop _
    · exact RefR.stop _
    · dsimp only
      split
      · exact RefR.of (CanBe.bind (CanBe.call true _) (CanBe.pure _)) rfl
      · exact RefR.pure rfl
  · cases M with
    | none => exact RefR.pure rfl
    | some M => exact buildFans_ref hu ht w fuel M

theorem addVertex_can (b : MonoB I C) (vi : I) (c : Coords C) {E : Type} :
    CanBe (addVertex true b c : WildM E (MonoB I C)) (b.addVertex vi c) := by
  unfold addVertex
  refine CanBe.bind (CanBe.call true vi) (CanBe.bind (CanBe.call true (!Scalar.eq c.x b.first.2.x)) (CanBe.bind
    (CanBe.call true (!Scalar.eq c.y b.first.2.y)) ?_))
  have : b.addVertex vi c = ⟨b.first, b.rest ++ [(vi, c)], if b.diffX then true else !Scalar.eq c.x b.first.2.x,
      if b.diffY then true else !Scalar.eq c.y b.first.2.y⟩ := by
    unfold MonoB.addVertex
    cases b.diffX <;> cases b.diffY <;> cases Scalar.eq c.x b.first.2.x <;> cases Scalar.eq c.y b.first.2.y <;> rfl
  rw [this]
  exact CanBe.pure _

theorem newMonotone_can (n : I) (c : Coords C) (nDown : Nexus I C) {E : Type} :
    CanBe (newMonotone true c nDown : WildM E (MonoB I C)) ((MonoB.new n c).addVertex nDown.vi nDown.c) :=
  CanBe.bind (CanBe.call true n) (addVertex_can _ _ _)

theorem addToAll_can (ms : Ot (MonoB I C)) (vi : I) (c : Coords C) {E : Type} :
    CanBe (WildM.addToAll true ms c : WildM E (Ot (MonoB I C))) (Tri.addToAll ms vi c) := by
  cases ms with
  | one a => exact CanBe.bind (addVertex_can a vi c) (CanBe.pure _)
  | two a b => exact CanBe.bind (addVertex_can a vi c) (CanBe.bind (addVertex_can b vi c) (CanBe.pure _))

theorem restartMonotone_ref (p : PolyList I V) (xy : V → Coords C) (st : St I C) (u : Nat) (nDown : Nexus I C)
    (o : Option (Ot (MonoB I C))) :
    RefR (F := F) Eq (WildM.restartMonotone true st u nDown o) (FanM.lift (Tri.restartMonotone p xy st u nDown o)) := by
  cases o with
  | some ms => exact RefR.pure rfl
  | none =>
    unfold WildM.restartMonotone Tri.restartMonotone
    dsimp only
    rw [FBM.lift_bind]
    refine RefR.bind (RefR.lift _) fun _ n _ => ?_
    cases hc : (p.coords xy n.vi : Res IErr _) with
    | error e =>
      have : e = .panic := by
        unfold PolyList.coords at hc
        split at hc <;> cases hc
        rfl
      subst this
      exact fun s => ⟨(s.phase, .error .panic), ⟨_, .inr ⟨rfl, rfl⟩, rfl⟩, rfl, rfl⟩
    | ok c =>
      exact RefR.pre (CanBe.call true c) (RefR.pre (newMonotone_can n.vi c nDown) (RefR.pure rfl))

theorem advanceMonotones_ref (hu : F.Never .ub) (ht : F.Never .timeout) (w : Winding) (fuel : Nat) (p : PolyList I V)
    (xy : V → Coords C) (st : St I C) (t : Trapezoid) (d : Nat) (nDown : Nexus I C) (ms : Ot (MonoB I C)) :
    RefR (F := F) Eq (WildM.advanceMonotones true w fuel st t d nDown ms)
      (Tri.advanceMonotones w fuel p xy st t d nDown ms) := by
  unfold WildM.advanceMonotones Tri.advanceMonotones
  refine RefR.pre (addToAll_can ms nDown.vi nDown.c) ?_
  refine RefR.bindE (RefR.lift _) fun sl => RefR.bindE (RefR.lift _) fun sr => ?_
  refine RefR.bindE (RefR.lift _) fun u => ?_
  rcases splitCompleted (Tri.addToAll ms nDown.vi nDown.c) d u sl sr with ⟨_ | done, o⟩
  · exact RefR.pure rfl
  · exact RefR.bind (finishMonotone_ref hu ht w fuel done) fun _ _ _ => restartMonotone_ref p xy st u nDown o

theorem updateMonotones_ref (hu : F.Never .ub) (ht : F.Never .timeout) (w : Winding) (fuel : Nat) (p : PolyList I V)
    (xy : V → Coords C) (st : St I C) (x : TI I C) (t : Trapezoid) (d : Nat) (nDown : Nexus I C) :
    RefR (F := F) Eq (WildM.updateMonotones true w fuel st x t d nDown)
      (Tri.updateMonotones w fuel p xy st x t d nDown) := by
  unfold WildM.updateMonotones Tri.updateMonotones
  cases x.monotones with
  | none => exact RefR.pure rfl
  | some ms => exact RefR.bindE (advanceMonotones_ref hu ht w fuel p xy st t d nDown ms) fun _ => RefR.pure rfl

theorem descend_ref (hu : F.Never .ub) (ht : F.Never .timeout) (w : Winding) (fuel : Nat)
    (st : St I C) (x : TI I C) (t : Trapezoid) (nDown : Nexus I C) (ft : FinalType) :
    RefR (F := F) Eq (WildM.descend true w fuel st x t nDown ft) (Tri.descend w fuel st x t nDown ft) := by
  cases ft with
  | V a b c d =>
    refine RefR.bindE ?_ fun y => RefR.lift _
    unfold WildM.joinV Tri.joinV
    cases hm : x.monotones with
    | none => exact RefR.pure rfl
    | some ms =>
      refine RefR.ite .rfl (fun _ => ?_) fun _ => RefR.ite .rfl (fun _ => ?_) fun _ =>
        RefR.ite .rfl (fun _ => ?_) fun _ => RefR.stop _
      · exact RefR.bindE (RefR.lift _) fun _ => RefR.pure rfl
      · exact RefR.bind (RefR.forM (finishMonotone_ref hu ht w fuel) _) fun _ _ _ => RefR.pure rfl
      · cases x.monotoneStack with
        | nil => exact RefR.stop _
        | cons l rest => exact RefR.bindE (RefR.lift _) fun _ => RefR.pure rfl
  | I a b c d =>
    exact RefR.ite .rfl (fun _ => RefR.pure rfl) fun _ => RefR.ite .rfl (fun _ => RefR.pure rfl) fun _ => RefR.stop _
  | A a b c d =>
    unfold WildM.descend Tri.descend WildM.descendA Tri.descendA
    dsimp only
    cases x.monotones with
    | none => exact RefR.of (CanBe.bind (CanBe.call true nDown.vi) (CanBe.pure _)) rfl
    | some ms =>
      refine RefR.bindE ?_ fun r => RefR.pure rfl
      unfold WildM.splitMonotones Tri.splitMonotones
      cases ms with
      | two a b => exact RefR.pure rfl
      | one mo =>
        dsimp only
        rw [FBM.lift_bind]
        refine RefR.bindE (RefR.lift _) fun u => ?_
        rw [FBM.lift_bind]
        refine RefR.bindE (RefR.lift _) fun n => RefR.pre (newMonotone_can n.vi n.c nDown) ?_
        rw [FBM.lift_bind]
        refine RefR.bindE (RefR.lift _) fun sl => ?_
        by_cases h : u = sl.niMax
        · rw [if_pos h, if_pos h]
          exact RefR.pure rfl
        · rw [if_neg h, if_neg h, FBM.lift_bind]
          refine RefR.bindE (RefR.lift _) fun sr => ?_
          by_cases h : u = sr.niMax
          · rw [if_pos h, if_pos h]
            exact RefR.pure rfl
          · rw [if_neg h, if_neg h]
            exact RefR.stop _

theorem triLoop_ref (hu : F.Never .ub) (ht : F.Never .timeout) (w : Winding) (fuel : Nat) (p : PolyList I V)
    (xy : V → Coords C) (st : St I C) (k : Nat) (x : TI I C) :
    RefR (F := F) Eq (WildM.triLoop true w fuel st k x) (Tri.triLoop w fuel p xy st k x) := by
  induction k generalizing x with
  | zero => exact RefR.stop _
  | succ k ih =>
    unfold WildM.triLoop Tri.triLoop
    refine RefR.bindE (RefR.lift _) fun t => ?_
    cases t.down with
    | none =>
      exact RefR.ite .rfl (fun _ => RefR.stop _) fun _ => RefR.ite .rfl (fun _ => RefR.stop _) fun _ =>
        RefR.ite .rfl (fun _ => RefR.stop _) fun _ => RefR.pure rfl
    | some d =>
      refine RefR.bind (R := Eq) ?_ fun _ x' h => h ▸ ih x'
      unfold WildM.triStep Tri.triStep
      refine RefR.bindE (RefR.lift _) fun n => ?_
      refine RefR.bindE (updateMonotones_ref hu ht w fuel p xy st x t d n) fun x' => ?_
      exact RefR.bindE (RefR.lift _) fun ft => descend_ref hu ht w fuel st x' t n ft

/-- Every run of triangulation with consistent answers, and with a format that ends and has no undefined behaviour of
its own, is a run of the model in which every answer is arbitrary. -/
theorem stTriangulate_mem (hu : F.Never .ub) (ht : F.Never .timeout) (fuel : Nat) (p : PolyList I V)
    (xy : V → Coords C) (st : St I C) :
    Wild.stTriangulate true F.winding fuel st (st.triangulate fuel p xy F).2 := by
  have h : RefR (F := F) Eq (WildM.triangulateInner true F.winding fuel st)
      (Tri.triangulateInner F.winding fuel p xy st) := by
    unfold WildM.triangulateInner Tri.triangulateInner
    exact RefR.bindE (RefR.lift _) fun ti => triLoop_ref hu ht F.winding fuel p xy st fuel _
  obtain ⟨⟨s, y⟩, h1, h2, h3⟩ := h .uninit
  refine ⟨_, h1, ?_⟩
  unfold St.triangulate
  rcases hr : Tri.triangulateInner (m := FBM F) F.winding fuel p xy st .uninit with ⟨t, x⟩
  rw [hr] at h2 h3
  have hxy : y = x := by
    rcases y with e | ⟨⟩ <;> rcases x with e' | ⟨⟩ <;> first | exact h3.elim | exact congrArg _ h3
  subst hxy
  have h2 : s = t.phase := h2
  subst h2
  dsimp only
  rcases y with (e | _ | _ | _) | ⟨⟩
  · cases t with
    | uninit => exact rfl
    | init b => exact .inl rfl
    | error b => exact .inl rfl
    | dead w => exact rfl
  · cases t <;> exact rfl
  · cases t <;> exact rfl
  · cases t <;> exact rfl
  · cases t with
    | uninit => exact rfl
    | init b =>
      have h1 := hu.build b
      have h2 := ht.build b
      unfold FBS.complete
      rcases hb : F.build b with ⟨w, e | o⟩
      · rw [hb] at h1 h2
        rcases e with e | _ | _ | _
        · exact .inr (.inl ⟨e, by simp only [hb]; rfl⟩)
        · exact .inr (.inr ⟨rfl, by simp only [hb]; rfl⟩)
        · exact absurd rfl h1
        · exact absurd rfl h2
      · exact .inl ⟨o, by simp only [hb]⟩
    | error b => exact rfl
    | dead w => exact rfl

end

end Tri
