import Verif.Proof.Visit
import Verif.Proof.Logged
import Verif.Proof.Mountain
import Verif.Proof.Paired
import Verif.Proof.Locate

/-!
# From the finished chains to the triangles
-/

set_option linter.unusedSectionVars false

namespace Tri

variable {I V K : Type} [Field K] [LinearOrder K] [IsStrictOrderedRing K]

attribute [local instance] exact

/-! ## One chain -/

theorem Ears.mem {α : Type} {ok : α → α → α → Prop} {R : α → α → Prop} {L L' : List α} {T : List (α × α × α)}
    (h : Ears ok L T L') (hR : L.Pairwise R) :
    ∀ t ∈ T, R t.1 t.2.1 ∧ R t.2.1 t.2.2 ∧ ok t.1 t.2.1 t.2.2 ∧ t.1 ∈ L ∧ t.2.1 ∈ L ∧ t.2.2 ∈ L := by
  induction h with
  | nil L => simp
  | cons X a b c Y T L' h1 h3 ih =>
    have hsub : (X ++ a :: c :: Y).Sublist (X ++ a :: b :: c :: Y) :=
      (List.Sublist.refl X).append ((List.sublist_cons_self b _).cons_cons a)
    intro t ht
    rcases List.mem_cons.1 ht with rfl | ht
    · have h2 := (List.pairwise_append.1 hR).2.1
      rw [List.pairwise_cons, List.pairwise_cons] at h2
      exact ⟨h2.1 b (by simp), h2.2.1 c (by simp), h1, by simp, by simp, by simp⟩
    · obtain ⟨k1, k2, k3, k4, k5, k6⟩ := ih (hR.sublist hsub) t ht
      exact ⟨k1, k2, k3, hsub.subset k4, hsub.subset k5, hsub.subset k6⟩

/-- The fan handed over for a record, with winding `w`. -/
def fanR (w : Winding) (f : Bool × FanRec (I × Coords K)) : List (I × Coords K) :=
  fanOf w f.1 f.2.bt f.2.root f.2.outer

/-- The triangles of the fans handed to a counterclockwise format. -/
def trisR (fs : List (Bool × FanRec (I × Coords K))) : List ((I × Coords K) × (I × Coords K) × (I × Coords K)) :=
  (fs.map (fanR .counterclockwise)).flatMap fanTriangles

/-- The calls made for the fans. -/
def callsR (w : Winding) (fs : List (Bool × FanRec (I × Coords K))) : List (Call I) :=
  (fs.map fun f => (fanR w f).map Prod.fst).flatMap fanCalls

theorem trisR_append (a b : List (Bool × FanRec (I × Coords K))) : trisR (a ++ b) = trisR a ++ trisR b := by
  simp [trisR]

theorem callsR_append (w : Winding) (a b : List (Bool × FanRec (I × Coords K))) :
    callsR w (a ++ b) = callsR w a ++ callsR w b := by
  simp [callsR]

/-- The signed area of a triangle. -/
def orientT (t : (I × Coords K) × (I × Coords K) × (I × Coords K)) : K := orient t.1.2 t.2.1.2 t.2.2.2

theorem orientT_rot {t t' : (I × Coords K) × (I × Coords K) × (I × Coords K)} (h : Rot t t') : orientT t' = orientT t := by
  rcases h with rfl | rfl | rfl <;> simp only [orientT, orient] <;> ring

/-- The sense in which a triangle without area runs: up, or to the left on a horizontal line. -/
def FlatTri (a b c : Coords K) : Prop := if a.y = c.y then below c b ∧ below b a else below a b ∧ below b c

/-- An ear without area. -/
theorem earOk_flat {left : Bool} {a b c : I × Coords K} (h1 : below c.2 b.2) (h2 : below b.2 a.2) (h : earOk left a b c)
    (h0 : orient a.2 b.2 c.2 = 0) :
    FlatTri (earTri left (a, b, c)).1.2 (earTri left (a, b, c)).2.1.2 (earTri left (a, b, c)).2.2.2 := by
  unfold earOk at h
  have hac : c.2.y ≤ a.2.y := by
    rcases below_trans h1 h2 with h | ⟨h, -⟩
    · exact h.le
    · exact h.le
  have hcb : c.2.y ≤ b.2.y := by
    rcases h1 with h | ⟨h, -⟩
    · exact h.le
    · exact h.le
  have hba : b.2.y ≤ a.2.y := by
    rcases h2 with h | ⟨h, -⟩
    · exact h.le
    · exact h.le
  by_cases hy : a.2.y = c.2.y
  · have hb : b.2.y = a.2.y := by linarith
    have hx : b.2.x < a.2.x := by
      rcases h2 with h | ⟨-, h⟩
      · exact absurd hb h.ne
      · exact h
    have : isLeftOfLine c.2 a.2 b.2 = true := by rw [isLeft_unfold, if_pos hb]; exact hx
    rw [this] at h; subst h
    simp only [earTri, FlatTri, if_true]
    rw [if_pos hy]
    exact ⟨h1, h2⟩
  · have : ¬ isLeftOfLine c.2 a.2 b.2 = true := by
      rw [isLeft_unfold]
      unfold orient at h0
      have hp : 0 < a.2.y - c.2.y := by
        rcases hac.lt_or_eq with h | h
        · linarith
        · exact absurd h.symm hy
      split
      · rename_i e
        rw [e] at h0
        intro hx
        have : (b.2.x - a.2.x) * (c.2.y - a.2.y) = 0 := by nlinarith
        rcases mul_eq_zero.1 this with k | k <;> linarith
      · split
        · rename_i e
          rw [e] at h0
          intro hx
          have : (c.2.y - a.2.y) * (b.2.x - c.2.x) = 0 := by nlinarith
          rcases mul_eq_zero.1 this with k | k <;> linarith
        · intro hx; nlinarith
    rw [Bool.not_eq_true] at this
    rw [this] at h; subst h
    simp only [earTri, FlatTri, Bool.false_eq_true, if_false]
    rw [if_neg (Ne.symm hy)]
    exact ⟨h1, h2⟩

/-- What is known about the fans made from one or more chains. -/
structure Emit (fs : List (Bool × FanRec (I × Coords K))) (vs : List (I × Coords K)) (n : Nat) : Prop where
  two : ∀ f ∈ fs, 2 ≤ f.2.outer.length
  pos : ∀ t ∈ trisR fs, 0 ≤ orientT t
  mem : ∀ t ∈ trisR fs, t.1 ∈ vs ∧ t.2.1 ∈ vs ∧ t.2.2 ∈ vs
  dist : ∀ t ∈ trisR fs, t.1.2 ≠ t.2.1.2 ∧ t.2.1.2 ≠ t.2.2.2 ∧ t.2.2.2 ≠ t.1.2
  flat : ∀ t ∈ trisR fs, orientT t = 0 → ∃ t', Rot t' t ∧ FlatTri t'.1.2 t'.2.1.2 t'.2.2.2
  len : (trisR fs).length = n

theorem forall₂_mem {α β : Type} {R : α → β → Prop} {l : List α} {l' : List β} (h : List.Forall₂ R l l') {b : β}
    (hb : b ∈ l') : ∃ a ∈ l, R a b := by
  induction h with
  | nil => cases hb
  | cons h1 h2 ih =>
    rcases List.mem_cons.1 hb with rfl | hb
    · exact ⟨_, by simp, h1⟩
    · obtain ⟨a, ha, hr⟩ := ih hb
      exact ⟨a, by simp [ha], hr⟩

/-- A chain that is a mountain is turned into triangles whose sides sum up to the closed chain. -/
theorem mountain_emit (left : Bool) (x y : I × Coords K) (inner : List (I × Coords K))
    (hm : Mountain left x.2 (inner.map Prod.snd) y.2) (hi : inner ≠ []) :
    ∃ fs, (∀ w, ∀ fuel, (inner.length + 2) ^ 2 + (inner.length + 2) ≤ fuel →
        finishMonotone (m := TrM I) w fuel ⟨x, inner ++ [y], true, true⟩ = ⟨callsR w fs, .ok ()⟩) ∧
      Emit fs (x :: inner ++ [y]) inner.length ∧
      ∀ (G : Type) [AddCommGroup G] (f : I × Coords K → I × Coords K → G), (∀ a b, f a b = - f b a) →
        ((trisR fs).map (tsum f)).sum =
          if left then esum f (cycleEdges (x :: inner ++ [y])) else - esum f (cycleEdges (x :: inner ++ [y])) := by
  have hb : ∃ M, (MonoB.mk x (inner ++ [y]) true true).build = .ok (some M) := by
    obtain ⟨a, l, rfl⟩ := List.exists_cons_of_ne_nil hi
    rcases l with _ | ⟨b, l⟩
    · exact ⟨_, rfl⟩
    · exact ⟨_, rfl⟩
  obtain ⟨M, hb⟩ := hb
  obtain ⟨hl, v1, v2, tl, hr, hR⟩ := mountain_build left x y inner hm true true M hb
  have hL : MountainL left ([v1, x].reverse ++ (v2 :: tl)) := ⟨x, inner, y, by simp [hr], hm⟩
  have hlen : inner.length + 1 = tl.length + 2 := by
    have := congrArg List.length hr; simpa using this
  have hend : ∀ w, ∀ fuel, (inner.length + 2) ^ 2 + (inner.length + 2) ≤ fuel →
      (Mono.buildFans (m := TrM I) w fuel M).res = .ok () := by
    intro w fuel hf
    refine buildFans_ends w left MountainL.remove MountainL.hasEar fuel M _ _ _ hR (by simp) hl hL
      (.inl ⟨?_, ?_⟩)
    · intro X a b c Y e
      have := congrArg List.length e
      simp at this; omega
    · have e : [v1, x].length + (v2 :: tl).length = inner.length + 2 := by simp; omega
      rw [e, ← Nat.pow_two]
      simp only [List.length_cons]; omega
  have hsame : ∀ w, ∀ fuel, (inner.length + 2) ^ 2 + (inner.length + 2) ≤ fuel →
      Mono.buildFans (m := TrM I) w fuel M =
        Mono.buildFans (m := TrM I) w ((inner.length + 2) ^ 2 + (inner.length + 2)) M := by
    intro w fuel hf
    exact buildFans_mono w _ fuel hf M (by rw [hend w _ (Nat.le_refl _)]; simp)
  obtain ⟨fs, L', h1, h2, h3, h4⟩ := chain_run _ M hb ((inner.length + 2) ^ 2 + (inner.length + 2))
  have h5 : L'.length = 2 := by
    rcases h4 with h4 | h4
    · have := h4 .counterclockwise
      rw [hend _ _ (Nat.le_refl _)] at this; cases this
    · exact h4.2
  rw [hl] at h2 h3
  obtain ⟨T, hp, hrot⟩ := fans_perm left fs h1
  have htr : trisR (fs.map fun f => (left, f)) =
      (fs.map fun f => fanOf .counterclockwise left f.bt f.root f.outer).flatMap fanTriangles := by
    unfold trisR; rw [List.map_map]; rfl
  have hdown : (x :: (inner ++ [y])).Pairwise fun a b => below b.2 a.2 := by
    have := hm.down
    have e : x.2 :: inner.map Prod.snd ++ [y.2] = (x :: (inner ++ [y])).map Prod.snd := by simp
    rw [e, List.pairwise_map] at this
    exact this
  have hmem := h3.mem hdown
  have hT : ∀ t ∈ trisR (fs.map fun f => (left, f)), ∃ e ∈ fs.flatMap (fun f => earsOf f.bt f.root f.outer),
      Rot (earTri left e) t := by
    intro t ht
    rw [htr] at ht
    obtain ⟨e, he, hr⟩ := forall₂_mem hrot (hp.mem_iff.1 ht)
    obtain ⟨e', he', rfl⟩ := List.mem_map.1 he
    exact ⟨e', he', hr⟩
  refine ⟨fs.map fun f => (left, f), ?_, ⟨?_, ?_, ?_, ?_, ?_, ?_⟩, ?_⟩
  · intro w fuel hf
    have e1 : callsR w (fs.map fun f => (left, f)) =
        (fs.map fun f => (fanOf w left f.bt f.root f.outer).map Prod.fst).flatMap fanCalls := by
      unfold callsR; rw [List.map_map]; rfl
    rw [e1]
    unfold finishMonotone
    rw [hb, TrM.lift_ok]
    show Mono.buildFans (m := TrM I) w fuel M = _
    have hr := hend w _ hf
    rw [hsame w _ hf] at hr ⊢
    have h2 := h2 w
    rcases hT : Mono.buildFans (m := TrM I) w ((inner.length + 2) ^ 2 + (inner.length + 2)) M with ⟨cs, r'⟩
    rw [hT] at hr h2
    simp only at hr h2
    rw [hr, h2]
  · intro f hf
    obtain ⟨g, hg, rfl⟩ := List.mem_map.1 hf
    exact h1 g hg
  · intro t ht
    obtain ⟨e, he, hr⟩ := hT t ht
    obtain ⟨k1, k2, k3, -⟩ := hmem e he
    rw [orientT_rot hr]
    have := earOk_orient k2 k1 k3
    cases left
    · simp only [Bool.false_eq_true, if_false] at this
      have e2 : orientT (earTri false e) = - orient e.1.2 e.2.1.2 e.2.2.2 := by
        simp only [orientT, earTri, orient, Bool.false_eq_true, if_false]; ring
      rw [e2]; linarith
    · simpa [orientT, earTri] using this
  · intro t ht
    obtain ⟨e, he, hr⟩ := hT t ht
    obtain ⟨-, -, -, k4, k5, k6⟩ := hmem e he
    cases left <;> rcases hr with rfl | rfl | rfl <;>
      simp only [earTri, Bool.false_eq_true, if_false, if_true, List.cons_append] <;> simp_all
  · intro t ht
    obtain ⟨e, he, hr⟩ := hT t ht
    obtain ⟨k1, k2, -⟩ := hmem e he
    have k3 := below_trans k2 k1
    have hne : ∀ {a b : Coords K}, below a b → a ≠ b ∧ b ≠ a := fun h =>
      ⟨fun e => below_irrefl _ (e ▸ h), fun e => below_irrefl _ (e ▸ h)⟩
    have n1 := hne k1
    have n2 := hne k2
    have n3 := hne k3
    cases left <;> rcases hr with rfl | rfl | rfl <;>
      exact ⟨by first | exact n1.1 | exact n1.2 | exact n2.1 | exact n2.2 | exact n3.1 | exact n3.2,
        by first | exact n1.1 | exact n1.2 | exact n2.1 | exact n2.2 | exact n3.1 | exact n3.2,
        by first | exact n1.1 | exact n1.2 | exact n2.1 | exact n2.2 | exact n3.1 | exact n3.2⟩
  · intro t ht h0
    obtain ⟨e, he, hr⟩ := hT t ht
    obtain ⟨k1, k2, k3, -⟩ := hmem e he
    refine ⟨earTri left e, hr, earOk_flat k2 k1 k3 ?_⟩
    rw [orientT_rot hr] at h0
    cases left
    · have e2 : orientT (earTri false e) = - orient e.1.2 e.2.1.2 e.2.2.2 := by
        simp only [orientT, earTri, orient, Bool.false_eq_true, if_false]; ring
      rw [e2] at h0; linarith
    · exact h0
  · rw [htr, hp.length_eq, ← hrot.length_eq, List.length_map]
    have := h3.length
    simp only [List.length_cons, List.length_append, List.length_nil] at this
    omega
  · intro G _ f hf
    have hs := h3.esum (f := f) hf h5
    have e1 : x :: inner ++ [y] = x :: (inner ++ [y]) := rfl
    rw [e1, hs, ← sum_earTri hf, ← sum_rot _ hrot, htr]
    exact (hp.map _).sum_eq

/-! ## All chains -/

variable {P : Plane K} {p : PolyList I V} {xy : V → Coords K} {A : Abs K} {st : St I K} {key : Nat → I × Coords K}
  {lab sgn : Nat → Bool}

theorem chn_first (f : Nat) (ns : List Nat) : (chn key f ns).first = key f := by
  induction ns using List.reverseRecOn with
  | nil => rfl
  | append_singleton ns d ih => rw [chn_snoc]; exact ih

theorem chn_rest (f : Nat) (ns : List Nat) : (chn key f ns).rest = ns.map key := by
  induction ns using List.reverseRecOn with
  | nil => rfl
  | append_singleton ns d ih =>
    rw [chn_snoc, List.map_append, ← ih]; rfl

theorem chn_diffX (f : Nat) (ns : List Nat) : (chn key f ns).diffX = true ↔ ∃ n ∈ ns, (key n).2.x ≠ (key f).2.x := by
  induction ns using List.reverseRecOn with
  | nil => simp [chn, MonoB.new]
  | append_singleton ns d ih =>
    have e : (chn key f (ns ++ [d])).diffX =
        if !(chn key f ns).diffX && !Scalar.eq (key d).2.x (chn key f ns).first.2.x then true else (chn key f ns).diffX := by
      rw [chn_snoc]; rfl
    rw [e, chn_first]
    have e2 : Scalar.eq (key d).2.x (key f).2.x = decide ((key d).2.x = (key f).2.x) := rfl
    rw [e2]
    constructor
    · intro h
      cases hb : (chn key f ns).diffX
      · rw [hb] at h
        have : (key d).2.x ≠ (key f).2.x := by
          intro he; simp [he] at h
        exact ⟨d, by simp, this⟩
      · obtain ⟨n, hn, h'⟩ := ih.1 hb
        exact ⟨n, by simp [hn], h'⟩
    · rintro ⟨n, hn, h⟩
      cases hb : (chn key f ns).diffX
      · have hnd : n = d := by
          rcases List.mem_append.1 hn with hn | hn
          · have := ih.2 ⟨n, hn, h⟩
            rw [hb] at this; cases this
          · simpa using hn
        subst hnd
        simp [h]
      · simp

theorem chn_diffY (f : Nat) (ns : List Nat) : (chn key f ns).diffY = true ↔ ∃ n ∈ ns, (key n).2.y ≠ (key f).2.y := by
  induction ns using List.reverseRecOn with
  | nil => simp [chn, MonoB.new]
  | append_singleton ns d ih =>
    have e : (chn key f (ns ++ [d])).diffY =
        if !(chn key f ns).diffY && !Scalar.eq (key d).2.y (chn key f ns).first.2.y then true else (chn key f ns).diffY := by
      rw [chn_snoc]; rfl
    rw [e, chn_first]
    have e2 : Scalar.eq (key d).2.y (key f).2.y = decide ((key d).2.y = (key f).2.y) := rfl
    rw [e2]
    constructor
    · intro h
      cases hb : (chn key f ns).diffY
      · rw [hb] at h
        have : (key d).2.y ≠ (key f).2.y := by
          intro he; simp [he] at h
        exact ⟨d, by simp, this⟩
      · obtain ⟨n, hn, h'⟩ := ih.1 hb
        exact ⟨n, by simp [hn], h'⟩
    · rintro ⟨n, hn, h⟩
      cases hb : (chn key f ns).diffY
      · have hnd : n = d := by
          rcases List.mem_append.1 hn with hn | hn
          · have := ih.2 ⟨n, hn, h⟩
            rw [hb] at this; cases this
          · simpa using hn
        subst hnd
        simp [h]
      · simp

/-- A finished chain is a mountain. -/
theorem Dfs.mountain (D : Dfs P p xy A st key lab sgn) {ε : K} (hh : P.h = ht ε) (hX : P.X = fun e v => Xh ε e (ht ε v))
    {f : Nat × List Nat} (hf : FinOK P A sgn f) :
    ∃ inner, f.2 = inner ++ [A.mn f.1] ∧ inner ≠ [] ∧
      Mountain (!sgn f.1) (key (A.mx f.1)).2 ((inner.map key).map Prod.snd) (key (A.mn f.1)).2 := by
  obtain ⟨s, ns⟩ := f
  obtain ⟨hS, hch, hlen⟩ := hf
  simp only at hS hch hlen ⊢
  have hI := D.whole.inv
  obtain ⟨inner, x, rfl⟩ := List.eq_nil_or_concat' ns |>.resolve_left (by rintro rfl; simp at hlen)
  have hx : x = A.mn s := by
    have := hch.last
    rw [← List.cons_append, List.getLast?_concat] at this
    exact Option.some.inj this
  subst hx
  have hN : ∀ v ∈ A.mx s :: (inner ++ [A.mn s]), v < A.N := by
    intro v hv
    rcases List.mem_cons.1 hv with rfl | hv
    · exact (hI.mxN s hS).1
    · exact (hch.side v hv).1
  refine ⟨inner, rfl, by rintro rfl; simp at hlen, ⟨?_, ?_⟩⟩
  · have e : (key (A.mx s)).2 :: (inner.map key).map Prod.snd ++ [(key (A.mn s)).2] =
        (A.mx s :: (inner ++ [A.mn s])).map fun n => (key n).2 := by simp
    rw [e, List.pairwise_map]
    refine hch.desc.imp_of_mem fun {a b} ha hb h => ?_
    rw [D.keyc a (hN a ha), D.keyc b (hN b hb)]
    exact (P.h_lt (hI.cU b (hN b hb)) (hI.cU a (hN a ha))).2 h
  · intro c hc
    rw [List.map_map] at hc
    obtain ⟨v, hv, rfl⟩ := List.mem_map.1 hc
    have hvN := hN v (by simp [hv])
    have hne : v ≠ A.mn s := by
      rintro rfl
      have := (List.pairwise_append.1 (List.pairwise_cons.1 hch.desc).2).2.2 _ hv _ (List.mem_singleton.2 rfl)
      exact lt_irrefl _ this
    have hside := (hch.side v (by simp [hv])).2 hne
    have hE := P.E_lt (hI.sE s hS)
    have e1 : A.c (A.mn s) = (A.sg s).1 := D.whole.mnC s hS
    have e2 : A.c (A.mx s) = (A.sg s).2 := (hI.mxN s hS).2
    rw [hh] at hE
    simp only [Function.comp_apply, D.keyc v hvN, D.keyc _ (hN _ (List.mem_cons_self ..)),
      D.keyc _ (hN (A.mn s) (by simp)), e1, e2]
    unfold Side at hside
    cases hs : sgn s
    · rw [hs] at hside
      simp only [Bool.false_eq_true, if_false, Bool.not_false, if_true] at hside ⊢
      have := hside.2.2
      rw [hX] at this
      exact (orient_Xh hE _).2 this
    · rw [hs] at hside
      simp only [if_true, Bool.not_true, Bool.false_eq_true, if_false] at hside ⊢
      have := hside.2.2
      rw [hX] at this
      exact (orient_Xh_neg hE _).2 this

/-- The directed edge along segment `s` that has the inside on its left. -/
def dirE (A : Abs K) (key : Nat → I × Coords K) (sgn : Nat → Bool) (s : Nat) : (I × Coords K) × (I × Coords K) :=
  if sgn s then (key (A.mx s), key (A.mn s)) else (key (A.mn s), key (A.mx s))

/-- The builder of a chain that is a mountain. -/
theorem toB_mountain {s : Nat} {inner : List Nat} {left : Bool} (hne : inner ≠ [])
    (hm : Mountain left (key (A.mx s)).2 ((inner.map key).map Prod.snd) (key (A.mn s)).2) :
    toB key A (s, inner ++ [A.mn s]) = ⟨key (A.mx s), inner.map key ++ [key (A.mn s)], true, true⟩ := by
  obtain ⟨v, l, rfl⟩ := List.exists_cons_of_ne_nil hne
  have hside := hm.side (key v).2 (by simp)
  have h0 : orient (key (A.mn s)).2 (key (A.mx s)).2 (key v).2 ≠ 0 := by
    cases left
    · simp only [Bool.false_eq_true, if_false] at hside
      exact hside.ne
    · simp only [if_true] at hside
      exact hside.ne'
  have hx : (chn key (A.mx s) (v :: l ++ [A.mn s])).diffX = true := by
    rw [chn_diffX]
    by_contra hc
    push Not at hc
    have h1 := hc v (by simp)
    have h2 := hc (A.mn s) (by simp)
    exact h0 (by unfold orient; rw [h1, h2]; ring)
  have hy : (chn key (A.mx s) (v :: l ++ [A.mn s])).diffY = true := by
    rw [chn_diffY]
    by_contra hc
    push Not at hc
    have h1 := hc v (by simp)
    have h2 := hc (A.mn s) (by simp)
    exact h0 (by unfold orient; rw [h1, h2]; ring)
  have h1 := chn_first (key := key) (A.mx s) (v :: l ++ [A.mn s])
  have h2 := chn_rest (key := key) (A.mx s) (v :: l ++ [A.mn s])
  unfold toB
  show chn key (A.mx s) (v :: l ++ [A.mn s]) = _
  rcases hc : chn key (A.mx s) (v :: l ++ [A.mn s]) with ⟨a, b, c, d⟩
  rw [hc] at hx hy h1 h2
  simp only at hx hy h1 h2
  rw [hx, hy, h1, h2]; simp

/-- The contribution of a chain to a sum over directed edges. -/
def chainSum {G : Type} [AddCommGroup G] (f : I × Coords K → I × Coords K → G) (A : Abs K) (key : Nat → I × Coords K)
    (sgn : Nat → Bool) (c : Nat × List Nat) : G :=
  if !sgn c.1 then esum f (cycleEdges ((A.mx c.1 :: c.2).map key)) else - esum f (cycleEdges ((A.mx c.1 :: c.2).map key))

theorem Dfs.chain_emit (D : Dfs P p xy A st key lab sgn) {ε : K} (hh : P.h = ht ε) (hX : P.X = fun e v => Xh ε e (ht ε v))
    {c : Nat × List Nat} (hf : FinOK P A sgn c) :
    ∃ fs, (∀ w, ∀ fuel, A.N ^ 2 + A.N ≤ fuel →
        finishMonotone (m := TrM I) w fuel (toB key A c) = ⟨callsR w fs, .ok ()⟩) ∧
      Emit fs ((List.range A.N).map key) (c.2.length - 1) ∧
      ∀ (G : Type) [AddCommGroup G] (f : I × Coords K → I × Coords K → G), (∀ a b, f a b = - f b a) →
        ((trisR fs).map (tsum f)).sum = chainSum f A key sgn c := by
  obtain ⟨inner, e, hne, hm⟩ := D.mountain hh hX hf
  have hI := D.whole.inv
  obtain ⟨s, ns⟩ := c
  simp only at e hm
  subst e
  have hS : s < A.S := hf.S
  have hN : ∀ v ∈ A.mx s :: (inner ++ [A.mn s]), v < A.N := by
    intro v hv
    rcases List.mem_cons.1 hv with rfl | hv
    · exact (hI.mxN s hS).1
    · exact (hf.ch.side v hv).1
  have hb := toB_mountain (A := A) hne hm
  obtain ⟨fs, h1, h2, h3⟩ := mountain_emit _ _ _ _ hm (by simpa using hne)
  have hlen : inner.length + 2 ≤ A.N := by
    have hdown : (A.mx s :: (inner ++ [A.mn s])).Pairwise fun a b => below (key b).2 (key a).2 := by
      have := hm.down
      have e : (key (A.mx s)).2 :: (inner.map key).map Prod.snd ++ [(key (A.mn s)).2] =
          (A.mx s :: (inner ++ [A.mn s])).map fun v => (key v).2 := by simp
      rw [e, List.pairwise_map] at this
      exact this
    have hnd : (A.mx s :: (inner ++ [A.mn s])).Nodup := hdown.imp fun h e => by
      subst e
      rcases h with h | h
      · exact lt_irrefl _ h
      · exact lt_irrefl _ h.2
    have := (hnd.subperm (l₂ := List.range A.N) fun v hv => List.mem_range.2 (hN v hv)).length_le
    simpa using this
  refine ⟨fs, ?_, ⟨h2.two, h2.pos, ?_, h2.dist, h2.flat, ?_⟩, ?_⟩
  · intro w fuel hfu
    rw [hb]
    refine h1 w fuel ?_
    have := Nat.pow_le_pow_left hlen 2
    simp only [List.length_map]
    omega
  · have hsub : ∀ v ∈ key (A.mx s) :: inner.map key ++ [key (A.mn s)], v ∈ (List.range A.N).map key := by
      intro v hv
      have : v ∈ (A.mx s :: (inner ++ [A.mn s])).map key := by simpa using hv
      obtain ⟨n, hn, rfl⟩ := List.mem_map.1 this
      exact List.mem_map.2 ⟨n, List.mem_range.2 (hN n hn), rfl⟩
    intro t ht
    obtain ⟨k1, k2, k3⟩ := h2.mem t ht
    exact ⟨hsub _ k1, hsub _ k2, hsub _ k3⟩
  · rw [h2.len]; simp
  · intro G _ f hfa
    rw [h3 G f hfa]
    simp [chainSum]

theorem Dfs.all_emit (D : Dfs P p xy A st key lab sgn) {ε : K} (hh : P.h = ht ε) (hX : P.X = fun e v => Xh ε e (ht ε v))
    (fin : List (Nat × List Nat)) (hf : ∀ c ∈ fin, FinOK P A sgn c) :
    ∃ fs, (∀ w, ∀ fuel, A.N ^ 2 + A.N ≤ fuel → finishAll w fuel (fin.map (toB key A)) = ⟨callsR w fs, .ok ()⟩) ∧
      Emit fs ((List.range A.N).map key) ((fin.map fun c => c.2.length - 1).sum) ∧
      ∀ (G : Type) [AddCommGroup G] (f : I × Coords K → I × Coords K → G), (∀ a b, f a b = - f b a) →
        ((trisR fs).map (tsum f)).sum = (fin.map (chainSum f A key sgn)).sum := by
  induction fin with
  | nil =>
    refine ⟨[], fun w fuel _ => rfl, ⟨by simp, by simp [trisR], by simp [trisR], by simp [trisR], by simp [trisR], by simp [trisR]⟩, ?_⟩
    intro G _ f _; simp [trisR]
  | cons c fin ih =>
    obtain ⟨fs1, h1, h2, h3⟩ := D.chain_emit hh hX (hf c (by simp))
    obtain ⟨fs2, k1, k2, k3⟩ := ih fun c hc => hf c (by simp [hc])
    refine ⟨fs1 ++ fs2, ?_, ⟨?_, ?_, ?_, ?_, ?_, ?_⟩, ?_⟩
    · intro w fuel hfu
      show finishMonotone w fuel (toB key A c) >>= (fun _ => finishAll w fuel (fin.map (toB key A))) = _
      rw [h1 w fuel hfu, k1 w fuel hfu, callsR_append]
      rfl
    · intro f hm
      rcases List.mem_append.1 hm with hm | hm
      · exact h2.two f hm
      · exact k2.two f hm
    · intro t ht
      rw [trisR_append] at ht
      rcases List.mem_append.1 ht with ht | ht
      · exact h2.pos t ht
      · exact k2.pos t ht
    · intro t ht
      rw [trisR_append] at ht
      rcases List.mem_append.1 ht with ht | ht
      · exact h2.mem t ht
      · exact k2.mem t ht
    · intro t ht
      rw [trisR_append] at ht
      rcases List.mem_append.1 ht with ht | ht
      · exact h2.dist t ht
      · exact k2.dist t ht
    · intro t ht
      rw [trisR_append] at ht
      rcases List.mem_append.1 ht with ht | ht
      · exact h2.flat t ht
      · exact k2.flat t ht
    · rw [trisR_append, List.length_append, h2.len, k2.len]; simp
    · intro G _ f hfa
      rw [trisR_append, List.map_append, List.sum_append, h3 G f hfa, k3 G f hfa]; simp

/-! ## The sums -/

theorem cycle_esum {G : Type} [AddCommGroup G] (f : I × Coords K → I × Coords K → G) (s : Nat) (ns : List Nat) (d : Nat)
    (h : (A.mx s :: ns).getLast? = some d) :
    esum f (cycleEdges ((A.mx s :: ns).map key)) =
      esum (fun a b => f (key a) (key b)) (pairs (A.mx s :: ns)) + f (key d) (key (A.mx s)) := by
  rw [cycleEdges_map, esum_map, cycleEdges_eq]
  rw [List.getLast?_eq_some_iff] at h
  obtain ⟨l, h⟩ := h
  rw [h, List.append_assoc]
  show esum _ (pairs (l ++ d :: [A.mx s])) = _
  rw [pairs_append, esum_append]
  simp [esum, pairs]

theorem esum_swap {α : Type} {G : Type} [AddCommGroup G] {f : α → α → G} (hf : ∀ a b, f a b = - f b a) (es : List (α × α)) :
    esum (fun a b => f b a) es = - esum f es := by
  unfold esum
  induction es with
  | nil => simp
  | cons e es ih => rw [List.map_cons, List.sum_cons, ih, List.map_cons, List.sum_cons, neg_add, ← hf e.2 e.1]

/-- The triangles of a whole run. -/
theorem Dfs.mesh (D : Dfs P p xy A st key lab sgn) {ε : K} (hh : P.h = ht ε) (hX : P.X = fun e v => Xh ε e (ht ε v))
    (hqry : Qry st.qs st.ts A) (htsL : st.ts.length = A.M) :
    ∃ fs n, (∀ w, ∀ fuel, topTrapezoid st.qs fuel 0 ≠ .error .timeout → A.M ≤ fuel → A.N ^ 2 + A.N ≤ fuel →
        innerTrace w fuel p xy st = ⟨callsR w fs, .ok ()⟩) ∧
      Emit fs ((List.range A.N).map key) n ∧ (n : Int) = 2 * ((List.range A.M).filter lab).length - A.S ∧
      ∀ (G : Type) [AddCommGroup G] (f : I × Coords K → I × Coords K → G), (∀ a b, f a b = - f b a) →
        ((trisR fs).map (tsum f)).sum = esum f ((List.range A.S).map (dirE A key sgn)) := by
  obtain ⟨fin, hrun, hfin, hpot⟩ := D.inner hqry htsL
  obtain ⟨fs, h1, h2, h3⟩ := D.all_emit hh hX fin hfin
  refine ⟨fs, _, ?_, h2, ?_, ?_⟩
  · intro w fuel hf0 hf1 hf
    rw [← BM.run_inner, hrun fuel hf0 hf1]
    show finishAll w fuel (fin.map (toB key A)) >>= (fun _ => FanM.lift (.ok ())) = _
    rw [h1 w fuel hf]
    show (⟨callsR w fs ++ [], .ok ()⟩ : TrM I Unit) = _
    rw [List.append_nil]
  · have := hpot Int (fun _ _ _ => 1) (fun _ => -1) (by intro s _; rfl)
    have e1 : ∀ l : List (Nat × List Nat), (∀ c ∈ l, FinOK P A sgn c) →
        finW (fun _ _ _ => (1 : Int)) (fun _ => -1) A sgn l = (((l.map fun c => c.2.length - 1).sum : Nat) : Int) := by
      intro l hl
      induction l with
      | nil => rfl
      | cons c l ih =>
        have e2 : finW (fun _ _ _ => (1 : Int)) (fun _ => -1) A sgn (c :: l) =
            (-1 + wt (fun _ _ _ => (1 : Int)) A sgn c.1 c.2) + finW (fun _ _ _ => (1 : Int)) (fun _ => -1) A sgn l := by
          simp [finW]
        rw [e2, ih fun c hc => hl c (by simp [hc]), List.map_cons, List.sum_cons]
        have e3 : wt (fun _ _ _ => (1 : Int)) A sgn c.1 c.2 = c.2.length := by
          unfold wt esum
          simp [pairs_length]
        have := (hl c (by simp)).len
        rw [e3]; push_cast; omega
    rw [e1 fin hfin] at this
    rw [this]
    simp only [List.map_const', List.sum_replicate, List.length_range, nsmul_eq_mul]
    push_cast
    ring
  · intro G _ f hf
    rw [h3 G f hf]
    let g : Bool → Nat → Nat → G := fun b u d => if b then f (key d) (key u) else f (key u) (key d)
    let β : Nat → G := fun s => f (dirE A key sgn s).1 (dirE A key sgn s).2
    have hdeg : Deg g β A sgn := by
      intro s _
      simp only [g, β, dirE]
      cases sgn s
      · simp only [Bool.false_eq_true, if_false]; rw [hf]; simp
      · simp only [if_true]; rw [hf]; simp
    have h0 := hpot G g β hdeg
    have hz : (((List.range A.M).filter lab).map fun t => g true ((A.T t).up.getD 0) ((A.T t).down.getD 0) +
        g false ((A.T t).up.getD 0) ((A.T t).down.getD 0)).sum = 0 := by
      have : ∀ l : List Nat, (l.map fun t => g true ((A.T t).up.getD 0) ((A.T t).down.getD 0) +
          g false ((A.T t).up.getD 0) ((A.T t).down.getD 0)).sum = 0 := by
        intro l
        induction l with
        | nil => rfl
        | cons t l ih =>
          rw [List.map_cons, List.sum_cons, ih]
          simp only [g, if_true, Bool.false_eq_true, if_false]
          rw [hf]; simp
      exact this _
    rw [hz, zero_add] at h0
    have e1 : (fin.map (chainSum f A key sgn)).sum = finW g β A sgn fin := by
      unfold finW
      congr 1
      refine List.map_congr_left fun c hc => ?_
      have hlast := (hfin c hc).ch.last
      unfold chainSum
      rw [cycle_esum f c.1 c.2 _ hlast]
      simp only [β, wt, g, dirE]
      cases sgn c.1
      · simp only [Bool.not_false, if_true, Bool.false_eq_true, if_false]; abel
      · simp only [Bool.not_true, Bool.false_eq_true, if_false, if_true]
        rw [esum_swap (f := fun a b => f (key a) (key b)) (fun a b => hf _ _), neg_add, hf (key (A.mn c.1))]
        abel
    rw [e1, h0]
    simp only [β, esum, List.map_map]
    rfl

end Tri
