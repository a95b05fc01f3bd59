import Verif.Proof.Emit
import Verif.Proof.TouchPlane
import Mathlib.Tactic.LinearCombination

/-!
# From the finished chains to the triangles, with touching edges

As in `Verif.Proof.Emit`; inner vertices of a chain may be on its segment.
-/

set_option linter.unusedSectionVars false

namespace Tri

variable {I V K : Type} [Field K] [LinearOrder K] [IsStrictOrderedRing K]

attribute [local instance] exact

/-- A chain of points going down, all inner points of which are taken to be on the same side of the line from the last up to the
first. -/
structure WideMountain (left : Bool) (first : Coords K) (inner : List (Coords K)) (last : Coords K) : Prop where
  down : (first :: inner ++ [last]).Pairwise fun a b => below b a
  side : ∀ c ∈ inner, isLeftOfLine last first c = left

/-- `WideMountain` for a list of indexed vertices. -/
def WideL (left : Bool) (L : List (I × Coords K)) : Prop :=
  ∃ x inner y, L = x :: inner ++ [y] ∧ WideMountain left x.2 (inner.map Prod.snd) y.2

theorem WideL.remove {left : Bool} (X : List (I × Coords K)) (a b c : I × Coords K)
    (Y : List (I × Coords K)) (h : WideL left (X ++ a :: b :: c :: Y)) :
    WideL left (X ++ a :: c :: Y) := by
  obtain ⟨x, inner, y, e, hm⟩ := h
  -- the ends are not removed
  have hx : ∃ X', X ++ [a] = x :: X' := by
    cases X with
    | nil => exact ⟨[], by simp at e; simp [e.1]⟩
    | cons z X => exact ⟨X ++ [a], by simp at e; simp [e.1]⟩
  have hy : ∃ Y', c :: Y = Y' ++ [y] := by
    rcases List.eq_nil_or_concat' Y with rfl | ⟨Y, z, rfl⟩
    · have e' : (X ++ [a, b]) ++ [c] = (x :: inner) ++ [y] := by simpa using e
      obtain ⟨-, e2⟩ := List.append_inj' e' rfl
      exact ⟨[], by simpa using e2⟩
    · have e' : (X ++ a :: b :: c :: Y) ++ [z] = (x :: inner) ++ [y] := by simpa using e
      obtain ⟨-, e2⟩ := List.append_inj' e' rfl
      exact ⟨c :: Y, by simpa using e2⟩
  obtain ⟨X', hX⟩ := hx
  obtain ⟨Y', hY⟩ := hy
  have e1 : x :: (X' ++ b :: Y') ++ [y] = x :: inner ++ [y] := by
    rw [← e]
    have : X ++ a :: b :: c :: Y = (X ++ [a]) ++ b :: (c :: Y) := by simp
    rw [this, hX, hY]; simp
  have e2 : X' ++ b :: Y' = inner := by
    simp only [List.cons_append, List.cons.injEq, true_and] at e1
    exact List.append_cancel_right e1
  refine ⟨x, X' ++ Y', y, ?_, ?_, ?_⟩
  · have : X ++ a :: c :: Y = (X ++ [a]) ++ (c :: Y) := by simp
    rw [this, hX, hY]; simp
  · refine hm.down.sublist ?_
    rw [← e2]
    simp only [List.map_append, List.map_cons, List.cons_append, List.append_assoc]
    exact List.Sublist.cons_cons _ (List.Sublist.append (List.Sublist.refl _)
      (List.Sublist.cons _ (List.Sublist.refl _)))
  · intro p hp
    apply hm.side
    rw [← e2]
    simp only [List.map_append, List.map_cons, List.mem_append, List.mem_cons] at hp ⊢
    rcases hp with hp | hp
    · exact .inl hp
    · exact .inr (.inr hp)

/-- Points on one line that is not horizontal. -/
theorem isLeft_collinear {x y a b : Coords K} (hy : y.y < x.y) (ha : orient y x a = 0) (hb : orient y x b = 0) (hbx : below b x) :
    isLeftOfLine b x a = false := by
  have hD : 0 < x.y - y.y := by linarith
  have hbD : (x.y - y.y) * (x.x - b.x) = (x.x - y.x) * (x.y - b.y) := by
    unfold orient at hb; linear_combination hb
  have hlt : b.y < x.y := by
    rcases hbx with h | ⟨h, h'⟩
    · exact h
    · rw [h, sub_self, mul_zero] at hbD
      rcases mul_eq_zero.1 hbD with k | k <;> linarith
  have h0 : orient b x a = 0 := by
    have : (x.y - y.y) * orient b x a = 0 := by
      have e : (x.y - y.y) * orient b x a = (a.y - b.y) * orient y x b - (x.y - b.y) * (orient y x b - orient y x a) := by
        unfold orient; ring
      rw [e, ha, hb]; ring
    rcases mul_eq_zero.1 this with k | k
    · linarith
    · exact k
  rw [← Bool.not_eq_true, isLeft_orient hbx fun h => hlt.ne h.1, h0]
  exact lt_irrefl _

theorem WideL.hasEar {left : Bool} (L : List (I × Coords K)) (h : WideL left L)
    (h3 : 3 ≤ L.length) : ¬ NoEar (earOk left) L := by
  obtain ⟨x, inner, y, rfl, hm⟩ := h
  intro hno
  have hdown : (x :: inner ++ [y]).Pairwise fun a b => below b.2 a.2 := by
    have := hm.down
    have e : x.2 :: inner.map Prod.snd ++ [y.2] = (x :: inner ++ [y]).map Prod.snd := by simp
    rw [e, List.pairwise_map] at this
    exact this
  have hxy : below y.2 x.2 := by
    simp only [List.cons_append, List.pairwise_cons] at hdown
    exact hdown.1 _ (by simp)
  have hbx : ∀ c ∈ inner, below c.2 x.2 := by
    simp only [List.cons_append, List.pairwise_cons] at hdown
    exact fun c hc => hdown.1 c (by simp [hc])
  have hyb : ∀ c ∈ inner, below y.2 c.2 := by
    simp only [List.cons_append, List.pairwise_cons] at hdown
    exact fun c hc => (List.pairwise_append.1 hdown.2).2.2 c hc y (by simp)
  have ox : orient y.2 x.2 x.2 = 0 := by unfold orient; ring
  have oy : orient y.2 x.2 y.2 = 0 := by unfold orient; ring
  have hl : ∀ c ∈ inner, isLeftOfLine y.2 x.2 c.2 = left := fun c hc => hm.side c.2 (List.mem_map_of_mem hc)
  by_cases hneg : ∃ m ∈ inner, orient y.2 x.2 m.2 ≠ 0
  · obtain ⟨m, hm', hn⟩ := hneg
    obtain ⟨k1, k2, -, -⟩ := isLeft_between (hyb m hm') (hbx m hm')
    rw [← orient_cyc] at k1 k2
    cases left with
    | false =>
      have hn : orient y.2 x.2 m.2 < 0 := lt_of_le_of_ne (k2 (hl m hm')) hn
      obtain ⟨X, a, b, c, Y, e, h1, h2⟩ := peak (fun p : I × Coords K => - orient y.2 x.2 p.2) x inner y
        ⟨m, hm', by rw [ox]; simpa using hn, by rw [oy]; simpa using hn.le⟩
      rw [e] at hdown
      have hd := (List.pairwise_append.1 hdown).2.1
      simp only [List.pairwise_cons] at hd
      have hba : below b.2 a.2 := hd.1 b (by simp)
      have hcb : below c.2 b.2 := hd.2.1 c (by simp)
      have hc := corner' hxy hba hcb (neg_lt_neg_iff.1 h1) (neg_le_neg_iff.1 h2)
      exact hno X a b c Y e (earOk_of_orient hcb hba (by simpa using hc))
    | true =>
      have hn : 0 < orient y.2 x.2 m.2 := lt_of_le_of_ne (k1 (hl m hm')) (Ne.symm hn)
      obtain ⟨X, a, b, c, Y, e, h1, h2⟩ := peak (fun p : I × Coords K => orient y.2 x.2 p.2) x inner y
        ⟨m, hm', by rw [ox]; exact hn, by rw [oy]; exact hn.le⟩
      rw [e] at hdown
      have hd := (List.pairwise_append.1 hdown).2.1
      simp only [List.pairwise_cons] at hd
      have hba : below b.2 a.2 := hd.1 b (by simp)
      have hcb : below c.2 b.2 := hd.2.1 c (by simp)
      have hc := corner hxy hba hcb h1 h2
      exact hno X a b c Y e (earOk_of_orient hcb hba (by simpa using hc))
  · push Not at hneg
    have hz := hneg
    obtain ⟨m, l, rfl⟩ : ∃ m l, inner = m :: l := by
      cases inner with
      | nil => simp at h3
      | cons m l => exact ⟨m, l, rfl⟩
    obtain ⟨c, Y, hc, hcz, hcx⟩ : ∃ c Y, l ++ [y] = c :: Y ∧ orient y.2 x.2 c.2 = 0 ∧ below c.2 x.2 := by
      cases l with
      | nil => exact ⟨y, [], rfl, oy, hxy⟩
      | cons c l => exact ⟨c, l ++ [y], rfl, hz c (by simp), hbx c (by simp)⟩
    refine hno [] x m c Y (by rw [List.nil_append, ← hc]; rfl) ?_
    show isLeftOfLine c.2 x.2 m.2 = left
    have h1 := hl m (by simp)
    have h2 := hz m (by simp)
    rcases hxy with h | ⟨h, hx⟩
    · rw [isLeft_collinear h h2 oy (.inl h)] at h1
      rw [← h1]
      exact isLeft_collinear h h2 hcz hcx
    · unfold orient at h2
      rw [h, sub_self, zero_mul, sub_zero] at h2
      have hmy : m.2.y = x.2.y := by
        rcases mul_eq_zero.1 h2 with k | k <;> linarith
      have hmx : m.2.x < x.2.x := by
        rcases hbx m (by simp) with k | ⟨-, k⟩
        · linarith
        · exact k
      have hI : ∀ a : Coords K, isLeftOfLine a x.2 m.2 = true := fun a => by
        rw [isLeft_unfold, if_pos hmy]; exact hmx
      rw [hI] at h1 ⊢
      exact h1

/-- What the builder makes of such a chain. -/
theorem wide_build (left : Bool) (x y : I × Coords K) (inner : List (I × Coords K))
    (hm : WideMountain left x.2 (inner.map Prod.snd) y.2) (dx dy : Bool) (M : Mono I K)
    (hb : (MonoB.mk x (inner ++ [y]) dx dy).build = .ok (some M)) :
    M.isLeftChain = left ∧ ∃ v1 v2 tl, inner ++ [y] = v1 :: v2 :: tl ∧ Rep M [v1, x] [] (v2 :: tl) := by
  unfold MonoB.build at hb
  split at hb
  · next v1 v2 tl hr =>
    simp only at hr
    split at hb
    · simp only [Except.ok.injEq, Option.some.injEq] at hb
      refine ⟨?_, v1, v2, tl, hr, ?_⟩
      · have hlast : (v2 :: tl).getLast (by simp) = y := by
          have h1 : (v1 :: v2 :: tl).getLast (by simp) = (inner ++ [y]).getLast (by simp) := by
            congr 1; exact hr.symm
          rw [List.getLast_cons (by simp)] at h1
          rw [h1]; simp
        have hv1 : v1 ∈ inner := by
          cases inner with
          | nil => simp at hr
          | cons z l => simp at hr; simp [hr.1]
        have hM : M.isLeftChain = isLeftOfLine y.2 x.2 v1.2 := by
          rw [← hb]; simp only [hlast]
        rw [hM]
        exact hm.side v1.2 (List.mem_map_of_mem hv1)
      · subst hb
        exact ⟨by simp, rfl, rfl⟩
    · cases hb
  · cases hb

/-- A chain is turned into triangles whose sides sum up to the closed chain. -/
theorem wide_emit (left : Bool) (x y : I × Coords K) (inner : List (I × Coords K))
    (hm : WideMountain left x.2 (inner.map Prod.snd) y.2) (hi : inner ≠ []) :
    ∃ fs, (∀ w, ∀ fuel, (inner.length + 2) ^ 2 + (inner.length + 2) ≤ fuel →
        finishMonotone (m := TrM I) w fuel ⟨x, inner ++ [y], true, true⟩ = ⟨callsR w fs, .ok ()⟩) ∧
      Emit fs (x :: inner ++ [y]) inner.length ∧
      ∀ (G : Type) [AddCommGroup G] (f : I × Coords K → I × Coords K → G), (∀ a b, f a b = - f b a) →
        ((trisR fs).map (tsum f)).sum =
          if left then esum f (cycleEdges (x :: inner ++ [y])) else - esum f (cycleEdges (x :: inner ++ [y])) := by
  have hb : ∃ M, (MonoB.mk x (inner ++ [y]) true true).build = .ok (some M) := by
    obtain ⟨a, l, rfl⟩ := List.exists_cons_of_ne_nil hi
    rcases l with _ | ⟨b, l⟩
    · exact ⟨_, rfl⟩
    · exact ⟨_, rfl⟩
  obtain ⟨M, hb⟩ := hb
  obtain ⟨hl, v1, v2, tl, hr, hR⟩ := wide_build left x y inner hm true true M hb
  have hL : WideL left ([v1, x].reverse ++ (v2 :: tl)) := ⟨x, inner, y, by simp [hr], hm⟩
  have hlen : inner.length + 1 = tl.length + 2 := by
    have := congrArg List.length hr; simpa using this
  have hend : ∀ w, ∀ fuel, (inner.length + 2) ^ 2 + (inner.length + 2) ≤ fuel →
      (Mono.buildFans (m := TrM I) w fuel M).res = .ok () := by
    intro w fuel hf
    refine buildFans_ends w left WideL.remove WideL.hasEar fuel M _ _ _ hR (by simp) hl hL
      (.inl ⟨?_, ?_⟩)
    · intro X a b c Y e
      have := congrArg List.length e
      simp at this; omega
    · have e : [v1, x].length + (v2 :: tl).length = inner.length + 2 := by simp; omega
      rw [e, ← Nat.pow_two]
      simp only [List.length_cons]; omega
  have hsame : ∀ w, ∀ fuel, (inner.length + 2) ^ 2 + (inner.length + 2) ≤ fuel →
      Mono.buildFans (m := TrM I) w fuel M =
        Mono.buildFans (m := TrM I) w ((inner.length + 2) ^ 2 + (inner.length + 2)) M := by
    intro w fuel hf
    exact buildFans_mono w _ fuel hf M (by rw [hend w _ (Nat.le_refl _)]; simp)
  obtain ⟨fs, L', h1, h2, h3, h4⟩ := chain_run _ M hb ((inner.length + 2) ^ 2 + (inner.length + 2))
  have h5 : L'.length = 2 := by
    rcases h4 with h4 | h4
    · have := h4 .counterclockwise
      rw [hend _ _ (Nat.le_refl _)] at this; cases this
    · exact h4.2
  rw [hl] at h2 h3
  obtain ⟨T, hp, hrot⟩ := fans_perm left fs h1
  have htr : trisR (fs.map fun f => (left, f)) =
      (fs.map fun f => fanOf .counterclockwise left f.bt f.root f.outer).flatMap fanTriangles := by
    unfold trisR; rw [List.map_map]; rfl
  have hdown : (x :: (inner ++ [y])).Pairwise fun a b => below b.2 a.2 := by
    have := hm.down
    have e : x.2 :: inner.map Prod.snd ++ [y.2] = (x :: (inner ++ [y])).map Prod.snd := by simp
    rw [e, List.pairwise_map] at this
    exact this
  have hmem := h3.mem hdown
  have hT : ∀ t ∈ trisR (fs.map fun f => (left, f)), ∃ e ∈ fs.flatMap (fun f => earsOf f.bt f.root f.outer),
      Rot (earTri left e) t := by
    intro t ht
    rw [htr] at ht
    obtain ⟨e, he, hr⟩ := forall₂_mem hrot (hp.mem_iff.1 ht)
    obtain ⟨e', he', rfl⟩ := List.mem_map.1 he
    exact ⟨e', he', hr⟩
  refine ⟨fs.map fun f => (left, f), ?_, ⟨?_, ?_, ?_, ?_, ?_, ?_⟩, ?_⟩
  · intro w fuel hf
    have e1 : callsR w (fs.map fun f => (left, f)) =
        (fs.map fun f => (fanOf w left f.bt f.root f.outer).map Prod.fst).flatMap fanCalls := by
      unfold callsR; rw [List.map_map]; rfl
    rw [e1]
    unfold finishMonotone
    rw [hb, TrM.lift_ok]
    show Mono.buildFans (m := TrM I) w fuel M = _
    have hr := hend w _ hf
    rw [hsame w _ hf] at hr ⊢
    have h2 := h2 w
    rcases hT : Mono.buildFans (m := TrM I) w ((inner.length + 2) ^ 2 + (inner.length + 2)) M with ⟨cs, r'⟩
    rw [hT] at hr h2
    simp only at hr h2
    rw [hr, h2]
  · intro f hf
    obtain ⟨g, hg, rfl⟩ := List.mem_map.1 hf
    exact h1 g hg
  · intro t ht
    obtain ⟨e, he, hr⟩ := hT t ht
    obtain ⟨k1, k2, k3, -⟩ := hmem e he
    rw [orientT_rot hr]
    have := earOk_orient k2 k1 k3
    cases left
    · simp only [Bool.false_eq_true, if_false] at this
      have e2 : orientT (earTri false e) = - orient e.1.2 e.2.1.2 e.2.2.2 := by
        simp only [orientT, earTri, orient, Bool.false_eq_true, if_false]; ring
      rw [e2]; linarith
    · simpa [orientT, earTri] using this
  · intro t ht
    obtain ⟨e, he, hr⟩ := hT t ht
    obtain ⟨-, -, -, k4, k5, k6⟩ := hmem e he
    cases left <;> rcases hr with rfl | rfl | rfl <;>
      simp only [earTri, Bool.false_eq_true, if_false, if_true, List.cons_append] <;> simp_all
  · intro t ht
    obtain ⟨e, he, hr⟩ := hT t ht
    obtain ⟨k1, k2, -⟩ := hmem e he
    have k3 := below_trans k2 k1
    have hne : ∀ {a b : Coords K}, below a b → a ≠ b ∧ b ≠ a := fun h =>
      ⟨fun e => below_irrefl _ (e ▸ h), fun e => below_irrefl _ (e ▸ h)⟩
    have n1 := hne k1
    have n2 := hne k2
    have n3 := hne k3
    cases left <;> rcases hr with rfl | rfl | rfl <;>
      exact ⟨by first | exact n1.1 | exact n1.2 | exact n2.1 | exact n2.2 | exact n3.1 | exact n3.2,
        by first | exact n1.1 | exact n1.2 | exact n2.1 | exact n2.2 | exact n3.1 | exact n3.2,
        by first | exact n1.1 | exact n1.2 | exact n2.1 | exact n2.2 | exact n3.1 | exact n3.2⟩
  · intro t ht h0
    obtain ⟨e, he, hr⟩ := hT t ht
    obtain ⟨k1, k2, k3, -⟩ := hmem e he
    refine ⟨earTri left e, hr, earOk_flat k2 k1 k3 ?_⟩
    rw [orientT_rot hr] at h0
    cases left
    · have e2 : orientT (earTri false e) = - orient e.1.2 e.2.1.2 e.2.2.2 := by
        simp only [orientT, earTri, orient, Bool.false_eq_true, if_false]; ring
      rw [e2] at h0; linarith
    · exact h0
  · rw [htr, hp.length_eq, ← hrot.length_eq, List.length_map]
    have := h3.length
    simp only [List.length_cons, List.length_append, List.length_nil] at this
    omega
  · intro G _ f hf
    have hs := h3.esum (f := f) hf h5
    have e1 : x :: inner ++ [y] = x :: (inner ++ [y]) := rfl
    rw [e1, hs, ← sum_earTri hf, ← sum_rot _ hrot, htr]
    exact (hp.map _).sum_eq

/-! ## All chains -/

variable {P : Plane K} {p : PolyList I V} {xy : V → Coords K} {A : Abs K} {st : St I K} {key : Nat → I × Coords K}
  {lab sgn : Nat → Bool}

/-- A finished chain. -/
theorem Dfs.wide (D : Dfs P p xy A st key lab sgn)
    {f : Nat × List Nat} (hf : FinOK P A sgn f) :
    ∃ inner, f.2 = inner ++ [A.mn f.1] ∧ inner ≠ [] ∧
      WideMountain (!sgn f.1) (key (A.mx f.1)).2 ((inner.map key).map Prod.snd) (key (A.mn f.1)).2 := by
  obtain ⟨s, ns⟩ := f
  obtain ⟨hS, hch, hlen⟩ := hf
  simp only at hS hch hlen ⊢
  have hI := D.whole.inv
  obtain ⟨inner, x, rfl⟩ := List.eq_nil_or_concat' ns |>.resolve_left (by rintro rfl; simp at hlen)
  have hx : x = A.mn s := by
    have := hch.last
    rw [← List.cons_append, List.getLast?_concat] at this
    exact Option.some.inj this
  subst hx
  have hN : ∀ v ∈ A.mx s :: (inner ++ [A.mn s]), v < A.N := by
    intro v hv
    rcases List.mem_cons.1 hv with rfl | hv
    · exact (hI.mxN s hS).1
    · exact (hch.side v hv).1
  refine ⟨inner, rfl, by rintro rfl; simp at hlen, ⟨?_, ?_⟩⟩
  · have e : (key (A.mx s)).2 :: (inner.map key).map Prod.snd ++ [(key (A.mn s)).2] =
        (A.mx s :: (inner ++ [A.mn s])).map fun n => (key n).2 := by simp
    rw [e, List.pairwise_map]
    refine hch.desc.imp_of_mem fun {a b} ha hb h => ?_
    rw [D.keyc a (hN a ha), D.keyc b (hN b hb)]
    exact (P.h_lt (hI.cU b (hN b hb)) (hI.cU a (hN a ha))).2 h
  · intro c hc
    rw [List.map_map] at hc
    obtain ⟨v, hv, rfl⟩ := List.mem_map.1 hc
    have hvN := hN v (by simp [hv])
    have hne : v ≠ A.mn s := by
      rintro rfl
      have := (List.pairwise_append.1 (List.pairwise_cons.1 hch.desc).2).2.2 _ hv _ (List.mem_singleton.2 rfl)
      exact lt_irrefl _ this
    have hside := (hch.side v (by simp [hv])).2 hne
    have hE0 := hI.sE s hS
    have e1 : A.c (A.mn s) = (A.sg s).1 := D.whole.mnC s hS
    have e2 : A.c (A.mx s) = (A.sg s).2 := (hI.mxN s hS).2
    simp only [Function.comp_apply, D.keyc v hvN, D.keyc _ (hN _ (List.mem_cons_self ..)),
      D.keyc _ (hN (A.mn s) (by simp)), e1, e2]
    unfold Side at hside
    cases hs : sgn s
    · rw [hs] at hside
      simp only [Bool.false_eq_true, if_false, Bool.not_false] at hside ⊢
      obtain ⟨k1, k2, k3⟩ := hside
      rw [e1] at k1
      rw [P.left_iff hE0 (hI.cU v hvN) k1 k2]
      exact k3
    · rw [hs] at hside
      simp only [if_true, Bool.not_true] at hside ⊢
      obtain ⟨k1, k2, k3⟩ := hside
      rw [e1] at k1
      rw [← Bool.not_eq_true, P.left_iff hE0 (hI.cU v hvN) k1 k2]
      exact not_lt.2 k3.le

/-- The builder of such a chain. -/
theorem toB_wide {s : Nat} {inner : List Nat} :
    toB key A (s, inner ++ [A.mn s]) = ⟨key (A.mx s), inner.map key ++ [key (A.mn s)],
      (chn key (A.mx s) (inner ++ [A.mn s])).diffX, (chn key (A.mx s) (inner ++ [A.mn s])).diffY⟩ := by
  have h1 := chn_first (key := key) (A.mx s) (inner ++ [A.mn s])
  have h2 := chn_rest (key := key) (A.mx s) (inner ++ [A.mn s])
  unfold toB
  show chn key (A.mx s) (inner ++ [A.mn s]) = _
  rcases hc : chn key (A.mx s) (inner ++ [A.mn s]) with ⟨a, b, c, d⟩
  rw [hc] at h1 h2
  simp only at h1 h2
  rw [h1, h2]; simp

/-- Antisymmetric functions that vanish on closed paths along a vertical or horizontal line. -/
structure Upright {G : Type} [AddCommGroup G] (f : I × Coords K → I × Coords K → G) : Prop where
  anti : ∀ a b, f a b = - f b a
  vert : ∀ l : List (I × Coords K), (∀ a ∈ l, ∀ b ∈ l, a.2.x = b.2.x) → esum f (cycleEdges l) = 0
  horz : ∀ l : List (I × Coords K), (∀ a ∈ l, ∀ b ∈ l, a.2.y = b.2.y) → esum f (cycleEdges l) = 0

theorem Dfs.chain_wide (D : Dfs P p xy A st key lab sgn)
    {c : Nat × List Nat} (hf : FinOK P A sgn c) :
    ∃ fs n, (∀ w, ∀ fuel, A.N ^ 2 + A.N ≤ fuel →
        finishMonotone (m := TrM I) w fuel (toB key A c) = ⟨callsR w fs, .ok ()⟩) ∧
      Emit fs ((List.range A.N).map key) n ∧ n ≤ c.2.length - 1 ∧
      ∀ (G : Type) [AddCommGroup G] (f : I × Coords K → I × Coords K → G), Upright f →
        ((trisR fs).map (tsum f)).sum = chainSum f A key sgn c := by
  obtain ⟨inner, e, hne, hm⟩ := D.wide hf
  have hI := D.whole.inv
  obtain ⟨s, ns⟩ := c
  simp only at e hm
  subst e
  have hS : s < A.S := hf.S
  have hN : ∀ v ∈ A.mx s :: (inner ++ [A.mn s]), v < A.N := by
    intro v hv
    rcases List.mem_cons.1 hv with rfl | hv
    · exact (hI.mxN s hS).1
    · exact (hf.ch.side v hv).1
  have hb := toB_wide (key := key) (A := A) (s := s) (inner := inner)
  cases hdxy : (chn key (A.mx s) (inner ++ [A.mn s])).diffX && (chn key (A.mx s) (inner ++ [A.mn s])).diffY with
  | false =>
    refine ⟨[], 0, fun w fuel _ => ?_, ⟨by simp, by simp [trisR], by simp [trisR], by simp [trisR], by simp [trisR],
      by simp [trisR]⟩, by simp, ?_⟩
    · rw [hb]
      obtain ⟨v, l, rfl⟩ := List.exists_cons_of_ne_nil hne
      generalize (chn key (A.mx s) (v :: l ++ [A.mn s])).diffX = dx at hdxy ⊢
      generalize (chn key (A.mx s) (v :: l ++ [A.mn s])).diffY = dy at hdxy ⊢
      have hbuild : (MonoB.mk (key (A.mx s)) ((v :: l).map key ++ [key (A.mn s)]) dx dy).build = .ok none := by
        cases l <;> simp [MonoB.build] <;> simpa using hdxy
      unfold finishMonotone
      rw [hbuild]
      rfl
    · intro G _ f hfa
      have hz : esum f (cycleEdges ((A.mx s :: (inner ++ [A.mn s])).map key)) = 0 := by
        rcases Bool.and_eq_false_iff.1 hdxy with hdx | hdx
        · have hx : ∀ v ∈ A.mx s :: (inner ++ [A.mn s]), (key v).2.x = (key (A.mx s)).2.x := by
            intro v hv
            rcases List.mem_cons.1 hv with rfl | hv
            · rfl
            · by_contra hc
              have := (chn_diffX (key := key) (A.mx s) (inner ++ [A.mn s])).2 ⟨v, hv, hc⟩
              rw [hdx] at this; cases this
          refine hfa.vert _ fun a ha b hb' => ?_
          obtain ⟨i, hi, rfl⟩ := List.mem_map.1 ha
          obtain ⟨j, hj, rfl⟩ := List.mem_map.1 hb'
          rw [hx i hi, hx j hj]
        · have hx : ∀ v ∈ A.mx s :: (inner ++ [A.mn s]), (key v).2.y = (key (A.mx s)).2.y := by
            intro v hv
            rcases List.mem_cons.1 hv with rfl | hv
            · rfl
            · by_contra hc
              have := (chn_diffY (key := key) (A.mx s) (inner ++ [A.mn s])).2 ⟨v, hv, hc⟩
              rw [hdx] at this; cases this
          refine hfa.horz _ fun a ha b hb' => ?_
          obtain ⟨i, hi, rfl⟩ := List.mem_map.1 ha
          obtain ⟨j, hj, rfl⟩ := List.mem_map.1 hb'
          rw [hx i hi, hx j hj]
      unfold chainSum
      simp only
      rw [hz]
      simp [trisR]
  | true =>
  obtain ⟨hdx, hdy⟩ := Bool.and_eq_true_iff.1 hdxy
  rw [hdx, hdy] at hb
  obtain ⟨fs, h1, h2, h3⟩ := wide_emit _ _ _ _ hm (by simpa using hne)
  have hlen : inner.length + 2 ≤ A.N := by
    have hdown : (A.mx s :: (inner ++ [A.mn s])).Pairwise fun a b => below (key b).2 (key a).2 := by
      have := hm.down
      have e : (key (A.mx s)).2 :: (inner.map key).map Prod.snd ++ [(key (A.mn s)).2] =
          (A.mx s :: (inner ++ [A.mn s])).map fun v => (key v).2 := by simp
      rw [e, List.pairwise_map] at this
      exact this
    have hnd : (A.mx s :: (inner ++ [A.mn s])).Nodup := hdown.imp fun h e => by
      subst e
      rcases h with h | h
      · exact lt_irrefl _ h
      · exact lt_irrefl _ h.2
    have := (hnd.subperm (l₂ := List.range A.N) fun v hv => List.mem_range.2 (hN v hv)).length_le
    simpa using this
  refine ⟨fs, _, ?_, ⟨h2.two, h2.pos, ?_, h2.dist, h2.flat, h2.len⟩, by simp, ?_⟩
  · intro w fuel hfu
    rw [hb]
    refine h1 w fuel ?_
    have := Nat.pow_le_pow_left hlen 2
    simp only [List.length_map]
    omega
  · have hsub : ∀ v ∈ key (A.mx s) :: inner.map key ++ [key (A.mn s)], v ∈ (List.range A.N).map key := by
      intro v hv
      have : v ∈ (A.mx s :: (inner ++ [A.mn s])).map key := by simpa using hv
      obtain ⟨n, hn, rfl⟩ := List.mem_map.1 this
      exact List.mem_map.2 ⟨n, List.mem_range.2 (hN n hn), rfl⟩
    intro t ht
    obtain ⟨k1, k2, k3⟩ := h2.mem t ht
    exact ⟨hsub _ k1, hsub _ k2, hsub _ k3⟩
  · intro G _ f hfa
    rw [h3 G f hfa.anti]
    simp [chainSum]

theorem Dfs.all_wide (D : Dfs P p xy A st key lab sgn)
    (fin : List (Nat × List Nat)) (hf : ∀ c ∈ fin, FinOK P A sgn c) :
    ∃ fs n, (∀ w, ∀ fuel, A.N ^ 2 + A.N ≤ fuel → finishAll w fuel (fin.map (toB key A)) = ⟨callsR w fs, .ok ()⟩) ∧
      Emit fs ((List.range A.N).map key) n ∧ n ≤ (fin.map fun c => c.2.length - 1).sum ∧
      ∀ (G : Type) [AddCommGroup G] (f : I × Coords K → I × Coords K → G), Upright f →
        ((trisR fs).map (tsum f)).sum = (fin.map (chainSum f A key sgn)).sum := by
  induction fin with
  | nil =>
    refine ⟨[], 0, fun w fuel _ => rfl, ⟨by simp, by simp [trisR], by simp [trisR], by simp [trisR], by simp [trisR], by simp [trisR]⟩,
      by simp, ?_⟩
    intro G _ f _; simp [trisR]
  | cons c fin ih =>
    obtain ⟨fs1, n1, h1, h2, hn1, h3⟩ := D.chain_wide (hf c (by simp))
    obtain ⟨fs2, n2, k1, k2, hn2, k3⟩ := ih fun c hc => hf c (by simp [hc])
    refine ⟨fs1 ++ fs2, n1 + n2, ?_, ⟨?_, ?_, ?_, ?_, ?_, ?_⟩, ?_, ?_⟩
    · intro w fuel hfu
      show finishMonotone w fuel (toB key A c) >>= (fun _ => finishAll w fuel (fin.map (toB key A))) = _
      rw [h1 w fuel hfu, k1 w fuel hfu, callsR_append]
      rfl
    · intro f hm
      rcases List.mem_append.1 hm with hm | hm
      · exact h2.two f hm
      · exact k2.two f hm
    · intro t ht
      rw [trisR_append] at ht
      rcases List.mem_append.1 ht with ht | ht
      · exact h2.pos t ht
      · exact k2.pos t ht
    · intro t ht
      rw [trisR_append] at ht
      rcases List.mem_append.1 ht with ht | ht
      · exact h2.mem t ht
      · exact k2.mem t ht
    · intro t ht
      rw [trisR_append] at ht
      rcases List.mem_append.1 ht with ht | ht
      · exact h2.dist t ht
      · exact k2.dist t ht
    · intro t ht
      rw [trisR_append] at ht
      rcases List.mem_append.1 ht with ht | ht
      · exact h2.flat t ht
      · exact k2.flat t ht
    · rw [trisR_append, List.length_append, h2.len, k2.len]
    · rw [List.map_cons, List.sum_cons]; omega
    · intro G _ f hfa
      rw [trisR_append, List.map_append, List.sum_append, h3 G f hfa, k3 G f hfa]; simp

/-- The triangles of a whole run. -/
theorem Dfs.mesh_wide (D : Dfs P p xy A st key lab sgn)
    (hqry : Qry st.qs st.ts A) (htsL : st.ts.length = A.M) :
    ∃ fs n k, (∀ w, ∀ fuel, topTrapezoid st.qs fuel 0 ≠ .error .timeout → A.M ≤ fuel → A.N ^ 2 + A.N ≤ fuel →
        innerTrace w fuel p xy st = ⟨callsR w fs, .ok ()⟩) ∧
      Emit fs ((List.range A.N).map key) n ∧ n ≤ k ∧ (k : Int) = 2 * ((List.range A.M).filter lab).length - A.S ∧
      ∀ (G : Type) [AddCommGroup G] (f : I × Coords K → I × Coords K → G), Upright f →
        ((trisR fs).map (tsum f)).sum = esum f ((List.range A.S).map (dirE A key sgn)) := by
  obtain ⟨fin, hrun, hfin, hpot⟩ := D.inner hqry htsL
  obtain ⟨fs, n, h1, h2, hle, h3⟩ := D.all_wide fin hfin
  refine ⟨fs, n, _, ?_, h2, hle, ?_, ?_⟩
  · intro w fuel hf0 hf1 hf
    rw [← BM.run_inner, hrun fuel hf0 hf1]
    show finishAll w fuel (fin.map (toB key A)) >>= (fun _ => FanM.lift (.ok ())) = _
    rw [h1 w fuel hf]
    show (⟨callsR w fs ++ [], .ok ()⟩ : TrM I Unit) = _
    rw [List.append_nil]
  · have := hpot Int (fun _ _ _ => 1) (fun _ => -1) (by intro s _; rfl)
    have e1 : ∀ l : List (Nat × List Nat), (∀ c ∈ l, FinOK P A sgn c) →
        finW (fun _ _ _ => (1 : Int)) (fun _ => -1) A sgn l = (((l.map fun c => c.2.length - 1).sum : Nat) : Int) := by
      intro l hl
      induction l with
      | nil => rfl
      | cons c l ih =>
        have e2 : finW (fun _ _ _ => (1 : Int)) (fun _ => -1) A sgn (c :: l) =
            (-1 + wt (fun _ _ _ => (1 : Int)) A sgn c.1 c.2) + finW (fun _ _ _ => (1 : Int)) (fun _ => -1) A sgn l := by
          simp [finW]
        rw [e2, ih fun c hc => hl c (by simp [hc]), List.map_cons, List.sum_cons]
        have e3 : wt (fun _ _ _ => (1 : Int)) A sgn c.1 c.2 = c.2.length := by
          unfold wt esum
          simp [pairs_length]
        have := (hl c (by simp)).len
        rw [e3]; push_cast; omega
    rw [e1 fin hfin] at this
    rw [this]
    simp only [List.map_const', List.sum_replicate, List.length_range, nsmul_eq_mul]
    push_cast
    ring
  · intro G _ f hf
    rw [h3 G f hf]
    replace hf := hf.anti
    let g : Bool → Nat → Nat → G := fun b u d => if b then f (key d) (key u) else f (key u) (key d)
    let β : Nat → G := fun s => f (dirE A key sgn s).1 (dirE A key sgn s).2
    have hdeg : Deg g β A sgn := by
      intro s _
      simp only [g, β, dirE]
      cases sgn s
      · simp only [Bool.false_eq_true, if_false]; rw [hf]; simp
      · simp only [if_true]; rw [hf]; simp
    have h0 := hpot G g β hdeg
    have hz : (((List.range A.M).filter lab).map fun t => g true ((A.T t).up.getD 0) ((A.T t).down.getD 0) +
        g false ((A.T t).up.getD 0) ((A.T t).down.getD 0)).sum = 0 := by
      have : ∀ l : List Nat, (l.map fun t => g true ((A.T t).up.getD 0) ((A.T t).down.getD 0) +
          g false ((A.T t).up.getD 0) ((A.T t).down.getD 0)).sum = 0 := by
        intro l
        induction l with
        | nil => rfl
        | cons t l ih =>
          rw [List.map_cons, List.sum_cons, ih]
          simp only [g, if_true, Bool.false_eq_true, if_false]
          rw [hf]; simp
      exact this _
    rw [hz, zero_add] at h0
    have e1 : (fin.map (chainSum f A key sgn)).sum = finW g β A sgn fin := by
      unfold finW
      congr 1
      refine List.map_congr_left fun c hc => ?_
      have hlast := (hfin c hc).ch.last
      unfold chainSum
      rw [cycle_esum f c.1 c.2 _ hlast]
      simp only [β, wt, g, dirE]
      cases sgn c.1
      · simp only [Bool.not_false, if_true, Bool.false_eq_true, if_false]; abel
      · simp only [Bool.not_true, Bool.false_eq_true, if_false, if_true]
        rw [esum_swap (f := fun a b => f (key a) (key b)) (fun a b => hf _ _), neg_add, hf (key (A.mn c.1))]
        abel
    rw [e1, h0]
    simp only [β, esum, List.map_map]
    rfl

end Tri
