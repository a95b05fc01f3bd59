import Verif.Proof.TouchEmit
import Verif.Proof.Filled
import Verif.Proof.Nesting
import Verif.Spec.Touch

/-!
# The run on polygons with edges that lean on others
-/

set_option linter.unusedSectionVars false

namespace Tri

variable {I V K : Type} [Field K] [LinearOrder K] [IsStrictOrderedRing K]

attribute [local instance] exact

/-! ## The plane -/

theorem edgeC_rise {a b : Coords K} (h : a.y < b.y) : edgeC a b = (a, b) := by
  unfold edgeC
  rw [if_pos (ltB_exact.2 (.inl h))]

theorem edgeC_fall {a b : Coords K} (h : b.y < a.y) : edgeC a b = (b, a) := by
  rcases edgeC_cases a b with h' | h'
  · have := below_edgeC (a := a) (b := b) fun e => by rw [e] at h; exact lt_irrefl _ h
    rw [h'] at this
    rcases this with k | k
    · exact absurd k (lt_asymm h)
    · exact absurd k.1 h.ne'
  · exact h'

theorem RightOf.freeC {a b v : Coords K} (h : RightOf (a, b) v) (hab : a ≠ b) : FreeC (edgeC a b) v := by
  rcases h with ⟨h1, h2⟩ | ⟨h1, h2⟩ | ⟨h1, h2⟩
  · rw [edgeC_rise h1]; exact .inl ⟨h1, h2⟩
  · rw [edgeC_fall h1]; exact .inl ⟨h1, h2⟩
  · have hb := below_edgeC hab
    simp only at h1 h2
    right
    have hy : (edgeC a b).1.y = a.y ∧ (edgeC a b).2.y = a.y := by
      rcases edgeC_cases a b with h | h <;> rw [h]
      · exact ⟨rfl, h1.symm⟩
      · exact ⟨h1.symm, rfl⟩
    refine ⟨by rw [hy.1, hy.2], ?_⟩
    have hx : (edgeC a b).1.x < (edgeC a b).2.x := by
      rcases hb with k | k
      · rw [hy.1, hy.2] at k; exact absurd k (lt_irrefl _)
      · exact k.2
    unfold orient
    rw [hy.1, hy.2, sub_self, zero_mul, sub_zero]
    exact mul_pos (sub_pos.2 hx) (sub_pos.2 h2)

theorem LeansOn.leanC {a b c d : Coords K} (h : LeansOn (c, d) (a, b)) (hab : a ≠ b) : LeanC (edgeC a b) (edgeC c d) := by
  have key : ∀ v, v = c ∨ v = d → v ≠ (edgeC a b).1 ∧ v ≠ (edgeC a b).2 ∧
      (FreeC (edgeC a b) v ∨ OnSeg (edgeC a b) v) := by
    intro v hcd
    obtain ⟨h1, h2, h3⟩ := h v hcd
    have hn : ¬ (v = (edgeC a b).1 ∨ v = (edgeC a b).2) := by
      rw [ends_edgeC]; exact fun h => h.elim h1 h2
    refine ⟨fun h => hn (.inl h), fun h => hn (.inr h), ?_⟩
    rcases h3 with h3 | h3
    · exact .inl (h3.freeC hab)
    · exact .inr (onSeg_edgeC.2 h3)
  exact ⟨key _ (ends_edgeC.1 (.inl rfl)), key _ (ends_edgeC.1 (.inr rfl))⟩

/-- Polygons with touching edges, with further points off the edges. -/
theorem TouchingPolys.drawn {gs : List (List (Coords K))} (h : TouchingPolys gs) {ghosts : List (Coords K)}
    (hgh : ∀ q ∈ ghosts, ∀ e ∈ gs.flatMap cycleEdges, ¬ OnSeg e q) : DrawnT (gs.flatten ++ ghosts) (sidesC gs) := by
  have hn1 : ((gs.flatMap cycleEdges).map Prod.fst).Nodup := by rw [flatMap_fst]; exact h.distinct
  have hn2 : ((gs.flatMap cycleEdges).map Prod.snd).Nodup := (flatMap_snd gs).nodup_iff.2 h.distinct
  have m1 : ∀ {e}, e ∈ gs.flatMap cycleEdges → e.1 ∈ gs.flatten := fun {e} he => by
    rw [← flatMap_fst]; exact List.mem_map.2 ⟨e, he, rfl⟩
  have m2 : ∀ {e}, e ∈ gs.flatMap cycleEdges → e.2 ∈ gs.flatten := fun {e} he =>
    (flatMap_snd gs).mem_iff.1 (List.mem_map.2 ⟨e, he, rfl⟩)
  have un : ∀ e ∈ sidesC gs, ∃ a b, (a, b) ∈ gs.flatMap cycleEdges ∧ e = edgeC a b := by
    intro e he
    obtain ⟨⟨a, b⟩, h1, rfl⟩ := List.mem_map.1 he
    exact ⟨a, b, h1, rfl⟩
  have uf : ∀ {a b c : Coords K}, (a, b) ∈ gs.flatMap cycleEdges → (a, c) ∈ gs.flatMap cycleEdges → b = c :=
    fun h1 h2 => congrArg Prod.snd (List.inj_on_of_nodup_map hn1 h1 h2 rfl)
  have us : ∀ {a b c : Coords K}, (a, c) ∈ gs.flatMap cycleEdges → (b, c) ∈ gs.flatMap cycleEdges → a = b :=
    fun h1 h2 => congrArg Prod.fst (List.inj_on_of_nodup_map hn2 h1 h2 rfl)
  have ne : ∀ {a b : Coords K}, (a, b) ∈ gs.flatMap cycleEdges → a ≠ b := by
    intro a b hab
    obtain ⟨g, hg, hg2⟩ := List.mem_flatMap.1 hab
    exact cycleEdges_ne (h.three g hg) (List.nodup_flatten.1 h.distinct |>.1 g hg) hg2
  have mt : ∀ {a b c d : Coords K}, (a, b) ∈ gs.flatMap cycleEdges → (c, d) ∈ gs.flatMap cycleEdges →
      edgeC a b ≠ edgeC c d → (∀ q, OnSeg (a, b) q → OnSeg (c, d) q → (q = a ∨ q = b) ∧ (q = c ∨ q = d)) ∨
        LeansOn (c, d) (a, b) ∨ LeansOn (a, b) (c, d) := by
    intro a b c d h1 h2 hne
    refine h.meet _ h1 _ h2 ?_
    intro he
    cases he
    exact hne rfl
  refine ⟨?_, ?_, ?_, ?_, ?_⟩
  · intro e he
    obtain ⟨a, b, hab, rfl⟩ := un e he
    apply below_edgeC
    obtain ⟨g, hg, hg2⟩ := List.mem_flatMap.1 hab
    exact cycleEdges_ne (h.three g hg) (List.nodup_flatten.1 h.distinct |>.1 g hg) hg2
  · intro e he
    obtain ⟨a, b, hab, rfl⟩ := un e he
    apply List.mem_append_left
    rcases edgeC_cases a b with h' | h' <;> rw [h']
    · exact m1 hab
    · exact m2 hab
  · intro e he
    obtain ⟨a, b, hab, rfl⟩ := un e he
    apply List.mem_append_left
    rcases edgeC_cases a b with h' | h' <;> rw [h']
    · exact m2 hab
    · exact m1 hab
  · intro e he f hf hne
    obtain ⟨a, b, hab, rfl⟩ := un e he
    obtain ⟨c, d, hcd, rfl⟩ := un f hf
    rcases mt hab hcd hne with k | k | k
    · refine .inl fun q o1 o2 => ?_
      rw [onSeg_edgeC] at o1 o2
      rw [ends_edgeC, ends_edgeC]
      exact k q o1 o2
    · exact .inr (.inl (k.leanC (ne hab)))
    · exact .inr (.inr (k.leanC (ne hcd)))
  · intro e he f hf g hg v h1 h2 h3
    obtain ⟨a, b, hab, rfl⟩ := un e he
    obtain ⟨c, d, hcd, rfl⟩ := un f hf
    obtain ⟨x, y, hxy, rfl⟩ := un g hg
    rw [ends_edgeC] at h1 h2 h3
    have k1 : ∀ {a b c : Coords K}, (a, b) ∈ gs.flatMap cycleEdges → (a, c) ∈ gs.flatMap cycleEdges →
        edgeC a b = edgeC a c := fun h1 h2 => by rw [uf h1 h2]
    have k2 : ∀ {a b c : Coords K}, (a, c) ∈ gs.flatMap cycleEdges → (b, c) ∈ gs.flatMap cycleEdges →
        edgeC a c = edgeC b c := fun h1 h2 => by rw [us h1 h2]
    rcases h1 with rfl | rfl <;> rcases h2 with rfl | rfl <;> rcases h3 with rfl | rfl
    · exact .inl (k1 hab hcd)
    · exact .inl (k1 hab hcd)
    · exact .inr (.inr (k1 hab hxy))
    · exact .inr (.inl (k2 hcd hxy))
    · exact .inr (.inl (k1 hcd hxy))
    · exact .inr (.inr (k2 hab hxy))
    · exact .inl (k2 hab hcd)
    · exact .inl (k2 hab hcd)

/-- The input in the plane. -/
theorem exists_touchCtx [DecidableEq I] {p : PolyList I V} {xy : V → Coords K} {gs : List (List (I × Coords K))}
    (hd : Describes p xy gs) (hv : TouchingPolys (gs.map (List.map Prod.snd))) {ghosts : List (Coords K)}
    (hgh : ∀ q ∈ ghosts, ∀ e ∈ (gs.map (List.map Prod.snd)).flatMap cycleEdges, ¬ OnSeg e q) :
    ∃ P : Plane K, PolysCtx P p xy gs ∧ (∀ v, P.U v ↔ v ∈ (gs.map (List.map Prod.snd)).flatten ∨ v ∈ ghosts) ∧
      (∀ e, P.E e ↔ e ∈ sidesC (gs.map (List.map Prod.snd))) ∧
      ∃ ε > 0, P.h = ht ε := by
  obtain ⟨P, hU, hE, hε⟩ := exists_bentPlane (hv.drawn hgh)
  have hfl : (gs.map (List.map Prod.snd)).flatten = gs.flatten.map Prod.snd := by rw [List.map_flatten]
  have hnd : (gs.flatten.map Prod.snd).Nodup := by rw [← hfl]; exact hv.distinct
  refine ⟨P, ⟨hd, fun g hg => ⟨?_, ?_, ?_, ?_, ?_⟩, hnd⟩, fun v => by rw [hU, List.mem_append], hE, hε⟩
  · have := hv.three _ (List.mem_map.2 ⟨g, hg, rfl⟩)
    simpa using this
  · exact (List.nodup_flatten.1 hv.distinct).1 _ (List.mem_map.2 ⟨g, hg, rfl⟩)
  · intro v hvg
    rw [hU, hfl]
    exact List.mem_append_left _ (List.mem_map.2 ⟨v, List.mem_flatten.2 ⟨g, hg, hvg⟩, rfl⟩)
  · intro v hvg
    exact coords_of_get (hd.coords g hg v hvg)
  · intro k a b ha hb
    rw [hE]
    refine List.mem_map.2 ⟨(a.2, b.2), List.mem_flatMap.2 ⟨_, List.mem_map.2 ⟨g, hg, rfl⟩, ?_⟩, rfl⟩
    refine List.mem_iff_getElem?.2 ⟨k, cycleEdges_at ?_ ?_⟩
    · rw [List.getElem?_map, ha]; rfl
    · rw [List.length_map, List.getElem?_map, hb]; rfl

/-! ## Sums -/

theorem esum_closed {α G : Type} [AddCommGroup G] (f : α → α → G) (φ : α → G) (l : List α)
    (h : ∀ a ∈ l, ∀ b ∈ l, f a b = φ b - φ a) : esum f (cycleEdges l) = 0 := by
  have hm : ∀ e ∈ cycleEdges l, e.1 ∈ l ∧ e.2 ∈ l := fun e he => by
    have := edge_mem (gs := [l]) (e := e) (by simpa using he)
    simpa using this
  have e1 : esum f (cycleEdges l) = ((cycleEdges l).map fun e => φ e.2 - φ e.1).sum := by
    unfold esum
    exact congrArg List.sum (List.map_congr_left fun e he => h _ (hm e he).1 _ (hm e he).2)
  have e2 : ∀ es : List (α × α), (es.map fun e => φ e.2 - φ e.1).sum =
      ((es.map Prod.snd).map φ).sum - ((es.map Prod.fst).map φ).sum := by
    intro es
    induction es with
    | nil => simp
    | cons e es ih => simp only [List.map_cons, List.sum_cons, ih]; abel
  have h1 := flatMap_fst' [l]
  have h2 := flatMap_snd' [l]
  simp only [List.flatMap_cons, List.flatMap_nil, List.append_nil, List.flatten_cons, List.flatten_nil] at h1 h2
  rw [e1, e2, (h2.map φ).sum_eq, h1, sub_self]

theorem upright_area : Upright (fun a b : I × Coords K => a.2.x * b.2.y - b.2.x * a.2.y) where
  anti a b := by ring
  vert l hl := by
    refine esum_closed _ (fun a => a.2.x * a.2.y) l fun a ha b hb => ?_
    simp only [hl a ha b hb]
  horz l hl := by
    refine esum_closed _ (fun a => - (a.2.x * a.2.y)) l fun a ha b hb => ?_
    simp only [hl a ha b hb]; ring

theorem upright_fy (q : Coords K) : Upright (fun a b : I × Coords K => fy q a.2 b.2) where
  anti a b := fy_anti q _ _
  vert l hl := by
    refine esum_closed _ (fun a => if q.y < a.2.y ∧ a.2.x < q.x then -1 else 0) l fun a ha b hb => ?_
    have hx := hl a ha b hb
    have ho : orient a.2 b.2 q = - ((b.2.y - a.2.y) * (q.x - b.2.x)) := by unfold orient; rw [hx]; ring
    simp only [hx]
    rcases lt_or_ge q.y a.2.y with h1 | h1 <;> rcases lt_or_ge q.y b.2.y with h2 | h2
    · rw [fy_above h1 h2]; simp [h1, h2]
    · rw [fy_down h1 h2, ho]
      have : 0 < a.2.y - b.2.y := by linarith
      have e : -((b.2.y - a.2.y) * (q.x - b.2.x)) = (a.2.y - b.2.y) * (q.x - b.2.x) := by ring
      simp only [e, mul_pos_iff_of_pos_left this, sub_pos, h1, not_lt.2 h2, true_and, false_and, if_false]
      split <;> simp
    · rw [fy_up h1 h2, ho]
      have : 0 < b.2.y - a.2.y := by linarith
      simp only [neg_lt_zero, mul_pos_iff_of_pos_left this, sub_pos, h2, not_lt.2 h1, true_and, false_and, if_false]
      split <;> simp
    · rw [fy_beneath h1 h2]; simp [not_lt.2 h1, not_lt.2 h2]
  horz l hl := by
    refine esum_closed _ (fun _ => 0) l fun a ha b hb => ?_
    have hy := hl a ha b hb
    rw [sub_self]
    rcases lt_or_ge q.y a.2.y with h1 | h1
    · exact fy_above h1 (by rw [← hy]; exact h1)
    · exact fy_beneath h1 (by rw [← hy]; exact h1)

/-- Counts the edges into `b` minus those out of `b`, with weights. -/
def cornerFn (b : Coords K) (g : Coords K → Int) (u v : I × Coords K) : Int :=
  (if v.2 = b then g u.2 else 0) - (if u.2 = b then g v.2 else 0)

theorem upright_corner {b : Coords K} {g : Coords K → Int} {k k' : Int} (h : ∀ u, u.x = b.x → u ≠ b → g u = k)
    (h' : ∀ u, u.y = b.y → u ≠ b → g u = k') : Upright (cornerFn (I := I) b g) where
  anti u v := by unfold cornerFn; omega
  vert l hl := by
    refine esum_closed _ (fun v => if v.2 = b then k else 0) l fun u hu v hv => ?_
    have hx := hl u hu v hv
    unfold cornerFn
    by_cases h1 : u.2 = b <;> by_cases h2 : v.2 = b
    · simp [h1, h2]
    · have := h v.2 (by rw [← hx, h1]) h2
      simp [h1, h2, this]
    · have := h u.2 (by rw [hx, h2]) h1
      simp [h1, h2, this]
    · simp [h1, h2]
  horz l hl := by
    refine esum_closed _ (fun v => if v.2 = b then k' else 0) l fun u hu v hv => ?_
    have hx := hl u hu v hv
    unfold cornerFn
    by_cases h1 : u.2 = b <;> by_cases h2 : v.2 = b
    · simp [h1, h2]
    · have := h' v.2 (by rw [← hx, h1]) h2
      simp [h1, h2, this]
    · have := h' u.2 (by rw [hx, h2]) h1
      simp [h1, h2, this]
    · simp [h1, h2]

/-! ## The run -/

theorem onSeg_Xh {ε : K} {e : Coords K × Coords K} {q : Coords K} (h1 : ht ε e.1 < ht ε q) (h2 : ht ε q < ht ε e.2)
    (h : Xh ε e (ht ε q) = q.x) : OnSeg e q := by
  have hd : 0 < ht ε e.2 - ht ε e.1 := by linarith
  have et : (ht ε q - ht ε e.1) / (ht ε e.2 - ht ε e.1) * (ht ε e.2 - ht ε e.1) = ht ε q - ht ε e.1 :=
    div_mul_cancel₀ _ hd.ne'
  refine ⟨(ht ε q - ht ε e.1) / (ht ε e.2 - ht ε e.1), (div_pos (by linarith) hd).le, (div_le_one hd).2 (by linarith), ?_, ?_⟩
  · rw [← h]; rfl
  · unfold Xh at h
    generalize (ht ε q - ht ε e.1) / (ht ε e.2 - ht ε e.1) = t at h et
    unfold ht at et
    rw [← h] at et
    linear_combination -et

variable {P : Plane K} {p : PolyList I V} {xy : V → Coords K} {A : Abs K} {st : St I K} {key : Nat → I × Coords K}
  {lab sgn : Nat → Bool} {gs : List (List (I × Coords K))}

/-- The crossings of the directed segments. -/
theorem dir_level_wide (hW : Whole P A) {ε : K} (hh : P.h = ht ε)
    (hkc : ∀ n < A.N, (key n).2 = A.c n) {q : Coords K} (hq : P.U q) (hoff : ∀ s < A.S, ¬ OnSeg (A.sg s) q) [DecidablePred (CrossL P A q)] :
    esum (fun a b : I × Coords K => fy q a.2 b.2) ((List.range A.S).map (dirE A key sgn)) =
      (((List.range A.S).filter fun s => CrossL P A q s).map fun s => sig (sgn s)).sum := by
  have hI := hW.inv
  have hterm : ∀ s < A.S, fy q (dirE A key sgn s).1.2 (dirE A key sgn s).2.2 = if CrossL P A q s then sig (sgn s) else 0 := by
    intro s hs
    have hE := hI.sE s hs
    have hlt := P.E_lt hE
    have hb : below (A.sg s).1 (A.sg s).2 := (P.h_lt (P.lo_U hE) (P.hi_U hE)).2 hlt
    have h1 : UpLeft q (A.sg s).1 (A.sg s).2 ↔ CrossL P A q s := by
      rw [upLeft_iff hb, P.h_lt (P.lo_U hE) hq, P.h_lt hq (P.hi_U hE)]
      have hlt' := hlt
      rw [hh] at hlt'
      unfold CrossL
      refine and_congr_right fun k1 => and_congr_right fun k2 => ?_
      have h0 : orient (A.sg s).1 (A.sg s).2 q ≠ 0 := by
        intro h0
        rw [hh] at k1 k2
        refine hoff s hs (onSeg_Xh k1 k2 (le_antisymm (not_lt.1 fun k => ?_) (not_lt.1 fun k => ?_)))
        · exact ((orient_Xh hlt' q).2 k).ne' h0
        · exact ((orient_Xh_neg hlt' q).2 k).ne h0
      have hfl : ¬ ((A.sg s).1.y = (A.sg s).2.y ∧ q.y = (A.sg s).2.y) := by
        rintro ⟨e1, e2⟩
        apply h0
        unfold orient; rw [e1, e2]; ring
      have hiff := P.left_iff hE hq k1 k2
      rw [isLeft_orient hb hfl] at hiff
      have hX := P.X_ne hE hq k1 k2
      constructor
      · intro k
        exact lt_of_le_of_ne (not_lt.1 fun h => lt_asymm k (hiff.2 h)) hX
      · intro k
        exact lt_of_le_of_ne (not_lt.1 fun h => lt_asymm k (hiff.1 h)) h0
    have h2 : ¬ UpLeft q (A.sg s).2 (A.sg s).1 := not_upLeft_rev hb
    have k1 : (key (A.mx s)).2 = (A.sg s).2 := by rw [hkc _ (hI.mxN s hs).1, (hI.mxN s hs).2]
    have k2 : (key (A.mn s)).2 = (A.sg s).1 := by rw [hkc _ (hI.mnN s hs).1, hW.mnC s hs]
    unfold dirE
    cases hsg : sgn s
    · simp only [Bool.false_eq_true, if_false, k1, k2, fy, h1, h2, sig]
      split <;> simp
    · simp only [if_true, k1, k2, fy, h1, h2, sig]
      split <;> simp
  have hgen : ∀ l : List Nat, (∀ s ∈ l, s < A.S) →
      esum (fun a b : I × Coords K => fy q a.2 b.2) (l.map (dirE A key sgn)) =
        ((l.filter fun s => CrossL P A q s).map fun s => sig (sgn s)).sum := by
    intro l hl
    induction l with
    | nil => rfl
    | cons s l ih =>
      have e1 : esum (fun a b : I × Coords K => fy q a.2 b.2) ((s :: l).map (dirE A key sgn)) =
          fy q (dirE A key sgn s).1.2 (dirE A key sgn s).2.2 +
            esum (fun a b : I × Coords K => fy q a.2 b.2) (l.map (dirE A key sgn)) := by simp [esum]
      rw [e1, ih fun x hx => hl x (by simp [hx]), hterm s (hl s (by simp)), List.filter_cons]
      by_cases h : CrossL P A q s <;> simp [h]
  exact hgen _ fun s hs => List.mem_range.1 hs

/-- At each vertex a side comes in and one goes out. -/
theorem Dfs.in_out (D : Dfs P p xy A st key lab sgn) {n : Nat} (hn : n < A.N) :
    ∃ s < A.S, ∃ s' < A.S, (dirE A key sgn s).2 = key n ∧ (dirE A key sgn s').1 = key n := by
  have W := D.whole
  have hI := W.inv
  have dT : ∀ s, sgn s = true → dirE A key sgn s = (key (A.mx s), key (A.mn s)) := fun s h => by simp [dirE, h]
  have dF : ∀ s, sgn s = false → dirE A key sgn s = (key (A.mn s), key (A.mx s)) := fun s h => by simp [dirE, h]
  rcases W.kind n hn with ⟨u, dl, dc, dr, s0, s1, k⟩ | ⟨ul, ur, dl, dr, s0, s1, k⟩ | ⟨ul, uc, ur, d, s0, s1, k⟩
  · have hdc : dc < A.M := (hI.rowD n hn dc (by rw [k.downs]; simp)).1
    have g0 := D.sgns.left dc hdc s0 k.c0
    have g1 := D.sgns.right dc hdc s1 k.c1
    cases hu : lab dc <;> rw [hu] at g0 g1
    · have t0 : sgn s0 = false := by simpa using g0.symm
      have t1 : sgn s1 = true := by simpa using g1.symm
      exact ⟨s0, k.S0, s1, k.S1, by rw [dF _ t0, k.mx0], by rw [dT _ t1, k.mx1]⟩
    · have t0 : sgn s0 = true := by simpa using g0.symm
      have t1 : sgn s1 = false := by simpa using g1.symm
      exact ⟨s1, k.S1, s0, k.S0, by rw [dF _ t1, k.mx1], by rw [dT _ t0, k.mx0]⟩
  · have hul : ul < A.M := (hI.rowU n hn ul (by rw [k.ups]; simp)).1
    have hdl : dl < A.M := (hI.rowD n hn dl (by rw [k.downs]; simp)).1
    have l := D.labs.at_I hn k
    have g0 := D.sgns.right ul hul s0 k.ul0
    have g1 := D.sgns.right dl hdl s1 k.dl1
    rw [l.2.1] at g1
    cases hu : lab ul <;> rw [hu] at g0 g1
    · have t0 : sgn s0 = true := by simpa using g0
      have t1 : sgn s1 = true := by simpa using g1
      exact ⟨s0, k.S0, s1, k.S1, by rw [dT _ t0, k.mn0], by rw [dT _ t1, k.mx1]⟩
    · have t0 : sgn s0 = false := by simpa using g0
      have t1 : sgn s1 = false := by simpa using g1
      exact ⟨s1, k.S1, s0, k.S0, by rw [dF _ t1, k.mx1], by rw [dF _ t0, k.mn0]⟩
  · have huc : uc < A.M := (hI.rowU n hn uc (by rw [k.ups]; simp)).1
    have g0 := D.sgns.left uc huc s0 k.c0
    have g1 := D.sgns.right uc huc s1 k.c1
    cases hu : lab uc <;> rw [hu] at g0 g1
    · have t0 : sgn s0 = false := by simpa using g0.symm
      have t1 : sgn s1 = true := by simpa using g1.symm
      exact ⟨s1, k.S1, s0, k.S0, by rw [dT _ t1, k.mn1], by rw [dF _ t0, k.mn0]⟩
    · have t0 : sgn s0 = true := by simpa using g0.symm
      have t1 : sgn s1 = false := by simpa using g1.symm
      exact ⟨s0, k.S0, s1, k.S1, by rw [dT _ t0, k.mn0], by rw [dF _ t1, k.mn1]⟩

/-- If at each vertex a turned edge comes in and one goes out, then consecutive edges are turned alike. -/
theorem turn_next {α : Type} {gs : List (List α)} (hn : gs.flatten.Nodup) {fwd : α × α → Bool} {e e' : α × α}
    (he : e ∈ gs.flatMap cycleEdges) (he' : e' ∈ gs.flatMap cycleEdges) (hee : e.2 = e'.1)
    (hin : ∃ x ∈ gs.flatMap cycleEdges, (turn fwd x).2 = e.2) (hout : ∃ x ∈ gs.flatMap cycleEdges, (turn fwd x).1 = e.2) :
    fwd e = fwd e' := by
  obtain ⟨x, hx, h1⟩ := hin
  obtain ⟨y, hy, h2⟩ := hout
  unfold turn at h1 h2
  cases h3 : fwd e <;> cases h4 : fwd e'
  · rfl
  · exfalso
    cases hfx : fwd x <;> simp only [hfx, if_true, if_false, Bool.false_eq_true, Prod.snd_swap] at h1
    · rw [edges_fst hn hx he' (h1.trans hee), h4] at hfx; cases hfx
    · rw [edges_snd hn hx he h1, h3] at hfx; cases hfx
  · exfalso
    cases hfy : fwd y <;> simp only [hfy, if_true, if_false, Bool.false_eq_true, Prod.fst_swap] at h2
    · rw [edges_snd hn hy he h2, h3] at hfy; cases hfy
    · rw [edges_fst hn hy he' (h2.trans hee), h4] at hfy; cases hfy
  · rfl

/-- Then all edges of a polygon are turned alike. -/
theorem turn_const {α : Type} {fwd : α × α → Bool} {g : List α}
    (h : ∀ e ∈ cycleEdges g, ∀ e' ∈ cycleEdges g, e.2 = e'.1 → fwd e = fwd e') : ∀ e ∈ cycleEdges g, fwd e = dirOf fwd g := by
  have hl : (cycleEdges g).length = g.length := by
    have := congrArg List.length (cycleEdges_fst g)
    simpa using this
  have key : ∀ (k : Nat) (e : α × α), (cycleEdges g)[k]? = some e → fwd e = dirOf fwd g := by
    intro k
    induction k with
    | zero => intro e he; rw [dirOf, he]
    | succ k ih =>
      intro e he
      have hk : k + 1 < g.length := hl ▸ (List.getElem?_eq_some_iff.1 he).1
      have hk' : k < (cycleEdges g).length := by omega
      have h1 := List.getElem?_eq_getElem hk'
      rw [← ih _ h1]
      refine (h _ (List.mem_of_getElem? h1) _ (List.mem_of_getElem? he) ?_).symm
      have e1 : (cycleEdges g)[k]? = some (g[k], g[k + 1]) :=
        cycleEdges_at (List.getElem?_eq_getElem (by omega)) (by rw [Nat.mod_eq_of_lt hk, List.getElem?_eq_getElem hk])
      have e2 : (cycleEdges g)[k + 1]? = some (g[k + 1], g[(k + 1 + 1) % g.length]'(Nat.mod_lt _ (by omega))) :=
        cycleEdges_at (List.getElem?_eq_getElem hk) (List.getElem?_eq_getElem _)
      rw [h1] at e1
      rw [he] at e2
      rw [Option.some.inj e1, Option.some.inj e2]
  intro e he
  obtain ⟨k, hk⟩ := List.mem_iff_getElem?.1 he
  exact key k e hk

variable [DecidableEq I]

/-- What the triangles `R` of the counterclockwise fans of a run have in common. -/
structure MeshedT (gs : List (List (I × Coords K))) (R : List ((I × Coords K) × (I × Coords K) × (I × Coords K)))
    (fwd : (I × Coords K) × (I × Coords K) → Bool) : Prop where
  pos : ∀ t ∈ R, 0 ≤ orientT t
  mem : ∀ t ∈ R, t.1 ∈ gs.flatten ∧ t.2.1 ∈ gs.flatten ∧ t.2.2 ∈ gs.flatten
  dist : ∀ t ∈ R, t.1.2 ≠ t.2.1.2 ∧ t.2.1.2 ≠ t.2.2.2 ∧ t.2.2.2 ≠ t.1.2
  flat : ∀ t ∈ R, orientT t = 0 → ∃ t', Rot t' t ∧ FlatTri t'.1.2 t'.2.1.2 t'.2.2.2
  sum : ∀ (G : Type) [AddCommGroup G] (f : I × Coords K → I × Coords K → G), Upright f →
    (R.map (tsum f)).sum = esum f ((gs.flatMap cycleEdges).map (turn fwd))
  same : ∀ g ∈ gs, ∀ e ∈ cycleEdges g, fwd e = dirOf fwd g

/-- The run, together with a point to look at. -/
theorem run_wide (hd : Describes p xy gs) (hv : TouchingPolys (gs.map (List.map Prod.snd))) (hne : gs ≠ []) (cfg : Cfg)
    (hcfg : cfg.Valid) {q : Coords K} (hq : OffEdges (gs.map (List.map Prod.snd)) q) :
    ∃ fs fwd, (∀ F : FanFormat I, ∀ fuel ≥ (p.elems.length + 3) ^ 2,
        triangulate cfg fuel p xy F = play F (callsR F.winding fs) (.ok ())) ∧
      (∀ f ∈ fs, 2 ≤ f.2.outer.length) ∧ MeshedT gs (trisR fs) fwd ∧
      (((trisR fs).map (tsum fun a b : I × Coords K => fy q a.2 b.2)).sum = 0 ∨
        ((trisR fs).map (tsum fun a b : I × Coords K => fy q a.2 b.2)).sum = 1) := by
  classical
  obtain ⟨w, hw1, hw2⟩ := exists_sky (gs.map (List.map Prod.snd))
  obtain ⟨P, hctx, hU, hE, ε, hε, hh⟩ := exists_touchCtx hd hv (ghosts := [q, w]) (by
    intro x hx
    rcases List.mem_cons.1 hx with rfl | hx
    · exact hq
    · rw [List.mem_singleton] at hx; subst hx; exact hw1)
  obtain ⟨N, A, st, hr, hall⟩ := trapezoidize_run hctx cfg.order cfg.mathN hcfg
  have hG := hall.glob
  have hI := hG.inv
  have hqU : P.U q := (hU q).2 (.inr (by simp))
  have hwU : P.U w := (hU w).2 (.inr (by simp))
  have hsky : Sky P A := by
    refine ⟨w, hwU, fun n hn => ?_⟩
    refine (P.h_lt (hI.cU n hn) hwU).1 (.inl ?_)
    obtain ⟨g, hg, v, hv', h⟩ := hall.cs n hn
    rw [h]
    exact hw2 _ (List.mem_flatten.2 ⟨_, List.mem_map.2 ⟨g, hg, rfl⟩, List.mem_map.2 ⟨v, hv', rfl⟩⟩)
  obtain ⟨key, lab, sgn, D, hkey⟩ := hall.dfs hctx.poly hsky hne
  have htsL : st.ts.length = A.M := hG.link.tsL
  obtain ⟨fs, n, k, hinner, hem, -, -, hsum⟩ := D.mesh_wide hG.qry htsL
  have hkm : ∀ n < A.N, key n ∈ gs.flatten := fun n hn => key_mem hd (hr cfg rfl rfl N le_rfl) D.src hkey hn
  have hdist : (gs.flatten.map (·.2)).Nodup := by
    have := hv.distinct
    rwa [← List.map_flatten] at this
  have h3 : ∀ g ∈ gs, 3 ≤ g.length := by
    intro g hg
    have := hv.three _ (List.mem_map.2 ⟨g, hg, rfl⟩)
    simpa using this
  obtain ⟨fwd, hfwd⟩ := hall.dir_perm (sgn := sgn) D.whole D.keyc hkm hdist h3
  refine ⟨fs, fwd, fun F fuel hf => ?_, hem.two, ⟨hem.pos, ?_, hem.dist, hem.flat, ?_, ?_⟩, ?_⟩
  · obtain ⟨h1, h1', h1'', h1'''⟩ := trapezoidize_early cfg hcfg p xy (fun fuel hf => hr cfg rfl rfl fuel hf) fuel hf
    have h2 := hinner F.winding fuel h1' (by rwa [htsL] at h1'') (by rwa [hG.link.nsL] at h1''')
    rw [triangulate, h1]
    simp only [Res.mapErr]
    rw [triangulate_eq_play, h2]
  · intro t ht
    have hsub : ∀ x ∈ (List.range A.N).map key, x ∈ gs.flatten := by
      intro x hx
      obtain ⟨n, hn, rfl⟩ := List.mem_map.1 hx
      exact hkm n (List.mem_range.1 hn)
    obtain ⟨a, b, c⟩ := hem.mem t ht
    exact ⟨hsub _ a, hsub _ b, hsub _ c⟩
  · intro G _ f hf
    rw [hsum G f hf, esum_perm f hfwd]
  · intro g hg
    refine turn_const fun e he e' he' hee => ?_
    have hnd : gs.flatten.Nodup := hdist.of_map _
    have hm := List.mem_flatMap.2 ⟨g, hg, he⟩
    have hD : ∀ s < A.S, ∃ x ∈ gs.flatMap cycleEdges, turn fwd x = dirE A key sgn s := fun s hs =>
      List.mem_map.1 (hfwd.mem_iff.1 (List.mem_map_of_mem (List.mem_range.2 hs)))
    obtain ⟨s, hs, h⟩ := List.mem_map.1 (hfwd.mem_iff.2 (List.mem_map_of_mem (f := turn fwd) hm))
    rw [List.mem_range] at hs
    obtain ⟨n, hn, hkn⟩ : ∃ n < A.N, key n = e.2 := by
      have h1 : e.2 = (dirE A key sgn s).1 ∨ e.2 = (dirE A key sgn s).2 := by
        rw [h]; unfold turn; cases fwd e <;> simp
      unfold dirE at h1
      cases hsg : sgn s <;> simp only [hsg, if_true, if_false, Bool.false_eq_true] at h1
      · rcases h1 with h1 | h1
        · exact ⟨_, (hI.mnN s hs).1, h1.symm⟩
        · exact ⟨_, (hI.mxN s hs).1, h1.symm⟩
      · rcases h1 with h1 | h1
        · exact ⟨_, (hI.mxN s hs).1, h1.symm⟩
        · exact ⟨_, (hI.mnN s hs).1, h1.symm⟩
    obtain ⟨s1, hs1, s2, hs2, k1, k2⟩ := D.in_out hn
    obtain ⟨x, hx, hx'⟩ := hD s1 hs1
    obtain ⟨y, hy, hy'⟩ := hD s2 hs2
    exact turn_next hnd hm (List.mem_flatMap.2 ⟨g, hg, he'⟩) hee ⟨x, hx, by rw [hx', k1, hkn]⟩ ⟨y, hy, by rw [hy', k2, hkn]⟩
  · rw [hsum Int _ (upright_fy q), dir_level_wide D.whole hh D.keyc hqU (fun s hs ho => ?_)]
    rotate_left
    · have hE' := (hE _).1 (hI.sE s hs)
      obtain ⟨e, he, h'⟩ := List.mem_map.1 hE'
      rw [← h', onSeg_edgeC] at ho
      exact hq e he ho
    have hfr := fresh_of_off hall hq
    obtain ⟨s, i, hfind, hreg⟩ := hG.root q hqU hfr
    obtain ⟨t, ht1, ht2⟩ := hG.qry.snk' s i hfind.end_sink
    rw [level_sum D.whole D.sky D.labs D.sgns hqU hfr (hG.link.lt_M ht1) hreg]
    cases lab i <;> simp [ind]

/-! ## The topmost corner -/

theorem exists_top {l : List (Coords K)} (h : l ≠ []) : ∃ m ∈ l, ∀ v ∈ l, v ≠ m → below v m := by
  induction l with
  | nil => exact absurd rfl h
  | cons a l ih =>
    by_cases hl : l = []
    · subst hl; exact ⟨a, by simp, by simp⟩
    · obtain ⟨m, hm, hv⟩ := ih hl
      by_cases ham : a = m
      · subst ham
        refine ⟨a, by simp, fun v hv' hne => ?_⟩
        rcases List.mem_cons.1 hv' with rfl | hv'
        · exact absurd rfl hne
        · exact hv v hv' hne
      rcases below_total ham with k | k
      · refine ⟨m, by simp [hm], fun v hv' hne => ?_⟩
        rcases List.mem_cons.1 hv' with rfl | hv'
        · exact k
        · exact hv v hv' hne
      · refine ⟨a, by simp, fun v hv' hne => ?_⟩
        rcases List.mem_cons.1 hv' with rfl | hv'
        · exact absurd rfl hne
        · by_cases hvm : v = m
          · rw [hvm]; exact k
          · exact below_trans (hv v hv' hvm) k

theorem TouchingPolys.corner {gs : List (List (Coords K))} (h : TouchingPolys gs) (hne : gs ≠ []) :
    ∃ (b : Coords K) (g : Coords K → Int) (k k' : Int), (∀ u, u.x = b.x → u ≠ b → g u = k) ∧ (∀ u, u.y = b.y → u ≠ b → g u = k') ∧
      ∃ e0 ∈ gs.flatMap cycleEdges, e0.2 = b ∧ e0.1 ≠ b ∧ g e0.1 = 1 ∧
        ∀ e ∈ gs.flatMap cycleEdges, e ≠ e0 → e.2 ≠ b ∧ (e.1 = b → g e.2 = 0) := by
  have hfl : gs.flatten ≠ [] := by
    obtain ⟨g, hg⟩ := List.exists_mem_of_ne_nil gs hne
    have h3 := h.three g hg
    obtain ⟨v, hv⟩ := List.exists_mem_of_ne_nil g (by rintro rfl; simp at h3)
    exact List.ne_nil_of_mem (List.mem_flatten.2 ⟨g, hg, hv⟩)
  obtain ⟨b, hb, htop⟩ := exists_top hfl
  obtain ⟨⟨b', c⟩, hbc, hb1⟩ : ∃ e ∈ gs.flatMap cycleEdges, e.1 = b := by
    rw [← flatMap_fst'] at hb
    obtain ⟨e, he, k⟩ := List.mem_map.1 hb
    exact ⟨e, he, k⟩
  obtain ⟨⟨a, b''⟩, hab, hb2⟩ : ∃ e ∈ gs.flatMap cycleEdges, e.2 = b := by
    obtain ⟨e, he, k⟩ := List.mem_map.1 ((flatMap_snd' gs).mem_iff.2 hb)
    exact ⟨e, he, k⟩
  simp only at hb1 hb2
  subst hb1 hb2
  rename Coords K => b
  have hac : a ≠ c := by
    rintro rfl
    exact edges_swap h.distinct h.three hab hbc
  have nab : a ≠ b := edges_ne h.distinct h.three hab
  have nbc : b ≠ c := edges_ne h.distinct h.three hbc
  have ha := htop a (edge_mem hab).1 nab
  have hc := htop c (edge_mem hbc).2 (Ne.symm nbc)
  have hef : (a, b) ≠ (b, c) := fun k => nab (Prod.mk.inj k).1
  have on1 : ∀ v : Coords K, OnSeg (v, b) v := fun v => ⟨0, le_rfl, zero_le_one, by simp, by simp⟩
  have no : ¬ OnSeg (a, b) c ∧ ¬ OnSeg (b, c) a := by
    rcases h.meet _ hab _ hbc hef with k | k | k
    · refine ⟨fun o => ?_, fun o => ?_⟩
      · rcases (k c o (onSeg_rev (on1 c))).1 with k | k
        · exact hac k.symm
        · exact nbc k.symm
      · rcases (k a (on1 a) o).2 with k | k
        · exact nab k
        · exact hac k
    · exact absurd rfl (k b (.inl rfl)).2.1
    · exact absurd rfl (k b (.inr rfl)).1
  have hother : ∀ g : Coords K → Int, g c = 0 → ∀ e ∈ gs.flatMap cycleEdges, e ≠ (a, b) → e.2 ≠ b ∧ (e.1 = b → g e.2 = 0) := by
    intro g hg e he hne'
    refine ⟨fun k => hne' ?_, fun k => ?_⟩
    · have hn2 : ((gs.flatMap cycleEdges).map Prod.snd).Nodup := (flatMap_snd' gs).nodup_iff.2 h.distinct
      exact List.inj_on_of_nodup_map hn2 he hab k
    · have hn1 : ((gs.flatMap cycleEdges).map Prod.fst).Nodup := by rw [flatMap_fst']; exact h.distinct
      rw [List.inj_on_of_nodup_map hn1 he hbc k]; exact hg
  by_cases hx : a.x = b.x
  · have hcx : c.x ≠ b.x := by
      intro hcx
      have ya : a.y < b.y := ha.resolve_right fun k => k.2.ne hx
      have yc : c.y < b.y := hc.resolve_right fun k => k.2.ne hcx
      rcases le_total a.y c.y with hy | hy
      · exact no.1 (onSeg_rev (onSeg_height hy yc (by unfold orient; rw [hcx, hx]; ring)))
      · exact no.2 (onSeg_height hy ya (by unfold orient; rw [hcx, hx]; ring))
    refine ⟨b, fun u => if u.x = b.x then 1 else 0, 1, 0, fun u hu _ => if_pos hu, fun u hu hn => if_neg fun k => hn (coords_ext k hu),
      _, hab, rfl, nab, if_pos hx, hother (fun u => if u.x = b.x then 1 else 0) (if_neg hcx)⟩
  by_cases hy : a.y = b.y
  · have hcy : c.y ≠ b.y := by
      intro hcy
      have xa : a.x < b.x := (ha.resolve_left fun k => k.ne hy).2
      have xc : c.x < b.x := (hc.resolve_left fun k => k.ne hcy).2
      rcases lt_trichotomy a.x c.x with k | k | k
      · exact no.1 (onSeg_flat (by rw [hy, hcy]) hcy.symm k xc)
      · exact hac (coords_ext k (by rw [hy, hcy]))
      · exact no.2 (onSeg_rev (onSeg_flat (by rw [hy, hcy]) hy.symm k xa))
    refine ⟨b, fun u => if u.y = b.y then 1 else 0, 0, 1, fun u hu hn => if_neg fun k => hn (coords_ext hu k), fun u hu _ => if_pos hu,
      _, hab, rfl, nab, if_pos hy, hother (fun u => if u.y = b.y then 1 else 0) (if_neg hcy)⟩
  · refine ⟨b, fun u => if u = a then 1 else 0, 0, 0, fun u hu _ => if_neg fun k => hx (by rw [← k, hu]),
      fun u hu _ => if_neg fun k => hy (by rw [← k, hu]), _, hab, rfl, nab, if_pos rfl, hother (fun u => if u = a then 1 else 0) (if_neg (Ne.symm hac))⟩

/-- The directed edges do not cancel at the topmost corner. -/
theorem corner_sum {b : Coords K} {g : Coords K → Int} {E : List ((I × Coords K) × (I × Coords K))} (hn : E.Nodup)
    {e0 : (I × Coords K) × (I × Coords K)} (he0 : e0 ∈ E) (h1 : e0.2.2 = b) (h2 : e0.1.2 ≠ b) (h3 : g e0.1.2 = 1)
    (h4 : ∀ e ∈ E, e ≠ e0 → e.2.2 ≠ b ∧ (e.1.2 = b → g e.2.2 = 0)) (fwd : (I × Coords K) × (I × Coords K) → Bool) :
    esum (cornerFn b g) (E.map (turn fwd)) ≠ 0 := by
  have ht : ∀ e, turn fwd e = e ∨ turn fwd e = e.swap := by
    intro e
    unfold turn
    split
    · exact .inl rfl
    · exact .inr rfl
  have hz : ∀ l : List ((I × Coords K) × (I × Coords K)), (∀ e ∈ l, e ∈ E ∧ e ≠ e0) → esum (cornerFn b g) (l.map (turn fwd)) = 0 := by
    intro l hl
    unfold esum
    refine List.sum_eq_zero fun x hx => ?_
    rw [List.map_map] at hx
    obtain ⟨e, he, rfl⟩ := List.mem_map.1 hx
    obtain ⟨k1, k2⟩ := h4 e (hl e he).1 (hl e he).2
    rw [Function.comp_apply]
    unfold cornerFn
    by_cases hb : e.1.2 = b <;> rcases ht e with h | h <;> rw [h]
    · simp [k1, hb, k2 hb]
    · simp [k1, hb, k2 hb]
    · simp [k1, hb]
    · simp [k1, hb]
  obtain ⟨l1, l2, rfl⟩ := List.append_of_mem he0
  have hnd := List.nodup_append.1 hn
  have hn1 : ∀ e ∈ l1, e ≠ e0 := fun e he => hnd.2.2 e he e0 (by simp)
  have hn2 : ∀ e ∈ l2, e ≠ e0 := fun e he k => (List.nodup_cons.1 hnd.2.1).1 (k ▸ he)
  rw [List.map_append, List.map_cons, esum_append, hz l1 fun e he => ⟨by simp [he], hn1 e he⟩]
  have e1 : esum (cornerFn b g) (turn fwd e0 :: l2.map (turn fwd)) =
      cornerFn b g (turn fwd e0).1 (turn fwd e0).2 + esum (cornerFn b g) (l2.map (turn fwd)) := by simp [esum]
  rw [e1, hz l2 fun e he => ⟨by simp [he], hn2 e he⟩]
  unfold cornerFn
  rcases ht e0 with h | h <;> rw [h] <;> simp [h1, h2, h3]

/-- The directed edges do not cancel at a corner unless both edges are on one vertical or horizontal line. -/
theorem corner_used {gs : List (List (I × Coords K))} {R : List ((I × Coords K) × (I × Coords K) × (I × Coords K))}
    {fwd : (I × Coords K) × (I × Coords K) → Bool} (hM : MeshedT gs R fwd) (hdist : (gs.flatten.map (·.2)).Nodup)
    (h3 : ∀ g ∈ gs, 3 ≤ g.length) {a b c : I × Coords K} (hab : (a, b) ∈ gs.flatMap cycleEdges)
    (hbc : (b, c) ∈ gs.flatMap cycleEdges) (hx : ¬ (a.2.x = b.2.x ∧ c.2.x = b.2.x)) (hy : ¬ (a.2.y = b.2.y ∧ c.2.y = b.2.y)) :
    ∃ t ∈ R, b = t.1 ∨ b = t.2.1 ∨ b = t.2.2 := by
  have hnd : gs.flatten.Nodup := hdist.of_map _
  have inj : ∀ {u v}, u ∈ gs.flatten → v ∈ gs.flatten → u.2 = v.2 → u = v := fun hu hv h =>
    List.inj_on_of_nodup_map hdist hu hv h
  have nab : a.2 ≠ b.2 := fun h => edges_ne hnd h3 hab (inj (edge_mem hab).1 (edge_mem hab).2 h)
  have nbc : b.2 ≠ c.2 := fun h => edges_ne hnd h3 hbc (inj (edge_mem hbc).1 (edge_mem hbc).2 h)
  have nac : a.2 ≠ c.2 := fun h => by
    obtain rfl := inj (edge_mem hab).1 (edge_mem hbc).2 h
    exact edges_swap hnd h3 hab hbc
  obtain ⟨g, k, k', g1, g2, ga, gc⟩ : ∃ (g : Coords K → Int) (k k' : Int), (∀ u, u.x = b.2.x → u ≠ b.2 → g u = k) ∧
      (∀ u, u.y = b.2.y → u ≠ b.2 → g u = k') ∧ g a.2 = 1 ∧ g c.2 = 0 := by
    by_cases ax : a.2.x = b.2.x
    · exact ⟨fun u => if u.x = b.2.x then 1 else 0, 1, 0, fun u hu _ => if_pos hu,
        fun u hu hn => if_neg fun k => hn (coords_ext k hu), if_pos ax, if_neg fun k => hx ⟨ax, k⟩⟩
    by_cases ay : a.2.y = b.2.y
    · exact ⟨fun u => if u.y = b.2.y then 1 else 0, 0, 1, fun u hu hn => if_neg fun k => hn (coords_ext hu k),
        fun u hu _ => if_pos hu, if_pos ay, if_neg fun k => hy ⟨ay, k⟩⟩
    · exact ⟨fun u => if u = a.2 then 1 else 0, 0, 0, fun u hu _ => if_neg fun k => ax (by rw [← k, hu]),
        fun u hu _ => if_neg fun k => ay (by rw [← k, hu]), if_pos rfl, if_neg (Ne.symm nac)⟩
  by_contra hno
  have h1 := hM.sum Int (cornerFn b.2 g) (upright_corner g1 g2)
  refine corner_sum (b := b.2) (g := g) (edges_nodup hnd) hab rfl nab ga (fun e he hne' => ⟨fun h => hne' ?_, fun h => ?_⟩) fwd (h1.symm.trans ?_)
  · exact edges_snd hnd he hab (inj (edge_mem he).2 (edge_mem hab).2 h)
  · rw [edges_fst hnd he hbc (inj (edge_mem he).1 (edge_mem hbc).1 h)]; exact gc
  · refine List.sum_eq_zero fun x hx => ?_
    obtain ⟨t, ht, rfl⟩ := List.mem_map.1 hx
    obtain ⟨m1, m2, m3⟩ := hM.mem t ht
    have hb := (edge_mem hab).2
    have n1 : t.1.2 ≠ b.2 := fun h => hno ⟨t, ht, .inl (inj hb m1 h.symm)⟩
    have n2 : t.2.1.2 ≠ b.2 := fun h => hno ⟨t, ht, .inr (.inl (inj hb m2 h.symm))⟩
    have n3 : t.2.2.2 ≠ b.2 := fun h => hno ⟨t, ht, .inr (.inr (inj hb m3 h.symm))⟩
    simp [tsum, cornerFn, n1, n2, n3]

/-! ## The fans -/

/-- The triangles `T` over vertices placed by `pl` fill the polygons `gI`. -/
structure MeshT (pl : I → Coords K) (gI : List (List I)) (T : List (I × I × I)) : Prop where
  pos : ∀ t ∈ T, 0 ≤ orient (pl t.1) (pl t.2.1) (pl t.2.2)
  mem : ∀ t ∈ T, t.1 ∈ gI.flatten ∧ t.2.1 ∈ gI.flatten ∧ t.2.2 ∈ gI.flatten
  dist : ∀ t ∈ T, pl t.1 ≠ pl t.2.1 ∧ pl t.2.1 ≠ pl t.2.2 ∧ pl t.2.2 ≠ pl t.1
  wind : ∀ q, OffEdges (gI.map (List.map pl)) q →
    (T.map (tsum fun a b => fy q (pl a) (pl b))).sum = if Inside (gI.map (List.map pl)) q then 1 else 0
  area : ∃ dir : List I → Bool, (T.map fun t => orient (pl t.1) (pl t.2.1) (pl t.2.2)).sum =
    (gI.map fun g => (if dir g then 1 else -1) * shoelace (g.map pl)).sum
  used : ∀ a b c, (a, b) ∈ gI.flatMap cycleEdges → (b, c) ∈ gI.flatMap cycleEdges →
    ¬ ((pl a).x = (pl b).x ∧ (pl c).x = (pl b).x) → ¬ ((pl a).y = (pl b).y ∧ (pl c).y = (pl b).y) →
    ∃ t ∈ T, b = t.1 ∨ b = t.2.1 ∨ b = t.2.2

theorem MeshT.cover {pl : I → Coords K} {gI : List (List I)} {T : List (I × I × I)} (h : MeshT pl gI T) {q : Coords K}
    (hq : OffEdges (gI.map (List.map pl)) q) (hT : ∀ t ∈ T, OffT (pl t.1) (pl t.2.1) (pl t.2.2) q) :
    (T.filter fun t => InTriangle (pl t.1, pl t.2.1, pl t.2.2) q).length = if Inside (gI.map (List.map pl)) q then 1 else 0 := by
  have h1 := count_sum h.pos hT
  rw [h.wind q hq] at h1
  split at h1 <;> rename_i hi <;> simp only [hi, if_true, if_false] <;> omega

/-- The run on polygons with touching edges. -/
theorem run_touch (hd : Describes p xy gs) (hv : TouchingPolys (gs.map (List.map Prod.snd))) (hne : gs ≠ []) (cfg : Cfg)
    (hcfg : cfg.Valid) :
    ∃ fans, Returns cfg p xy .counterclockwise fans ∧
      MeshT (place p xy) (gs.map (List.map Prod.fst)) (fans.flatMap fanTriangles) ∧
      ∀ F : FanFormat I, ∃ cs, StartsNew cs ∧ cs ≠ [] ∧ (F.winding = .counterclockwise → cs = fans.flatMap fanCalls) ∧
        ∀ fuel ≥ (p.elems.length + 3) ^ 2, triangulate cfg fuel p xy F = play F cs (.ok ()) := by
  -- what a run gives, for any point
  have key : ∀ q, OffEdges (gs.map (List.map Prod.snd)) q → ∃ fs fwd,
      (∀ F : FanFormat I, ∀ fuel ≥ (p.elems.length + 3) ^ 2, triangulate cfg fuel p xy F = play F (callsR F.winding fs) (.ok ())) ∧
      (∀ f ∈ fs, 2 ≤ f.2.outer.length) ∧ MeshedT gs (trisR fs) fwd ∧ callsR .counterclockwise fs ≠ [] ∧
      (∀ w, callsR w fs ≠ []) ∧
      Returns cfg p xy .counterclockwise (fs.map fun f => (fanR .counterclockwise f).map Prod.fst) ∧
      (trisR fs).map (mapTri Prod.fst) = (fs.map fun f => (fanR .counterclockwise f).map Prod.fst).flatMap fanTriangles ∧
      ((trisR fs).map (tsum fun a b : I × Coords K => fy q a.2 b.2)).sum =
        if Inside (gs.map (List.map Prod.snd)) q then 1 else 0 := by
    intro q hq
    obtain ⟨fs, fwd, hF, htwo, hM, hw⟩ := run_wide hd hv hne cfg hcfg hq
    have hdist : (gs.flatten.map (·.2)).Nodup := by
      have := hv.distinct
      rwa [← List.map_flatten] at this
    have h3 : ∀ g ∈ gs, 3 ≤ g.length := by
      intro g hg
      have := hv.three _ (List.mem_map.2 ⟨g, hg, rfl⟩)
      simpa using this
    have hlen : ∀ w, ∀ f ∈ fs, 3 ≤ (fanR w f).length := fun w f hf =>
      (fan_length w f.1 f.2.bt f.2.root f.2.outer (htwo f hf)).2
    have hfs : fs ≠ [] := by
      rintro rfl
      obtain ⟨b, g, k, k', g1, g2, e0, he0, c1, c2, c3, c4⟩ := hv.corner (by simpa using hne)
      rw [flatMap_cycleEdges_map] at he0 c4
      obtain ⟨e0, hm, rfl⟩ := List.mem_map.1 he0
      have h1 := hM.sum Int (cornerFn b g) (upright_corner g1 g2)
      simp only [trisR, List.map_nil, List.flatMap_nil, List.sum_nil] at h1
      refine corner_sum (edges_nodup (hdist.of_map _)) hm c1 c2 c3 (fun e he hne' => ?_) fwd h1.symm
      refine c4 (Prod.map Prod.snd Prod.snd e) (List.mem_map.2 ⟨e, he, rfl⟩) fun hk => hne' ?_
      have k1 := congrArg Prod.fst hk
      have k2 := congrArg Prod.snd hk
      exact Prod.ext (List.inj_on_of_nodup_map hdist (edge_mem he).1 (edge_mem hm).1 k1)
        (List.inj_on_of_nodup_map hdist (edge_mem he).2 (edge_mem hm).2 k2)
    have hcalls : ∀ w, callsR w fs ≠ [] := by
      intro w
      obtain ⟨f, fs', rfl⟩ := List.exists_cons_of_ne_nil hfs
      have := hlen w f (by simp)
      rcases hr : fanR w f with _ | ⟨a, _ | ⟨b, _ | ⟨c, l⟩⟩⟩
      · rw [hr] at this; simp at this
      · rw [hr] at this; simp at this
      · rw [hr] at this; simp at this
      · simp [callsR, hr, fanCalls]
    have hin : ((trisR fs).map (tsum fun a b : I × Coords K => fy q a.2 b.2)).sum =
        if Inside (gs.map (List.map Prod.snd)) q then 1 else 0 := by
      have k1 := hM.sum Int _ (upright_fy q)
      have k2 := esum_turn_parity (pl := (Prod.snd : I × Coords K → Coords K)) (fwd := fwd) q (gs.flatMap cycleEdges)
      rw [← k1, ← flatMap_cycleEdges_map] at k2
      rcases hw with hw | hw <;> rw [hw] at k2 ⊢
      · rw [if_neg]; unfold Inside; omega
      · rw [if_pos]; unfold Inside; omega
    refine ⟨fs, fwd, hF, htwo, hM, hcalls _, hcalls, ⟨?_, (p.elems.length + 3) ^ 2, fun fuel hf => ?_⟩, ?_, hin⟩
    · intro f hf
      obtain ⟨f', hf', rfl⟩ := List.mem_map.1 hf
      simpa using hlen _ f' hf'
    · rw [hF (recorder I .counterclockwise) fuel hf]
      have hs : StartsNew (callsR Winding.counterclockwise fs) := startsNew_fans _
      show (play (recorder I .counterclockwise) (callsR .counterclockwise fs) (.ok ())).2 = _
      rw [play_recorder _ _ hs]
      have := hcalls .counterclockwise
      change recOutcome (callsR .counterclockwise fs) (.ok ()) = .ok (callsR .counterclockwise fs)
      rcases hc : callsR Winding.counterclockwise fs with _ | ⟨c, cs⟩
      · exact absurd hc this
      · rfl
    · unfold trisR
      rw [List.map_flatMap, List.flatMap_map, List.flatMap_map]
      simp only [fanTriangles_map]
  have toI : ∀ {R : List ((I × Coords K) × (I × Coords K) × (I × Coords K))} {fwd}, MeshedT gs R fwd →
      R = (R.map (mapTri Prod.fst)).map (mapTri fun i => (i, place p xy i)) := by
    intro R fwd h
    rw [List.map_map]
    conv_lhs => rw [← List.map_id R]
    refine List.map_congr_left fun t ht => ?_
    obtain ⟨h1, h2, h3⟩ := h.mem t ht
    simp only [Function.comp_apply, mapTri, place_of hd h1, place_of hd h2, place_of hd h3, id]
  obtain ⟨w, hw, -⟩ := exists_sky (gs.map (List.map Prod.snd))
  obtain ⟨fs, fwd, hF, htwo, hM, -, hcalls, hret, htri, -⟩ := key w hw
  refine ⟨_, hret, ⟨?_, ?_, ?_, ?_, ?_, ?_⟩, fun F => ⟨callsR F.winding fs, startsNew_fans _, hcalls _, ?_, fun fuel hf => hF F fuel hf⟩⟩
  · rw [← htri]
    intro t ht
    obtain ⟨t', ht', rfl⟩ := List.mem_map.1 ht
    obtain ⟨h1, h2, h3⟩ := hM.mem t' ht'
    have := hM.pos t' ht'
    simp only [mapTri, place_of hd h1, place_of hd h2, place_of hd h3]
    exact this
  · rw [← htri]
    intro t ht
    obtain ⟨t', ht', rfl⟩ := List.mem_map.1 ht
    obtain ⟨h1, h2, h3⟩ := hM.mem t' ht'
    rw [← List.map_flatten]
    exact ⟨List.mem_map_of_mem h1, List.mem_map_of_mem h2, List.mem_map_of_mem h3⟩
  · rw [← htri]
    intro t ht
    obtain ⟨t', ht', rfl⟩ := List.mem_map.1 ht
    obtain ⟨h1, h2, h3⟩ := hM.mem t' ht'
    simp only [mapTri, place_of hd h1, place_of hd h2, place_of hd h3]
    exact hM.dist t' ht'
  · intro q hq
    rw [placed_map hd] at hq ⊢
    obtain ⟨fs', fwd', hF', htwo', hM', -, hcalls', hret', htri', hwind⟩ := key q hq
    rw [hret.unique hret', ← htri']
    have e1 := toI hM'
    rw [e1, List.map_map] at hwind
    exact hwind
  · have hg0 : ∀ g ∈ gs, (g.map Prod.fst).map (fun i => (i, place p xy i)) = g := by
      intro g hg
      rw [List.map_map]
      conv_rhs => rw [← List.map_id g]
      exact List.map_congr_left fun v hv => by
        simp only [Function.comp_apply, place_of hd (List.mem_flatten.2 ⟨g, hg, hv⟩), id]
    refine ⟨fun g => dirOf fwd (g.map fun i => (i, place p xy i)), ?_⟩
    have h1 := hM.sum K _ upright_area
    have e1 : (trisR fs).map (tsum fun a b : I × Coords K => a.2.x * b.2.y - b.2.x * a.2.y) =
        ((trisR fs).map (mapTri Prod.fst)).map fun t => orient (place p xy t.1) (place p xy t.2.1) (place p xy t.2.2) := by
      rw [List.map_map]
      refine List.map_congr_left fun t ht => ?_
      obtain ⟨h1, h2, h3⟩ := hM.mem t ht
      simp only [Function.comp_apply, mapTri, place_of hd h1, place_of hd h2, place_of hd h3]
      exact tsum_cross _ _ _
    rw [← htri, ← e1, h1, List.map_flatMap, esum_flatMap, List.map_map]
    refine congrArg List.sum (List.map_congr_left fun g hg => ?_)
    simp only [Function.comp_apply, hg0 g hg]
    rw [esum_dir (dirOf fwd g) (fun a b : I × Coords K => a.2.x * b.2.y - b.2.x * a.2.y) (fun a b => cross_anti _ _) (hM.same g hg)]
    congr 1
    have e2 : (g.map Prod.fst).map (place p xy) = g.map Prod.snd := by
      rw [List.map_map]
      exact List.map_congr_left fun v hv => place_of hd (List.mem_flatten.2 ⟨g, hg, hv⟩)
    rw [e2]
    unfold shoelace esum
    rw [cycleEdges_map, List.map_map]
    rfl
  · have hdist : (gs.flatten.map (·.2)).Nodup := by
      have := hv.distinct
      rwa [← List.map_flatten] at this
    have h3 : ∀ g ∈ gs, 3 ≤ g.length := by
      intro g hg
      have := hv.three _ (List.mem_map.2 ⟨g, hg, rfl⟩)
      simpa using this
    intro a b c kab kbc hx hy
    rw [flatMap_cycleEdges_map] at kab kbc
    obtain ⟨⟨a', b'⟩, hab, e1⟩ := List.mem_map.1 kab
    obtain ⟨⟨b'', c'⟩, hbc, e2⟩ := List.mem_map.1 kbc
    simp only [Prod.map_apply, Prod.mk.injEq] at e1 e2
    obtain ⟨rfl, rfl⟩ := e1
    obtain ⟨e3, rfl⟩ := e2
    have p1 := place_of hd (edge_mem hab).1
    have p2 := place_of hd (edge_mem hab).2
    have p3 := place_of hd (edge_mem hbc).1
    have p4 := place_of hd (edge_mem hbc).2
    have : b'' = b' := Prod.ext e3 (by rw [← p3, ← p2, e3])
    subst this
    rw [p1, p2, p4] at hx hy
    obtain ⟨t, ht, h⟩ := corner_used hM hdist h3 hab hbc hx hy
    rw [← htri]
    exact ⟨_, List.mem_map_of_mem ht, h.imp (congrArg _) fun h => h.imp (congrArg _) (congrArg _)⟩
  · intro h
    rw [h]; rfl

end Tri
