import Verif.Proof.Stage
import Verif.Proof.ValidPlane
import Verif.Proof.Descending
import Verif.Proof.ChainSum
import Verif.Proof.Describe
import Verif.Spec.Zigzag
import Mathlib.Tactic.Ring
import Mathlib.Tactic.Linarith
import Mathlib.Tactic.NormNum

/-!
# The zigzag polygons and the number of paths in their search structure
-/

set_option linter.unusedSectionVars false

namespace Tri

theorem zigzag_length (k : Nat) : (zigzag k).length = 4 * k + 3 := by simp [zigzag]

theorem zigP_x (k j : Nat) : (zigP k j).x = j := rfl

theorem zigP_0 (k i : Nat) : (zigP k (4 * i)).y = i - (k + 3) := by
  simp [zigP]

theorem zigP_1 (k i : Nat) : (zigP k (4 * i + 1)).y = k + 3 - i := by
  have h1 : (4 * i + 1) % 4 = 1 := by omega
  have h2 : (4 * i + 1) / 4 = i := by omega
  simp [zigP, h1, h2]

theorem zigP_2 {k i : Nat} (h : i < k) : (zigP k (4 * i + 2)).y = 1 := by
  have h1 : (4 * i + 2) % 4 = 2 := by omega
  have h2 : ¬ (4 * i + 2) = 4 * k + 2 := by omega
  simp only [zigP, h1, if_neg h2]; norm_num

theorem zigP_3 (k i : Nat) : (zigP k (4 * i + 3)).y = -1 := by
  have h1 : (4 * i + 3) % 4 = 3 := by omega
  simp only [zigP, h1]; norm_num

theorem zigP_last (k : Nat) : (zigP k (4 * k + 2)).y = -(k + 3) := by
  have h1 : (4 * k + 2) % 4 = 2 := by omega
  simp only [zigP, h1]; norm_num

/-- All vertices but the first and the last are above these. -/
theorem zigP_above {k j : Nat} (h0 : 0 < j) (hj : j < 4 * k + 2) : -((k : ℚ) + 3) < (zigP k j).y := by
  obtain ⟨i, r, hr, rfl⟩ : ∃ i r, r < 4 ∧ j = 4 * i + r := ⟨j / 4, j % 4, by omega, by omega⟩
  have hk : (0 : ℚ) ≤ k := Nat.cast_nonneg k
  rcases (show r = 0 ∨ r = 1 ∨ r = 2 ∨ r = 3 by omega) with rfl | rfl | rfl | rfl
  · have : (1 : ℚ) ≤ i := by exact_mod_cast (show 1 ≤ i by omega)
    rw [Nat.add_zero, zigP_0]; linarith
  · have : (i : ℚ) ≤ k := by exact_mod_cast (show i ≤ k by omega)
    rw [zigP_1]; linarith
  · rw [zigP_2 (by omega)]; linarith
  · rw [zigP_3]; linarith

/-! ### The polygons are valid -/

section
variable {K : Type} [Field K] [LinearOrder K] [IsStrictOrderedRing K]

/-- A quarter turn. -/
def quarterTurn (v : Coords K) : Coords K := ⟨v.y, -v.x⟩

theorem quarterTurn_inj {a b : Coords K} (h : quarterTurn a = quarterTurn b) : a = b := by
  cases a; cases b
  simp only [quarterTurn, Coords.mk.injEq, neg_inj] at h
  rw [h.1, h.2]

theorem OnSeg.turn {e : Coords K × Coords K} {q : Coords K} (h : OnSeg e q) :
    OnSeg (Prod.map quarterTurn quarterTurn e) (quarterTurn q) := by
  obtain ⟨t, h0, h1, hx, hy⟩ := h
  exact ⟨t, h0, h1, hy, by simp only [quarterTurn, Prod.map]; rw [hx]; ring⟩

theorem ValidPolys.of_turn {g : List (Coords K)} (h : ValidPolys [g.map quarterTurn]) : ValidPolys [g] := by
  refine ⟨?_, ?_, ?_⟩
  · simpa using h.three
  · have := h.distinct
    simp only [List.flatten_cons, List.flatten_nil, List.append_nil] at this ⊢
    exact this.of_map
  · intro e he f hf hne q h1 h2
    simp only [List.flatMap_cons, List.flatMap_nil, List.append_nil] at he hf
    have key : ∀ e ∈ cycleEdges g, Prod.map quarterTurn quarterTurn e ∈ [g.map quarterTurn].flatMap cycleEdges := by
      intro e he
      simp only [List.flatMap_cons, List.flatMap_nil, List.append_nil]
      rw [cycleEdges_map]
      exact List.mem_map.2 ⟨e, he, rfl⟩
    obtain ⟨r1, r2⟩ := h.meet _ (key e he) _ (key f hf) (fun hc => hne (Prod.ext (quarterTurn_inj (Prod.ext_iff.1 hc).1)
      (quarterTurn_inj (Prod.ext_iff.1 hc).2))) _ h1.turn h2.turn
    exact ⟨r1.imp quarterTurn_inj quarterTurn_inj, r2.imp quarterTurn_inj quarterTurn_inj⟩

end

theorem zigzag_split (k : Nat) : (zigzag k).map quarterTurn =
    quarterTurn (zigP k 0) :: ((List.range (4 * k + 1)).map fun j => quarterTurn (zigP k (j + 1))) ++
      [quarterTurn (zigP k (4 * k + 2))] := by
  simp only [zigzag, List.map_map, List.range_succ (n := 4 * k + 2), List.range_succ_eq_map (n := 4 * k + 1), List.map_append, List.map_cons,
    List.map_nil, Function.comp_def]

theorem zigzag_valid (k : Nat) : ValidPolys [zigzag k] := by
  refine ValidPolys.of_turn ?_
  have hd : ((zigzag k).map quarterTurn).Pairwise fun a b => b.y < a.y := by
    rw [zigzag, List.map_map]
    refine List.pairwise_map.2 (List.pairwise_lt_range.imp fun {i j} h => ?_)
    simpa [quarterTurn, zigP_x] using h
  rw [zigzag_split] at hd ⊢
  refine descending_valid (by simp) hd fun v hv => ?_
  obtain ⟨j, hj, rfl⟩ := List.mem_map.1 hv
  have h1 := zigP_above (k := k) (j := j + 1) (by omega) (by have := List.mem_range.1 hj; omega)
  have h2 : (zigP k 0).y = -((k : ℚ) + 3) := by have := zigP_0 k 0; rw [Nat.mul_zero] at this; rw [this]; push_cast; ring
  have h3 := zigP_last k
  simp only [orient, quarterTurn, zigP_x, h2, h3]
  have : (0 : ℚ) ≤ k := Nat.cast_nonneg k
  push_cast
  nlinarith

/-! ### The order of the sides -/

theorem evenOdd_perm (n : Nat) : (evenOdd n).Perm (List.range n) := by
  refine (List.perm_ext_iff_of_nodup ?_ List.nodup_range).2 fun a => ?_
  · refine List.nodup_append'.2 ⟨List.nodup_range.map fun a b h => ?_, List.nodup_range.map fun a b h => ?_, ?_⟩
    · omega
    · omega
    · intro a h1 h2
      obtain ⟨x, -, rfl⟩ := List.mem_map.1 h1
      obtain ⟨y, -, h⟩ := List.mem_map.1 h2
      omega
  · simp only [evenOdd, List.mem_append, List.mem_map, List.mem_range]
    constructor
    · rintro (⟨x, hx, rfl⟩ | ⟨x, hx, rfl⟩) <;> omega
    · intro h
      rcases Nat.even_or_odd' a with ⟨c, rfl | rfl⟩
      · exact .inl ⟨c, by omega, rfl⟩
      · exact .inr ⟨c, by omega, rfl⟩

/-! ### Where the points far to the right are -/

section
variable {K : Type} [Field K] [LinearOrder K] [IsStrictOrderedRing K]

theorem Xh_between {ε H : K} {e : Coords K × Coords K} (h1 : ht ε e.1 < H) (h2 : H < ht ε e.2) :
    ∃ t, 0 ≤ t ∧ t ≤ 1 ∧ Xh ε e H = (1 - t) * e.1.x + t * e.2.x := by
  have h3 : 0 < ht ε e.2 - ht ε e.1 := sub_pos.2 (h1.trans h2)
  refine ⟨(H - ht ε e.1) / (ht ε e.2 - ht ε e.1), div_nonneg (sub_nonneg.2 h1.le) h3.le,
    (div_le_one h3).2 (sub_le_sub_right h2.le _), ?_⟩
  rw [Xh]; ring

theorem Xh_lt {ε H B : K} {e : Coords K × Coords K} (h1 : ht ε e.1 < H) (h2 : H < ht ε e.2) (b1 : e.1.x < B)
    (b2 : e.2.x < B) : Xh ε e H < B := by
  obtain ⟨t, t0, t1, h⟩ := Xh_between h1 h2
  rw [h]
  rcases eq_or_lt_of_le t0 with rfl | t0
  · simpa using b1
  · nlinarith [mul_lt_mul_of_pos_left b2 t0, mul_le_mul_of_nonneg_left b1.le (sub_nonneg.2 t1)]

theorem lt_Xh {ε H B : K} {e : Coords K × Coords K} (h1 : ht ε e.1 < H) (h2 : H < ht ε e.2) (b1 : B < e.1.x)
    (b2 : B < e.2.x) : B < Xh ε e H := by
  obtain ⟨t, t0, t1, h⟩ := Xh_between h1 h2
  rw [h]
  rcases eq_or_lt_of_le t0 with rfl | t0
  · simpa using b1
  · nlinarith [mul_lt_mul_of_pos_left b2 t0, mul_le_mul_of_nonneg_left b1.le (sub_nonneg.2 t1)]

end

attribute [local instance] exact

/-- The points beside the strokes. -/
def zigG (k : Nat) (y : ℚ) : Coords ℚ := ⟨4 * k + 3, y⟩

/-- The plane of a zigzag polygon. -/
structure ZigCtx (k : Nat) (P : Plane ℚ) (p : PolyList Nat (Coords ℚ)) (xy : Coords ℚ → Coords ℚ) : Prop where
  ctx : PolyCtx P p xy (indexed (zigzag k))
  lt : ∀ {e : Coords ℚ × Coords ℚ} {v : Coords ℚ} {B : ℚ}, P.h e.1 < P.h v → P.h v < P.h e.2 → e.1.x < B → e.2.x < B → P.X e v < B
  gt : ∀ {e : Coords ℚ × Coords ℚ} {v : Coords ℚ} {B : ℚ}, P.h e.1 < P.h v → P.h v < P.h e.2 → B < e.1.x → B < e.2.x → B < P.X e v
  U : P.U (zigG k 2) ∧ P.U (zigG k 0) ∧ P.U (zigG k (-2))

theorem zig_get {k j : Nat} {v : Nat × Coords ℚ} (h : (indexed (zigzag k))[j]? = some v) : v.2 = zigP k j ∧ j < 4 * k + 3 := by
  have h1 : ((indexed (zigzag k)).map Prod.snd)[j]? = some v.2 := by rw [List.getElem?_map, h]; rfl
  rw [indexed_snd, zigzag, List.getElem?_map, Option.map_eq_some_iff] at h1
  obtain ⟨i, hi, h2⟩ := h1
  obtain ⟨hl, rfl⟩ := List.getElem?_eq_some_iff.1 hi
  rw [List.getElem_range] at h2
  exact ⟨h2.symm, by simpa using hl⟩

theorem zig_mem {k : Nat} {v : Nat × Coords ℚ} (h : v ∈ indexed (zigzag k)) : ∃ j < 4 * k + 3, v.2 = zigP k j := by
  obtain ⟨j, hj⟩ := List.mem_iff_getElem?.1 h
  exact ⟨j, (zig_get hj).2, (zig_get hj).1⟩

theorem indexed_length {K : Type} (l : List (Coords K)) : (indexed l).length = l.length := by
  simp [indexed]

/-- A side that is not the last one. -/
theorem zig_side {k j : Nat} {e : Coords ℚ × Coords ℚ} (hj : j < 4 * k + 2) (h : SideIs (indexed (zigzag k)) j e) :
    e = edgeC (zigP k j) (zigP k (j + 1)) := by
  obtain ⟨a, b, h1, h2, rfl⟩ := h
  rw [indexed_length, zigzag_length, Nat.mod_eq_of_lt (by omega)] at h2
  rw [(zig_get h1).1, (zig_get h2).1]

/-- The ends of any side are left of the points. -/
theorem zig_side_x {k j : Nat} {e : Coords ℚ × Coords ℚ} (h : SideIs (indexed (zigzag k)) j e) :
    e.1.x < 4 * k + 3 ∧ e.2.x < 4 * k + 3 := by
  obtain ⟨a, b, h1, h2, rfl⟩ := h
  obtain ⟨e1, l1⟩ := zig_get h1
  obtain ⟨e2, l2⟩ := zig_get h2
  rw [e1, e2]
  have a1 : (zigP k j).x < 4 * k + 3 := by rw [zigP_x]; exact_mod_cast l1
  have a2 : (zigP k ((j + 1) % (indexed (zigzag k)).length)).x < 4 * k + 3 := by rw [zigP_x]; exact_mod_cast l2
  rcases edgeC_cases (zigP k j) (zigP k ((j + 1) % (indexed (zigzag k)).length)) with h | h <;> rw [h] <;> exact ⟨by assumption, by assumption⟩

theorem zigG_ne {k : Nat} {y : ℚ} : ∀ v ∈ indexed (zigzag k), v.2 ≠ zigG k y := by
  intro v hv he
  obtain ⟨j, hj, h⟩ := zig_mem hv
  have : (zigP k j).x = (zigG k y).x := by rw [← h, he]
  rw [zigP_x, zigG] at this
  simp only at this
  have h2 : j = 4 * k + 3 := by exact_mod_cast this
  omega

variable {k : Nat} {P : Plane ℚ} {p : PolyList Nat (Coords ℚ)} {xy : Coords ℚ → Coords ℚ}
variable {done : List Nat} {A A' : Abs ℚ} {l l' : St.PolyLoop Nat ℚ}

theorem Stage.far (hz : ZigCtx k P p xy) (h : Stage P p xy (indexed (zigzag k)) done A l) (y : ℚ) : Far P A (zigG k y) := by
  intro i hi h1 h2
  obtain ⟨j, -, hs⟩ := h.edge hi
  obtain ⟨b1, b2⟩ := zig_side_x hs
  exact hz.lt h1 h2 b1 b2

theorem ZigCtx.PU (hz : ZigCtx k P p xy) {j : Nat} (hj : j < 4 * k + 3) : P.U (zigP k j) := by
  have hl : j < (indexed (zigzag k)).length := by rw [indexed_length, zigzag_length]; exact hj
  have := hz.ctx.U _ (List.getElem_mem hl)
  rwa [(zig_get (List.getElem?_eq_getElem hl)).1] at this

theorem edgeC_up {a b : Coords ℚ} (h : a.y < b.y) : edgeC a b = (a, b) := by
  rw [edgeC, if_pos (ltB_exact.2 (.inl h))]

theorem edgeC_down {a b : Coords ℚ} (h : b.y < a.y) : edgeC a b = (b, a) := by
  rw [edgeC, if_neg (fun hc => ?_)]
  rcases ltB_exact.1 hc with h1 | h1
  · exact absurd h h1.not_gt
  · exact absurd h1.1 h.ne'

theorem zig_long {k i : Nat} (h : i ≤ k) : edgeC (zigP k (4 * i)) (zigP k (4 * i + 1)) = (zigP k (4 * i), zigP k (4 * i + 1)) := by
  refine edgeC_up ?_
  have : (i : ℚ) ≤ k := by exact_mod_cast h
  rw [zigP_0, zigP_1]; linarith

theorem zig_short {k i : Nat} (h : i < k) :
    edgeC (zigP k (4 * i + 2)) (zigP k (4 * i + 3)) = (zigP k (4 * i + 3), zigP k (4 * i + 2)) := by
  refine edgeC_down ?_
  rw [zigP_2 h, zigP_3]; norm_num

/-- The first `m` sides with even numbers. -/
def evens (m : Nat) : List Nat := (List.range m).map (2 * ·)

theorem evens_succ (m : Nat) : evens (m + 1) = evens m ++ [2 * m] := by simp [evens, List.range_succ]

theorem mem_evens {m j : Nat} : j ∈ evens m ↔ ∃ t < m, j = 2 * t := by
  simp [evens, eq_comm]

/-- After a short stroke, the three points are in different trapezoids. -/
theorem zig_apart (hz : ZigCtx k P p xy) {i : Nat} (hi : i < k) (h : Stage P p xy (indexed (zigzag k)) (evens (2 * i + 2)) A l) :
    (∀ t < A.M, Region P A t (zigG k 2) → ¬ Region P A t (zigG k 0)) ∧
    (∀ t < A.M, Region P A t (zigG k 2) → ¬ Region P A t (zigG k (-2))) ∧
    (∀ t < A.M, Region P A t (zigG k 0) → ¬ Region P A t (zigG k (-2))) := by
  obtain ⟨U1, U2, U3⟩ := hz.U
  have Uv := hz.PU (j := 4 * i + 2) (by omega)
  have Uw := hz.PU (j := 4 * i + 3) (by omega)
  have yv := zigP_2 hi
  have yw := zigP_3 k i
  have hside : SideIs (indexed (zigzag k)) (4 * i + 2) (zigP k (4 * i + 3), zigP k (4 * i + 2)) := by
    have hl : (indexed (zigzag k)).length = 4 * k + 3 := by rw [indexed_length, zigzag_length]
    have l1 : 4 * i + 2 < (indexed (zigzag k)).length := by omega
    have l2 : (4 * i + 2 + 1) % (indexed (zigzag k)).length < (indexed (zigzag k)).length := Nat.mod_lt _ (by omega)
    have e : SideIs (indexed (zigzag k)) (4 * i + 2) _ := ⟨_, _, List.getElem?_eq_getElem l1, List.getElem?_eq_getElem l2, rfl⟩
    have e2 := zig_side (by omega) e
    rw [zig_short hi] at e2
    rwa [e2] at e
  have hin : 4 * i + 2 ∈ evens (2 * i + 2) := mem_evens.2 ⟨2 * i + 1, by omega, by omega⟩
  have Vv : Verts A (zigP k (4 * i + 2)) := h.vert.2 ⟨_, hin, _, hside, .inr rfl⟩
  have Vw : Verts A (zigP k (4 * i + 3)) := h.vert.2 ⟨_, hin, _, hside, .inl rfl⟩
  -- the sides other than the last stroke are left of it
  have key : ∀ n < A.S, A.sg n = (zigP k (4 * i + 3), zigP k (4 * i + 2)) ∨
      ((A.sg n).1.x < (4 * i + 2 : ℚ) ∧ (A.sg n).2.x < (4 * i + 2 : ℚ)) := by
    intro n hn
    obtain ⟨j, hj, hs⟩ := h.edge hn
    obtain ⟨t, ht, rfl⟩ := mem_evens.1 hj
    have e := zig_side (by omega) hs
    rcases (show t = 2 * i + 1 ∨ t ≤ 2 * i by omega) with rfl | ht'
    · left
      rw [e, show 2 * (2 * i + 1) = 4 * i + 2 by ring, zig_short hi]
    · right
      have a1 : (zigP k (2 * t)).x < 4 * i + 2 := by
        rw [zigP_x]; exact_mod_cast (show 2 * t < 4 * i + 2 by omega)
      have a2 : (zigP k (2 * t + 1)).x < 4 * i + 2 := by
        rw [zigP_x]; exact_mod_cast (show 2 * t + 1 < 4 * i + 2 by omega)
      rw [e]
      rcases edgeC_cases (zigP k (2 * t)) (zigP k (2 * t + 1)) with h | h <;> rw [h] <;> exact ⟨by assumption, by assumption⟩
  have hv2 : P.h (zigP k (4 * i + 2)) < P.h (zigG k 2) := (P.h_lt Uv U1).1 (.inl (by rw [yv]; show (1 : ℚ) < 2; norm_num))
  have hv0 : P.h (zigG k 0) < P.h (zigP k (4 * i + 2)) := (P.h_lt U2 Uv).1 (.inl (by rw [yv]; show (0 : ℚ) < 1; norm_num))
  have hw0 : P.h (zigP k (4 * i + 3)) < P.h (zigG k 0) := (P.h_lt Uw U2).1 (.inl (by rw [yw]; show (-1 : ℚ) < 0; norm_num))
  have hw2 : P.h (zigG k (-2)) < P.h (zigP k (4 * i + 3)) := (P.h_lt U3 Uw).1 (.inl (by rw [yw]; show (-2 : ℚ) < -1; norm_num))
  refine ⟨Far.apart h.done (h.far hz 2) Vv hv0 hv2 ?_, Far.apart h.done (h.far hz 2) Vv (hw2.trans (hw0.trans hv0)) hv2 ?_,
    Far.apart h.done (h.far hz 0) Vw hw2 hw0 ?_⟩
  · intro n hn h1 h2
    rcases key n hn with e | ⟨b1, b2⟩
    · rw [e] at h2; exact absurd hv2 h2.not_gt
    · rw [zigP_x]; push_cast
      exact hz.lt (h1.trans hv0) (hv2.trans h2) b1 b2
  · intro n hn h1 h2
    rcases key n hn with e | ⟨b1, b2⟩
    · rw [e] at h2; exact absurd hv2 h2.not_gt
    · rw [zigP_x]; push_cast
      exact hz.lt (h1.trans (hw2.trans (hw0.trans hv0))) (hv2.trans h2) b1 b2
  · intro n hn h1 h2
    rcases key n hn with e | ⟨b1, b2⟩
    · rw [e] at h1; exact absurd hw2 h1.not_gt
    · rw [zigP_x]; push_cast
      exact hz.lt (h1.trans hw2) (hw0.trans h2) (by linarith) (by linarith)

/-- After a long stroke, two of the points are in the same trapezoid. -/
theorem zig_same (hz : ZigCtx k P p xy) {i : Nat} (hi : i ≤ k) (h : Stage P p xy (indexed (zigzag k)) (evens (2 * i + 1)) A l)
    {y y' : ℚ} (hy : -2 ≤ y ∧ y ≤ 2) (hy' : -2 ≤ y' ∧ y' ≤ 2) (hU : P.U (zigG k y)) (hU' : P.U (zigG k y')) :
    ∀ t < A.M, ∀ t' < A.M, Region P A t (zigG k y) → Region P A t' (zigG k y') → t = t' := by
  have hik : (i : ℚ) ≤ k := by exact_mod_cast hi
  have hi0 : (0 : ℚ) ≤ i := Nat.cast_nonneg i
  have Uv := hz.PU (j := 4 * i) (by omega)
  have Uw := hz.PU (j := 4 * i + 1) (by omega)
  have yv := zigP_0 k i
  have yw := zigP_1 k i
  have hside : SideIs (indexed (zigzag k)) (4 * i) (zigP k (4 * i), zigP k (4 * i + 1)) := by
    have hl : (indexed (zigzag k)).length = 4 * k + 3 := by rw [indexed_length, zigzag_length]
    have l1 : 4 * i < (indexed (zigzag k)).length := by omega
    have l2 : (4 * i + 1) % (indexed (zigzag k)).length < (indexed (zigzag k)).length := Nat.mod_lt _ (by omega)
    have e : SideIs (indexed (zigzag k)) (4 * i) _ := ⟨_, _, List.getElem?_eq_getElem l1, List.getElem?_eq_getElem l2, rfl⟩
    have e2 := zig_side (by omega) e
    rw [zig_long hi] at e2
    rwa [e2] at e
  have hin : 4 * i ∈ evens (2 * i + 1) := mem_evens.2 ⟨2 * i, by omega, by omega⟩
  obtain ⟨j, hj, hsg⟩ := h.run.has _ hin _ hside
  have lo : ∀ {z : ℚ}, -2 ≤ z → P.U (zigG k z) → P.h (zigP k (4 * i)) < P.h (zigG k z) := fun {z} hz' hu =>
    (P.h_lt Uv hu).1 (.inl (by rw [yv]; show (i : ℚ) - (k + 3) < z; linarith))
  have hi' : ∀ {z : ℚ}, z ≤ 2 → P.U (zigG k z) → P.h (zigG k z) < P.h (zigP k (4 * i + 1)) := fun {z} hz' hu =>
    (P.h_lt hu Uw).1 (.inl (by rw [yw]; show z < (k : ℚ) + 3 - i; linarith))
  have nV : ∀ z, ¬ Verts A (zigG k z) := by
    rintro z ⟨n, hn, e⟩
    exact h.fresh zigG_ne n hn e
  refine Far.same h.done hU hU' (nV _) (nV _) (h.far hz y) (h.far hz y') hj ?_ ?_ ?_ ?_ fun v hv hb => ?_
  · rw [hsg]; exact lo hy.1 hU
  · rw [hsg]; exact hi' hy.2 hU
  · rw [hsg]; exact lo hy'.1 hU'
  · rw [hsg]; exact hi' hy'.2 hU'
  · have hb' : P.h (zigP k (4 * i)) < P.h v ∧ P.h v < P.h (zigP k (4 * i + 1)) := by
      rcases hb with ⟨h1, h2⟩ | ⟨h1, h2⟩
      · exact ⟨(lo hy.1 hU).trans h1, h2.trans (hi' hy'.2 hU')⟩
      · exact ⟨(lo hy'.1 hU').trans h1, h2.trans (hi' hy.2 hU)⟩
    have hx : v.x < 4 * i := by
      obtain ⟨m, hm, e, hs, hve⟩ := h.vert.1 hv
      obtain ⟨t, ht, rfl⟩ := mem_evens.1 hm
      have e' := zig_side (by omega) hs
      rcases (show t = 2 * i ∨ t < 2 * i by omega) with rfl | ht'
      · rw [show 2 * (2 * i) = 4 * i by ring, zig_long hi] at e'
        rw [e'] at hve
        rcases hve with rfl | rfl
        · exact absurd hb'.1 (lt_irrefl _)
        · exact absurd hb'.2 (lt_irrefl _)
      · have a1 : (zigP k (2 * t)).x < 4 * i := by
          rw [zigP_x]; exact_mod_cast (show 2 * t < 4 * i by omega)
        have a2 : (zigP k (2 * t + 1)).x < 4 * i := by
          rw [zigP_x]; exact_mod_cast (show 2 * t + 1 < 4 * i by omega)
        rcases edgeC_cases (zigP k (2 * t)) (zigP k (2 * t + 1)) with h | h <;> rw [e', h] at hve <;>
          rcases hve with rfl | rfl <;> assumption
    rw [hsg]
    refine hz.gt hb'.1 hb'.2 ?_ ?_
    · show v.x < (zigP k (4 * i)).x
      rw [zigP_x]; push_cast; exact hx
    · show v.x < (zigP k (4 * i + 1)).x
      rw [zigP_x]; push_cast; linarith

/-! ### All sides -/

theorem foldlM_concat {ε α β : Type} (f : β → α → Except ε β) (b : β) (l : List α) (a : α) :
    (l ++ [a]).foldlM f b = l.foldlM f b >>= fun b => f b a := by
  rw [List.foldlM_append]
  refine congrArg _ (funext fun c => ?_)
  simp

/-- The sides `done` can be inserted, and then the trapezoids of the three points can be reached in `m` ways. -/
def ZigReach (k : Nat) (P : Plane ℚ) (p : PolyList Nat (Coords ℚ)) (xy : Coords ℚ → Coords ℚ) (mathN : Nat → Nat → Nat) (m : Nat)
    (done : List Nat) (A : Abs ℚ) (l : St.PolyLoop Nat ℚ) : Prop :=
  Stage P p xy (indexed (zigzag k)) done A l ∧
  (∃ N, ∀ cfg : Cfg, cfg.mathN = mathN → ∀ fuel ≥ N,
    done.foldlM (St.polyStep cfg fuel p xy) (St.PolyLoop.start mathN (indexed (zigzag k))) = .ok l) ∧
  Has P A l.st.qs (zigG k 2) m ∧ Has P A l.st.qs (zigG k 0) m ∧ Has P A l.st.qs (zigG k (-2)) m

theorem ZigReach.step (hz : ZigCtx k P p xy) {mathN : Nat → Nat → Nat} {m : Nat} (h : ZigReach k P p xy mathN m done A l) {si : Nat}
    (hsi : si < 4 * k + 3) (hnd : si ∉ done) (hlen : done.length < 4 * k + 3) :
    ∃ A' l', ZigReach k P p xy mathN m (done ++ [si]) A' l' ∧ Keeps l.st.qs l'.st.qs ∧
      ∀ w, P.U w → A'.Fresh w → Moves P A l.st.qs A' l'.st.qs w := by
  obtain ⟨hs, ⟨N, hN⟩, h2, h0, h2'⟩ := h
  have hl : (indexed (zigzag k)).length = 4 * k + 3 := by rw [indexed_length, zigzag_length]
  obtain ⟨N', A', l', hr, hs', hk, hm⟩ := hs.step hz.ctx (by omega) hnd (by omega) mathN
  refine ⟨A', l', ⟨hs', ⟨max N N', fun cfg hc fuel hf => ?_⟩, hs'.grow hk hm hz.U.1 zigG_ne h2, hs'.grow hk hm hz.U.2.1 zigG_ne h0,
    hs'.grow hk hm hz.U.2.2 zigG_ne h2'⟩, hk, hm⟩
  rw [foldlM_concat, hN cfg hc fuel (le_trans (le_max_left _ _) hf)]
  exact hr cfg hc fuel (le_trans (le_max_right _ _) hf)

theorem evens_length (m : Nat) : (evens m).length = m := by simp [evens]

theorem ZigReach.evens (hz : ZigCtx k P p xy) (mathN : Nat → Nat → Nat) :
    ∀ i ≤ k, ∃ A l, ZigReach k P p xy mathN (3 ^ i) (Tri.evens (2 * i + 1)) A l
  | 0, _ => by
    have hs := Stage.start hz.ctx mathN
    have h0 : ZigReach k P p xy mathN 1 [] Abs.init (St.PolyLoop.start mathN (indexed (zigzag k))) :=
      ⟨hs, ⟨0, fun cfg _ fuel _ => rfl⟩, hs.has_one hz.U.1 zigG_ne, hs.has_one hz.U.2.1 zigG_ne, hs.has_one hz.U.2.2 zigG_ne⟩
    obtain ⟨A, l, h, -⟩ := h0.step hz (si := 0) (by omega) (by simp) (by simp)
    exact ⟨A, l, h⟩
  | i + 1, hi => by
    obtain ⟨A, l, h⟩ := ZigReach.evens hz mathN i (by omega)
    have n1 : 2 * (2 * i + 1) ∉ Tri.evens (2 * i + 1) := fun hc => by
      obtain ⟨t, ht, e⟩ := mem_evens.1 hc; omega
    have n2 : 2 * (2 * i + 2) ∉ Tri.evens (2 * i + 2) := fun hc => by
      obtain ⟨t, ht, e⟩ := mem_evens.1 hc; omega
    obtain ⟨A1, l1, h1, -, -⟩ := h.step hz (si := 2 * (2 * i + 1)) (by omega) n1 (by rw [evens_length]; omega)
    rw [← evens_succ] at h1
    obtain ⟨A2, l2, h2, hk, hm⟩ := h1.step hz (si := 2 * (2 * i + 2)) (by omega) n2 (by rw [evens_length]; omega)
    rw [← evens_succ] at h2
    obtain ⟨a1, a2, a3⟩ := zig_apart hz (by omega) h1.1
    have hst : Stage P p xy (indexed (zigzag k)) (Tri.evens (2 * (i + 1) + 1)) A2 l2 := h2.1
    obtain ⟨u1, u2, u3⟩ := hz.U
    have s1 := zig_same hz (i := i + 1) hi hst (y := 2) (y' := 0) (by norm_num) (by norm_num) u1 u2
    have s2 := zig_same hz (i := i + 1) hi hst (y := 2) (y' := -2) (by norm_num) (by norm_num) u1 u3
    have := Has.merge hst.run.glob.qry hst.run.glob.link.tsL hk h1.2.2.1 h1.2.2.2.1 h1.2.2.2.2
      (hm _ u1 (hst.fresh zigG_ne)) (hm _ u2 (hst.fresh zigG_ne)) (hm _ u3 (hst.fresh zigG_ne)) a1 a2 a3 s1 s2
    rw [pow_succ, Nat.mul_comm]
    exact ⟨A2, l2, hst, h2.2.1, this⟩

theorem ZigReach.rest (hz : ZigCtx k P p xy) {mathN : Nat → Nat → Nat} {m : Nat} :
    ∀ (rest : List Nat) {done : List Nat} {A : Abs ℚ} {l : St.PolyLoop Nat ℚ}, ZigReach k P p xy mathN m done A l →
      (done ++ rest).Nodup → (∀ j ∈ done ++ rest, j < 4 * k + 3) → (done ++ rest).length ≤ 4 * k + 3 →
      ∃ A' l', ZigReach k P p xy mathN m (done ++ rest) A' l'
  | [], _, A, l, h, _, _, _ => ⟨A, l, by rwa [List.append_nil]⟩
  | si :: rest, done, A, l, h, hnd, hlt, hlen => by
    have hn : si ∉ done := fun hc => (List.nodup_append'.1 hnd).2.2 hc (List.mem_cons_self ..)
    obtain ⟨A', l', h', -, -⟩ := h.step hz (hlt si (by simp)) hn (by simp at hlen; omega)
    obtain ⟨A2, l2, h2⟩ := ZigReach.rest hz rest h' (by simpa using hnd) (by simpa using hlt) (by simpa using hlen)
    exact ⟨A2, l2, by simpa using h2⟩

theorem evenOdd_zig (k : Nat) : ∃ rest, evenOdd (4 * k + 3) = evens (2 * k + 1) ++ rest := by
  refine ⟨[4 * k + 2] ++ (List.range ((4 * k + 3) / 2)).map (2 * · + 1), ?_⟩
  rw [evenOdd, ← List.append_assoc]
  congr 1
  rw [show (4 * k + 3 + 1) / 2 = 2 * k + 1 + 1 by omega]
  have := evens_succ (2 * k + 1)
  rw [show 2 * (2 * k + 1) = 4 * k + 2 by ring] at this
  exact this

theorem exists_zigCtx (k : Nat) : ∃ P : Plane ℚ, ZigCtx k P (PolyList.single (zigzag k)) id := by
  have hd := describes_single (zigzag k) (id : Coords ℚ → Coords ℚ) (by
    intro h; have := zigzag_length k; rw [h] at this; simp at this)
  rw [List.map_id] at hd
  have hv : ValidPolys ([indexed (zigzag k)].map (List.map Prod.snd)) := by
    rw [List.map_cons, List.map_nil, indexed_snd]; exact zigzag_valid k
  obtain ⟨P, hctx, hU, -, ε, -, hh, hX⟩ := exists_polysCtx hd hv (ghosts := [zigG k 2, zigG k 0, zigG k (-2)]) (by
    have key : ∀ y, ∀ e ∈ ([indexed (zigzag k)].map (List.map Prod.snd)).flatMap cycleEdges, ¬ OnSeg e (zigG k y) := by
      rintro y e he ⟨t, t0, t1, hx, -⟩
      simp only [List.map_cons, List.map_nil, List.flatMap_cons, List.flatMap_nil, List.append_nil, indexed_snd] at he
      have hx1 : ∀ v ∈ zigzag k, v.x < 4 * k + 3 := by
        intro v hv
        obtain ⟨j, hj, rfl⟩ := List.mem_map.1 hv
        rw [zigP_x]; exact_mod_cast List.mem_range.1 hj
      obtain ⟨j, g1, g2⟩ := get_cycleEdges he
      have b1 := hx1 _ (mem_of_get g1)
      have b2 := hx1 _ (mem_of_get g2)
      have hx' : (4 * k + 3 : ℚ) = e.1.x + t * (e.2.x - e.1.x) := hx
      rcases eq_or_lt_of_le t0 with rfl | t0
      · rw [zero_mul, add_zero] at hx'; linarith
      · nlinarith [mul_lt_mul_of_pos_left b2 t0, mul_le_mul_of_nonneg_left b1.le (sub_nonneg.2 t1)]
    intro q hq
    simp only [List.mem_cons, List.not_mem_nil, or_false] at hq
    rcases hq with rfl | rfl | rfl <;> exact key _)
  refine ⟨P, hctx.poly _ (by simp), ?_, ?_, ?_⟩
  · intro e v B h1 h2 b1 b2
    rw [hh] at h1 h2; rw [hX]
    exact Xh_lt h1 h2 b1 b2
  · intro e v B h1 h2 b1 b2
    rw [hh] at h1 h2; rw [hX]
    exact lt_Xh h1 h2 b1 b2
  · simp only [hU]; simp

theorem addPolygon_start (cfg : Cfg) (fuel : Nat) (p : PolyList Nat (Coords ℚ)) (xy : Coords ℚ → Coords ℚ)
    (vs : List (Nat × Coords ℚ)) (k : Nat) (l : St.PolyLoop Nat ℚ)
    (h : (cfg.order k vs.length).foldlM (St.polyStep cfg fuel p xy) (St.PolyLoop.start cfg.mathN vs) = .ok l) :
    St.addPolygon cfg fuel p xy k St.init (startLocs vs) = .ok l.st := by
  have hl : (startLocs vs).length = vs.length := by simp [startLocs]
  unfold St.addPolygon
  rw [hl]
  rw [St.PolyLoop.start] at h
  simp only [bind, Except.bind, h]

/-- The search structure that the sides of the polygon in this order give has a sink with `3 ^ k` paths to it. -/
theorem zigzag_ways (k : Nat) (mathN : Nat → Nat → Nat) :
    ∃ (N : Nat) (l : St.PolyLoop Nat ℚ) (q f : Nat), 3 ^ k ≤ ways l.st.qs q f 0 ∧
      ∀ cfg : Cfg, cfg.mathN = mathN → (cfg.order 0 (4 * k + 3) = evenOdd (4 * k + 3)) → ∀ fuel ≥ N,
        trapezoidize cfg fuel (PolyList.single (zigzag k)) id = .ok l.st := by
  obtain ⟨P, hz⟩ := exists_zigCtx k
  obtain ⟨A, l, h⟩ := ZigReach.evens hz mathN k (le_refl _)
  obtain ⟨rest, hr⟩ := evenOdd_zig k
  have hp := evenOdd_perm (4 * k + 3)
  rw [hr] at hp
  obtain ⟨A', l', h', ⟨N, hN⟩, ⟨t, q, f, -, -, -, hw⟩, -⟩ := h.rest hz rest (hp.nodup_iff.2 List.nodup_range)
    (fun j hj => List.mem_range.1 (hp.mem_iff.1 hj)) (by rw [hp.length_eq, List.length_range])
  refine ⟨N, l', q, f, hw, fun cfg hm ho fuel hf => ?_⟩
  have hd := describes_single (zigzag k) (id : Coords ℚ → Coords ℚ) (by
    intro h; have := zigzag_length k; rw [h] at this; simp at this)
  rw [List.map_id] at hd
  obtain ⟨es, hes, hpoly⟩ := hd.elems
  have h1 := runElems_polygons cfg fuel (PolyList.single (zigzag k)) id es [] St.init 0
  rw [← polygonsOf.eq_1, hpoly] at h1
  have hl : (indexed (zigzag k)).length = 4 * k + 3 := by rw [indexed_length, zigzag_length]
  have hadd := addPolygon_start cfg fuel (PolyList.single (zigzag k)) id (indexed (zigzag k)) 0 l' (by
    rw [hl, ho, hr, hm]; exact hN cfg hm fuel hf)
  have hmap : (elemsOf ([indexed (zigzag k)].map (List.map Prod.fst))).map some =
      ((indexed (zigzag k)).map Prod.fst).map (fun i => some (.cont i)) ++ [some .newPolygon] := by
    simp [elemsOf, Function.comp_def]
  have hsrc : ∀ v ∈ indexed (zigzag k), (PolyList.single (zigzag k)).coords (ε := TrapErr) id v.1 = .ok v.2 :=
    fun v hv => coords_of_get (hd.coords _ (by simp) v hv)
  have hlen : (startLocs (indexed (zigzag k))).length = 4 * k + 3 := by simp [startLocs, hl]
  have hstep : St.buildStep cfg fuel (PolyList.single (zigzag k)) id ⟨St.init, [] ++ startLocs (indexed (zigzag k)), 0⟩
      (some .newPolygon) = .ok ⟨l'.st, [], 1⟩ := by
    simp only [St.buildStep, List.nil_append, hlen, show 4 * k + 3 > 0 by omega, if_true,
      show ¬ 4 * k + 3 < 3 by omega, if_false, hadd, Res.mapErr, bind, Except.bind]
  rw [trapezoidize_eq, hes]
  simp only [List.map_nil, List.nil_append] at h1
  rw [h1, hmap, runElems_append, runElems_read cfg fuel hsrc]
  simp only [Except.bind, runElems_cons, hstep]
  rfl

end Tri
