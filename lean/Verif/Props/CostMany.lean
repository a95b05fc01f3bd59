import Verif.Proof.CostMany
import Verif.Proof.ValidPlane
import Verif.Proof.Describe
import Mathlib.Tactic.NormNum
import Mathlib.Tactic.LinearCombination

/-!
# Properties: what trapezoidation costs when there are many polygons (C51)

The cost is the number of loop iterations and query nodes visited, see `Model/Cost.lean`.
-/

namespace Tri

/-- Triangles below each other: triangle number `j` is between the heights `-3 j - 2` and `-3 j`. -/
def triangleAt (j : Nat) : List (Coords ℚ) :=
  [⟨0, -3 * j⟩, ⟨2, -3 * j - 1⟩, ⟨1, -3 * j - 2⟩]

def triangles (m : Nat) : List (List (Coords ℚ)) := (List.range m).map triangleAt

theorem triangleAt_y {j : Nat} {v : Coords ℚ} (h : v ∈ triangleAt j) : -3 * (j : ℚ) - 2 ≤ v.y ∧ v.y ≤ -3 * j := by
  simp only [triangleAt, List.mem_cons, List.not_mem_nil, or_false] at h
  rcases h with rfl | rfl | rfl
  · exact ⟨by simp only; linarith, by simp only; linarith⟩
  · exact ⟨by simp only; linarith, by simp only; linarith⟩
  · exact ⟨by simp only; linarith, by simp only; linarith⟩

theorem triangleAt_ends {j : Nat} {e : Coords ℚ × Coords ℚ} (h : e ∈ cycleEdges (triangleAt j)) :
    e.1 ∈ triangleAt j ∧ e.2 ∈ triangleAt j := by
  obtain ⟨a, b⟩ := e
  obtain ⟨h1, h2⟩ := List.of_mem_zip h
  refine ⟨h1, ?_⟩
  simp only [triangleAt, List.tail_cons, List.head?_cons, Option.toList_some, List.cons_append, List.nil_append,
    List.mem_cons, List.not_mem_nil, or_false] at h2 ⊢
  rcases h2 with h2 | h2 | h2
  · exact .inr (.inl h2)
  · exact .inr (.inr h2)
  · exact .inl h2

theorem onSeg_y {e : Coords ℚ × Coords ℚ} {q : Coords ℚ} {a b : ℚ} (h : OnSeg e q) (h1 : a ≤ e.1.y ∧ e.1.y ≤ b)
    (h2 : a ≤ e.2.y ∧ e.2.y ≤ b) : a ≤ q.y ∧ q.y ≤ b := by
  obtain ⟨t, t0, t1, -, hy⟩ := h
  constructor <;> nlinarith

theorem triangleAt_meet {j : Nat} {e f : Coords ℚ × Coords ℚ} (he : e ∈ cycleEdges (triangleAt j))
    (hf : f ∈ cycleEdges (triangleAt j)) (hne : e ≠ f) {q : Coords ℚ} (h1 : OnSeg e q) (h2 : OnSeg f q) :
    (q = e.1 ∨ q = e.2) ∧ (q = f.1 ∨ q = f.2) := by
  obtain ⟨t, t0, t1, hx, hy⟩ := h1
  obtain ⟨s, s0, s1, hx', hy'⟩ := h2
  obtain ⟨x, y⟩ := q
  simp only [cycleEdges, triangleAt, List.tail_cons, List.head?_cons, Option.toList_some, List.cons_append, List.nil_append,
    List.zip_cons_cons, List.zip_nil_right, List.mem_cons, List.not_mem_nil, or_false] at he hf
  have key : ∀ {a b c d : ℚ}, a = c → b = d → (⟨a, b⟩ : Coords ℚ) = ⟨c, d⟩ := by rintro a b c d rfl rfl; rfl
  rcases he with rfl | rfl | rfl <;> rcases hf with rfl | rfl | rfl <;> simp only [ne_eq, not_true_eq_false] at hne <;>
    simp only at hx hy hx' hy'
  · exact ⟨.inr (key (by linarith) (by linarith)), .inl (key (by linarith) (by linarith))⟩
  · exact ⟨.inl (key (by linarith) (by linarith)), .inr (key (by linarith) (by linarith))⟩
  · exact ⟨.inl (key (by linarith) (by linarith)), .inr (key (by linarith) (by linarith))⟩
  · exact ⟨.inr (key (by linarith) (by linarith)), .inl (key (by linarith) (by linarith))⟩
  · exact ⟨.inr (key (by linarith) (by linarith)), .inl (key (by linarith) (by linarith))⟩
  · exact ⟨.inl (key (by linarith) (by linarith)), .inr (key (by linarith) (by linarith))⟩

theorem triangles_valid (m : Nat) : ValidPolys (triangles m) where
  three g hg := by
    obtain ⟨j, -, rfl⟩ := List.mem_map.1 hg
    simp [triangleAt]
  distinct := by
    rw [List.nodup_flatten]
    constructor
    · intro g hg
      obtain ⟨j, -, rfl⟩ := List.mem_map.1 hg
      simp [triangleAt]
    · refine List.pairwise_map.2 (List.pairwise_lt_range.imp fun {i j} hij v h1 h2 => ?_)
      have h1 := triangleAt_y h1
      have h2 := triangleAt_y h2
      have : (i : ℚ) + 1 ≤ j := by exact_mod_cast hij
      linarith
  meet e he f hf hne q h1 h2 := by
    rw [List.mem_flatMap] at he hf
    obtain ⟨g, hg, he⟩ := he
    obtain ⟨g', hg', hf⟩ := hf
    obtain ⟨i, -, rfl⟩ := List.mem_map.1 hg
    obtain ⟨j, -, rfl⟩ := List.mem_map.1 hg'
    by_cases hij : i = j
    · subst hij; exact triangleAt_meet he hf hne h1 h2
    · exfalso
      have a1 := onSeg_y h1 (triangleAt_y (triangleAt_ends he).1) (triangleAt_y (triangleAt_ends he).2)
      have a2 := onSeg_y h2 (triangleAt_y (triangleAt_ends hf).1) (triangleAt_y (triangleAt_ends hf).2)
      rcases Nat.lt_or_gt_of_ne hij with h | h
      · have : (i : ℚ) + 1 ≤ j := by exact_mod_cast h
        linarith
      · have : (j : ℚ) + 1 ≤ i := by exact_mod_cast h
        linarith

attribute [local instance] exact

theorem triangles_run (m : Nat) (cfg : Cfg) (hcfg : cfg.Valid) :
    ∃ N st, (∃ w, ∃ k > m, ∃ q t, FindsN st.qs w 0 q t k) ∧ ∀ fuel ≥ N, ∃ c,
      trapezoidizeC cfg fuel (PolyList.nested (triangles m)) id = .ok (st, c) ∧ m * (m + 1) ≤ 2 * c := by
  have hsnd : (indexedFrom id 0 (triangles m)).map (List.map Prod.snd) = triangles m := by
    rw [indexedFrom_snd]; simp
  have hd := describes_nested (triangles m) (id : Coords ℚ → Coords ℚ) (by
    intro vs hvs
    have := (triangles_valid m).three vs hvs
    rintro rfl; simp at this)
  have hlow : ∀ v ∈ (triangles m).flatten, -3 * (m : ℚ) < v.y := by
    intro v hv
    obtain ⟨g, hg, hv⟩ := List.mem_flatten.1 hv
    obtain ⟨j, hj, rfl⟩ := List.mem_map.1 hg
    have h1 := triangleAt_y hv
    have : (j : ℚ) + 1 ≤ m := by exact_mod_cast List.mem_range.1 hj
    linarith
  obtain ⟨P, hctx, hU, -⟩ := exists_polysCtx hd (by rw [hsnd]; exact triangles_valid m) (ghosts := [⟨0, -3 * m⟩]) (by
    intro q hq e he hon
    rw [List.mem_singleton] at hq
    subst hq
    rw [hsnd, List.mem_flatMap] at he
    obtain ⟨g, hg, he⟩ := he
    obtain ⟨j, hj, rfl⟩ := List.mem_map.1 hg
    have h1 := onSeg_y hon (triangleAt_y (triangleAt_ends he).1) (triangleAt_y (triangleAt_ends he).2)
    have : (j : ℚ) + 1 ≤ m := by exact_mod_cast List.mem_range.1 hj
    simp only at h1
    linarith)
  rw [hsnd] at hU
  have hlen : (indexedFrom id 0 (triangles m)).length = m := by
    have := congrArg List.length hsnd
    simpa [triangles] using this
  have hund : (triangles m).Pairwise fun g g' => ∀ v ∈ g, ∀ v' ∈ g', P.h v' < P.h v := by
    refine List.pairwise_map.2 ((List.Pairwise.and_mem.1 (List.pairwise_lt_range (n := m))).imp ?_)
    rintro i j ⟨hi, hj, hij⟩ v hv v' hv'
    have mem : ∀ {i : Nat}, i ∈ List.range m → ∀ {v}, v ∈ triangleAt i → P.U v := fun hi _ hv =>
      (hU _).2 (.inl (List.mem_flatten.2 ⟨_, List.mem_map.2 ⟨_, hi, rfl⟩, hv⟩))
    refine (P.h_lt (mem hj hv') (mem hi hv)).1 (.inl ?_)
    have h1 := triangleAt_y hv
    have h2 := triangleAt_y hv'
    have : (i : ℚ) + 1 ≤ j := by exact_mod_cast hij
    linarith
  rw [← hsnd, List.pairwise_map] at hund
  obtain ⟨N, st, hdeep, h⟩ := trapezoidizeC_ge hctx (hund.imp fun {g g'} h v hv v' hv' =>
    h v.2 (List.mem_map.2 ⟨v, hv, rfl⟩) v'.2 (List.mem_map.2 ⟨v', hv', rfl⟩)) cfg.order cfg.mathN hcfg
  refine ⟨N, st, ⟨⟨0, -3 * m⟩, ?_⟩, fun fuel hf => ?_⟩
  · obtain ⟨k, hk, h⟩ := hdeep ⟨0, -3 * m⟩ ((hU _).2 (.inr (by simp))) (by
      intro g hg v hv
      have hv' : v.2 ∈ (triangles m).flatten := by
        rw [← hsnd]
        exact List.mem_flatten.2 ⟨_, List.mem_map.2 ⟨g, hg, rfl⟩, List.mem_map.2 ⟨v, hv, rfl⟩⟩
      exact (P.h_lt ((hU _).2 (.inr (by simp))) ((hU _).2 (.inl hv'))).1 (.inl (hlow _ hv')))
    exact ⟨k, by rwa [hlen] at hk, h⟩
  · obtain ⟨c, h1, h2⟩ := h cfg rfl rfl fuel hf
    exact ⟨c, h1, by rwa [hlen] at h2⟩

/-- **C51**: the trapezoidation of `m` triangles below each other costs at least `m (m + 1) / 2`, in every run: for every
shuffle and every schedule. -/
theorem C51_many_triangles (m : Nat) (cfg : Cfg) (hcfg : cfg.Valid) :
    ∃ N, ∀ fuel ≥ N, ∃ st c, trapezoidizeC cfg fuel (PolyList.nested (triangles m)) id = .ok (st, c) ∧
      m * (m + 1) ≤ 2 * c := by
  obtain ⟨N, st, -, h⟩ := triangles_run m cfg hcfg
  exact ⟨N, fun fuel hf => ⟨st, h fuel hf⟩⟩

/-- **C51**, the documentation's claim does not hold for sets of polygons: no bound `f` on the cost of a polygon in terms
of the number of its vertices exists.  For every `f` there are valid polygons whose trapezoidation costs more than the
bounds of all polygons together, in every run. -/
theorem C51_no_bound_per_polygon (f : Nat → Nat) :
    ∃ pss : List (List (Coords ℚ)), ValidPolys pss ∧ ∀ cfg : Cfg, cfg.Valid → ∃ N, ∀ fuel ≥ N, ∃ st c,
      trapezoidizeC cfg fuel (PolyList.nested pss) id = .ok (st, c) ∧ (pss.map fun vs => f vs.length).sum < c := by
  refine ⟨triangles (2 * f 3 + 1), triangles_valid _, fun cfg hcfg => ?_⟩
  obtain ⟨N, h⟩ := C51_many_triangles (2 * f 3 + 1) cfg hcfg
  refine ⟨N, fun fuel hf => ?_⟩
  obtain ⟨st, c, h1, h2⟩ := h fuel hf
  refine ⟨st, c, h1, ?_⟩
  have : ((triangles (2 * f 3 + 1)).map fun vs => f vs.length) = List.replicate (2 * f 3 + 1) (f 3) := by
    rw [List.eq_replicate_iff]
    refine ⟨by simp [triangles], fun b hb => ?_⟩
    simp only [triangles, List.map_map, List.mem_map] at hb
    obtain ⟨j, -, rfl⟩ := hb
    rfl
  rw [this, List.sum_replicate, smul_eq_mul]
  nlinarith

/-- C51: a run on three triangles. -/
example : (trapezoidizeC (Cfg.plain (fun _ h => h) true) 60 (PolyList.nested (triangles 3)) id).map Prod.snd = .ok 45 := by
  decide +kernel

end Tri
