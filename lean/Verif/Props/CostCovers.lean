import Verif.Proof.CostCovers
import Verif.Props.Nodes

/-!
# Properties: the count of C50 leaves nothing out

A count that forgot a loop would make the upper bounds of C50, C55 and C58 easy to meet.
-/

namespace Tri

section
variable {I V C : Type} [Scalar C] [DecidableEq I]

/-- **C50**, nothing is left out: if a trapezoidation without debug checks costs `k`, for any input, valid or not, with exact numbers
or floats, then every loop and every search in it ends within `k` iterations: with every one of them cut off after that many, the
result is the same. With `n` vertices, the cost is at least `n`, as every segment is inserted, and at least the number of query
nodes beyond `4 n + 1`. -/
theorem C50_covers_every_loop (cfg : Cfg) (hcfg : cfg.Valid) (hd : cfg.debug = false) (fuel : Nat) (p : PolyList I V)
    (xy : V → Coords C) (st : St I C) (k : Nat) (h : trapezoidizeC cfg fuel p xy = .ok (st, k)) :
    trapezoidize cfg k p xy = .ok st ∧
    ∃ es : List (Elem I), p.elems = es.map some ∧ (polygonsOf es).flatten.length ≤ k ∧
      st.qs.length ≤ 4 * (polygonsOf es).flatten.length + 1 + k := by
  have h1 := (trapezoidizeC_covers hd (L := k) fuel p xy).of _ h (Nat.le_refl _)
  have h2 := (trapezoidizeC_atl hcfg fuel p xy).of _ h
  have h0 : trapezoidize cfg fuel p xy = .ok st := by rw [← C50_counts_the_code, h]; rfl
  obtain ⟨es, vss, h3, h4, -, -, -, h5, h6, -⟩ := C23_sizes cfg hcfg fuel p xy st h0
  have hlen : (polygonsOf es).flatten.length = vss.flatten.length := by
    rw [← h4, ← List.map_flatten, List.length_map]
  refine ⟨by rw [← C50_counts_the_code, h1]; rfl, es, h3, ?_, ?_⟩
  · have := polygonsFrom_flatten es []
    rw [h3] at h2
    unfold polygonsOf
    simpa [this] using h2
  · have h7 := (trapezoidizeC_nodes h).2
    rw [h5, h6, ← hlen] at h7
    omega

end

section Examples
attribute [local instance] exact

/-- C50: a run for a pentagon costs 24, and no loop of it needs more than 24 iterations. -/
example : ∃ st, trapezoidizeC (Cfg.plain (fun _ h => h) false) 40 (PolyList.single pentagon) id = .ok (st, 24) ∧
    trapezoidize (Cfg.plain (fun _ h => h) false) 24 (PolyList.single pentagon) id = .ok st := by
  have h : (trapezoidizeC (Cfg.plain (fun _ h => h) false) 40 (PolyList.single pentagon) id).map Prod.snd = .ok 24 := by
    decide +kernel
  cases hr : trapezoidizeC (Cfg.plain (fun _ h => h) false) 40 (PolyList.single pentagon) id with
  | error e => rw [hr] at h; cases h
  | ok r =>
    rw [hr] at h
    obtain ⟨st, k⟩ := r
    cases h
    exact ⟨st, rfl, (C50_covers_every_loop _ (Cfg.plain_valid _ _) rfl 40 _ _ _ _ hr).1⟩

end Examples

end Tri
