import Verif.Proof.WordsTriRoom
import Verif.Proof.Quick
import Verif.Props.Quick

/-!
# C63: how much room any input needs
-/

set_option linter.unusedSectionVars false

namespace Tri

section
variable {I V C : Type} [Scalar C] [DecidableEq I]

/-- **C63** for the whole triangulation of any input, however invalid, with any arithmetic: with room for what `n` elements of the index iterator need at
most the limits change nothing, for every format.  The result is the same, the run fails in the same way, or it goes on forever in both cases. -/
theorem C63_any_input_enough_room (M : Machine) (hM : M.Valid) (cfg : Cfg) (hcfg : cfg.Valid) (fuel n : Nat) (p : PolyList I V)
    (xy : V → Coords C) (hn : p.elems.length ≤ n) (hf : 2 * n + 3 ≤ fuel)
    (hns : n ≤ M.ns) (hss : n ≤ M.ss) (hvl : n ≤ M.vls) (hu : n ≤ M.us) (hts : 2 * n + 1 ≤ M.ts) (hqs : n ^ 2 + 4 * n + 1 ≤ M.qs)
    (hc : 2 * n + 2 ≤ M.chain) (hb : 4 * n + 2 ≤ M.branches) (hs : 2 * n + 1 ≤ M.chains) (hvc : p.vertexCount ≤ n)
    (hdb : cfg.debug = true → 2 * n + 1 ≤ M.bits) (F : FanFormat I) :
    triangulateW M cfg fuel p xy F = triangulate cfg fuel p xy F := by
  have hc' : conts p.elems ≤ n := (conts_le _).trans hn
  have hsq : conts p.elems * conts p.elems ≤ n * n := Nat.mul_le_mul hc' hc'
  have hsq' : n ^ 2 = n * n := by rw [Nat.pow_two]
  have hR : Room M cfg (conts p.elems) := by
    constructor <;> first | exact hM | omega | (rw [Nat.pow_two]; omega) | (intro h; have := hdb h; omega)
  have hH : HintFits M p.vertexCount := by constructor <;> omega
  unfold triangulateW triangulate
  rw [trapezoidize_room cfg hcfg p xy hR hH (conts_enough p (by omega))]
  rcases hT : trapezoidize cfg fuel p xy with e | st
  · cases e <;> rfl
  · obtain ⟨hwf, ht, hk, hlen⟩ := trapezoidize_done cfg hcfg p xy hT
    show St.triangulateW M cfg.debug fuel p xy st F = St.triangulate fuel p xy st F
    unfold St.triangulateW St.triangulate triangulateInnerW triangulateInner
    have h : Same (F := F) (fun _ => True)
        (FanM.lift (topTrapezoid st.qs fuel 0) >>= fun ti => triLoopW M cfg.debug F.winding fuel p xy st fuel ⟨ti, none, [], []⟩)
        (FanM.lift (topTrapezoid st.qs fuel 0) >>= fun ti => triLoop F.winding fuel p xy st fuel ⟨ti, none, [], []⟩) := by
      refine Same.bind (Same.lift (SameR.refl _)) fun ti hti => ?_
      refine triLoop_room hM F.winding fuel p xy st st.ts.length 1 0 0 fuel _
        ⟨AllShort.none, fun _ h => (List.not_mem_nil h).elim, fun _ h => (List.not_mem_nil h).elim, Nat.le_refl _, Nat.le_refl _⟩ (Nat.le_refl _)
        (by omega) (by omega) (by omega) ?_
      have h1 := (inner_tour p xy hwf ht hk (given_coords p xy) st.ts.length).2 (Nat.le_refl _)
      unfold triangulateInnerB at h1
      rcases topTrapezoid_fle st.qs (show st.ts.length ≤ fuel by omega) 0 with h2 | h2
      · rw [h2] at h1
        exact absurd rfl h1
      · rw [← h2, hti, BM.lift_ok_bind] at h1
        exact h1
    simp only [(h .uninit).1]

end

section
attribute [local instance] exact

/-- A machine with 32 bits and room for what five vertices need at most. -/
def smallMachine : Machine := ⟨32, 5, 5, 11, 46, 5, 5, 12, 22, 11⟩

example : smallMachine.Valid := by constructor <;> decide

/-- On this machine the polygon of C65 goes on forever, too. -/
example (fuel : Nat) (hf : 13 ≤ fuel) :
    (triangulateW smallMachine (Cfg.plain mathN5 false) fuel (PolyList.single crossing) id (recorder Nat .clockwise)).2 = .error .timeout := by
  rw [C63_any_input_enough_room smallMachine (by constructor <;> decide) _ (Cfg.plain_valid _ _) fuel 5 _ _ (by decide) hf (by decide) (by decide)
    (by decide) (by decide) (by decide) (by decide) (by decide) (by decide) (by decide) (by decide) (by simp [Cfg.plain])]
  exact (C65_crossing_runs_forever .clockwise fuel).2.1

end

end Tri
