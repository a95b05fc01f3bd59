import Verif.Proof.Ending
import Verif.Spec.Exact

/-!
# C37 to C40: how runs end, for arbitrary input and arithmetic

C37 to C39 are for an arbitrary `Scalar`: comparisons and arithmetic on coordinates may answer anything,
so NaN, infinities, rounding and invalid polygons are included.
-/

namespace Tri

section
variable {I V C : Type} [Scalar C] [DecidableEq I]

/-- **C37.**  Trapezoidation ends for every input, whatever the shuffled orders and the schedule: no loop
takes more than `2 n + 3` passes, where `n` counts the elements of the index iterator, and the outcome is
a trapezoidation, an error value or a panic.  It is a panic only in a build with debug assertions, or if
the index iterator or `get_vertex` panics. -/
theorem C37_trapezoidation_ends (cfg : Cfg) (hcfg : cfg.Valid) (p : PolyList I V) (xy : V → Coords C) :
    ∃ r, (∀ fuel, 2 * p.elems.length + 3 ≤ fuel → trapezoidize cfg fuel p xy = r) ∧
      r ≠ .error .timeout ∧ r ≠ .error .ub ∧
      (r = .error .panic → cfg.debug = true ∨ ¬ p.Resolves) := by
  have h := trapezoidize_ranked cfg hcfg p xy (conts_enough p (Nat.le_refl _))
  refine ⟨trapezoidize cfg (2 * p.elems.length + 3) p xy, fun fuel hf => ?_, ?_, ?_, ?_⟩
  · rcases trapezoidize_fle cfg p xy hf with h' | h'
    · exact (h.of_error h').elim
    · exact h'
  · exact fun h' => h.of_error h'
  · exact fun h' => h.of_error h'
  · intro h'
    rcases h.of_error h' with h | h | ⟨i, h1, h2⟩
    · exact .inl h
    · exact .inr fun hr => hr.1 h
    · refine .inr fun hr => ?_
      have := hr.2 i h1
      rw [h2] at this
      cases this

/-- **C38.**  In a build without debug assertions neither trapezoidation nor triangulation panics, whatever
the coordinates and however invalid the polygons, after any number of steps: if `get_vertex` answers for every index the
index iterator yields and the format's own operations do not panic. -/
theorem C38_release_builds_do_not_panic (cfg : Cfg) (hcfg : cfg.Valid) (hd : cfg.debug = false) (fuel : Nat)
    (p : PolyList I V) (xy : V → Coords C) (hp : p.Resolves) :
    trapezoidize cfg fuel p xy ≠ .error .panic ∧
    ∀ F : FanFormat I, F.Never .panic → (triangulate cfg fuel p xy F).2 ≠ .error .panic := by
  have hns : ¬ Stops (ε := TrapErr) cfg p .panic := by
    rintro (h | h | ⟨i, h1, h2⟩)
    · rw [hd] at h; cases h
    · exact hp.1 h
    · have := hp.2 i h1
      rw [h2] at this
      cases this
  have ht := trapezoidize_final cfg hcfg fuel p xy
  have htp : trapezoidize cfg fuel p xy ≠ .error .panic := by
    intro h
    rcases ht with ht | ht
    · rw [h] at ht; cases ht
    · exact hns (ht.of_error h)
  refine ⟨htp, fun F hF => ?_⟩
  unfold triangulate
  rcases hT : trapezoidize cfg fuel p xy with e | st
  · rw [hT] at htp
    have := mapErr_grave (α := St I C) (TriErr.trapezoidation (E := F.E)) .panic htp
    rcases e with e | _ | _ | _
    · simp [Res.mapErr]
    · exact absurd rfl htp
    · simp [Res.mapErr]
    · simp [Res.mapErr]
  · rw [hT] at ht
    rcases ht with ht | ht
    · cases ht
    · show (st.triangulate fuel p xy F).2 ≠ _
      rw [triangulate_eq_play]
      refine play_never F .panic hF _ _ ?_
      have := inner_run_ens (w := F.winding) fuel p xy ht.1 ht.2
      intro h
      rcases this.of_error h with h | ⟨e, h⟩ <;> cases h

/-- **C39.**  Triangulation can run forever only inside the triangulation of a chain.  For every input there
is a number of steps `N` from on which either the outcome does not change, before the format
is asked for anything; or there is a list of chains of input vertices (the same for all formats and both windings) such that the run is the triangulation
of these chains one after the other, and then `r`, which is a success or an error value.  If the triangulation of each of the chains
ends, then from some number of steps on the outcome does not change any more, and it is not a timeout unless an operation of the format is. -/
theorem C39_only_chains_can_run_forever (cfg : Cfg) (hcfg : cfg.Valid) (p : PolyList I V) (xy : V → Coords C) :
    ∃ N, (∃ e : Fault (TriErr Empty), e ≠ .timeout ∧ e ≠ .ub ∧ (e = .panic → cfg.debug = true ∨ ¬ p.Resolves) ∧
        ∀ F : FanFormat I, ∀ fuel ≥ N, triangulate cfg fuel p xy F = (F.unused, .error (castFault e))) ∨
      ∃ (bs : List (MonoB I C)) (r : Res IErr Unit), (∀ b ∈ bs, b.FromInput p xy) ∧
        (r = .ok () ∨ ∃ e, r = .error (.err e)) ∧
        (∀ F : FanFormat I, ∀ fuel ≥ N, triangulate cfg fuel p xy F = chainByChain F fuel bs r) ∧
        ∀ w, (∀ b ∈ bs, b.Ends w) → ∃ N', ∀ F : FanFormat I, F.winding = w →
          (∀ fuel ≥ N', triangulate cfg fuel p xy F = triangulate cfg N' p xy F) ∧
          (F.Never .timeout → (triangulate cfg N' p xy F).2 ≠ .error .timeout) := by
  obtain ⟨r0, h1, h2, h3, h4⟩ := C37_trapezoidation_ends cfg hcfg p xy
  rcases r0 with e0 | st
  · refine ⟨2 * p.elems.length + 3, .inl ?_⟩
    rcases e0 with e | _ | _ | _
    · refine ⟨.err (.trapezoidation e), by simp, by simp, by simp, fun F fuel hf => ?_⟩
      unfold triangulate
      rw [h1 fuel hf]
      rfl
    · refine ⟨.panic, by simp, by simp, fun _ => h4 rfl, fun F fuel hf => ?_⟩
      unfold triangulate
      rw [h1 fuel hf]
      rfl
    · exact absurd rfl h3
    · exact absurd rfl h2
  · have hst : WF (Given p xy) st ∧ Tidy (conts p.elems) st := by
      rcases trapezoidize_final cfg hcfg (2 * p.elems.length + 3) p xy with h | h
      · rw [h1 _ (Nat.le_refl _)] at h
        cases h
      · rw [h1 _ (Nat.le_refl _)] at h
        exact h
    obtain ⟨M, ⟨bs, r⟩, hM, hbs, hr⟩ := inner_settles p xy hst.1 hst.2 (given_coords p xy)
    refine ⟨2 * p.elems.length + 3 + M, .inr ⟨bs, r, ?_, ?_, ?_, ?_⟩⟩
    · intro b hb v hv
      rcases List.mem_cons.1 hv with rfl | hv
      · exact (hbs b hb).1
      · exact (hbs b hb).2 v hv
    · rcases r with e | u
      · obtain ⟨e', he⟩ := hr
        exact .inr ⟨e', by rw [he]⟩
      · exact .inl rfl
    · intro F fuel hf
      unfold triangulate
      rw [h1 fuel (by omega)]
      show st.triangulate fuel p xy F = _
      rw [triangulate_eq_interp, ← BM.run_inner, hM fuel (by omega)]
      exact interp_chains F fuel ⟨bs, r⟩
    · intro w hw
      obtain ⟨k, hk, hfix⟩ := finishAll_settles w bs fun b hb => (ends_iff w b).1 (hw b hb)
      have key : ∀ F : FanFormat I, F.winding = w → ∀ fuel ≥ 2 * p.elems.length + 3 + M + k,
          triangulate cfg fuel p xy F = play F (BM.run w k ⟨bs, r⟩).calls (BM.run w k ⟨bs, r⟩).res := by
        rintro F rfl fuel hf
        have e1 : innerTrace F.winding fuel p xy st = BM.run F.winding k ⟨bs, r⟩ := by
          rw [← BM.run_inner, hM fuel (by omega)]
          unfold BM.run
          rw [hfix fuel (by omega)]
        unfold triangulate
        rw [h1 fuel (by omega)]
        show st.triangulate fuel p xy F = _
        rw [triangulate_eq_play, e1]
      refine ⟨2 * p.elems.length + 3 + M + k, fun F hF => ⟨fun fuel hf => ?_, fun hn => ?_⟩⟩
      · rw [key F hF fuel hf, key F hF _ (Nat.le_refl _)]
      · rw [key F hF _ (Nat.le_refl _)]
        refine play_never F .timeout hn _ _ ?_
        unfold BM.run
        rcases hfa : finishAll w k bs with ⟨cs, e | u⟩
        · rw [hfa] at hk
          exact hk
        · rw [TrM.mk_ok_bind]
          rcases r with e | u
          · obtain ⟨e', he⟩ := hr
            rw [he]
            simp [FanM.lift, FanM.stop, Grave.fault]
          · simp [FanM.lift, Grave.fault, pure]

end

section Hang

attribute [local instance] exact

/-- A triangle written as a closed ring: the first vertex is repeated at the end. -/
def closedRing : List (Coords Int) := [⟨0, 1⟩, ⟨0, 0⟩, ⟨2, 2⟩, ⟨0, 1⟩]

/-- The values of `math_n` for four vertices (`math.rs:15-21`). -/
def mathN4 : Nat → Nat → Nat := fun n h => if h = 0 then 1 else if h = 1 then 2 else n

/-- The insertion order `o` for a polygon with four vertices. -/
def ringCfg (o : List Nat) (dbg : Bool) : Cfg := ⟨fun _ len => if len = 4 then o else List.range len, mathN4, dbg⟩

/-- Eight of the 24 orders in which the edges can be inserted. -/
def ringOrders : List (List Nat) :=
  [[1, 2, 0, 3], [1, 2, 3, 0], [2, 0, 1, 3], [2, 1, 0, 3], [2, 1, 3, 0], [2, 0, 3, 1], [2, 3, 0, 1], [2, 3, 1, 0]]

theorem ringCfg_valid (o : List Nat) (ho : o ∈ ringOrders) (dbg : Bool) : (ringCfg o dbg).Valid := by
  intro k len
  show (if len = 4 then o else List.range len).Perm _
  split
  · rename_i h
    subst h
    have : ∀ o ∈ ringOrders, o.Perm (List.range 4) := by decide
    exact this o ho
  · exact .refl _

/-- The only chain of the run. -/
def ringChain : MonoB Nat Int :=
  ⟨(2, ⟨2, 2⟩), [(3, ⟨0, 1⟩), (0, ⟨0, 1⟩), (1, ⟨0, 0⟩)], true, true⟩

/-- Its triangulation, which comes back to where it started. -/
def ringMono : Mono Nat Int := ⟨[(2, ⟨2, 2⟩), (3, ⟨0, 1⟩), (0, ⟨0, 1⟩), (1, ⟨0, 0⟩)], 2, 2, true⟩

/-- The trapezoidation succeeds and the descent finishes the one chain. -/
def ringCheck (o : List Nat) (dbg : Bool) : Bool :=
  match trapezoidize (ringCfg o dbg) 10 (PolyList.single closedRing) id with
  | .ok st =>
    let x := triangulateInnerB 12 (PolyList.single closedRing) id st
    decide (x.done = [ringChain]) && x.res.isOk
  | .error _ => false

/-- The run with few steps. -/
def ringSmall (o : List Nat) (dbg : Bool) (w : Winding) (fuel : Nat) : Bool :=
  match trapezoidize (ringCfg o dbg) 10 (PolyList.single closedRing) id with
  | .ok st =>
    let x := innerTrace w fuel (PolyList.single closedRing) id st
    decide (x.calls = []) && (match x.res with | .error .timeout => true | _ => false)
  | .error _ => false

theorem ringMono_step (w : Winding) (k : Nat) :
    Mono.buildFans (m := TrM Nat) w (k + 3) ringMono = Mono.buildFans w k ringMono := rfl

theorem ringMono_timeout (w : Winding) (k : Nat) :
    Mono.buildFans (m := TrM Nat) w k ringMono = ⟨[], .error .timeout⟩ := by
  induction k using Nat.strongRecOn with
  | _ k ih =>
    match k with
    | 0 => rfl
    | 1 => rfl
    | 2 => rfl
    | k + 3 => rw [ringMono_step]; exact ih k (by omega)

/-- **C40.**  With exact arithmetic, and in both kinds of builds, there is a triangle that is
never triangulated if it is written as a closed ring, with its first vertex repeated at the end: for eight of the 24
orders in which the four edges may be inserted, `triangulate` asks no format for anything, and no number of
steps is enough. -/
theorem C40_closed_ring_runs_forever (o : List Nat) (ho : o ∈ ringOrders) (dbg : Bool) (F : FanFormat Nat)
    (fuel : Nat) : triangulate (ringCfg o dbg) fuel (PolyList.single closedRing) id F = (F.unused, .error .timeout) := by
  have hc : ∀ o ∈ ringOrders, ∀ dbg, ringCheck o dbg = true := by decide +kernel
  have h := hc o ho dbg
  unfold ringCheck at h
  rcases hT : trapezoidize (ringCfg o dbg) 10 (PolyList.single closedRing) id with e | st
  · rw [hT] at h
    cases h
  · rw [hT] at h
    simp only [Bool.and_eq_true, decide_eq_true_eq] at h
    obtain ⟨h1, h2⟩ := h
    have hB : triangulateInnerB 12 (PolyList.single closedRing) id st = ⟨[ringChain], .ok ()⟩ := by
      rcases hq : triangulateInnerB 12 (PolyList.single closedRing) id st with ⟨bs, e | u⟩
      · rw [hq] at h2
        cases h2
      · rw [hq] at h1
        simp only at h1
        rw [h1]
    have hw : ∀ w, innerTrace w fuel (PolyList.single closedRing) id st = ⟨[], .error .timeout⟩ := by
      intro w
      by_cases hf : 12 ≤ fuel
      · rw [← BM.run_inner, inner_fixed _ _ _ 12 (by rw [hB]; simp) fuel hf, hB]
        show ((Mono.buildFans (m := TrM Nat) w fuel ringMono >>= fun _ => (⟨[], .ok ()⟩ : TrM Nat Unit)) >>=
          fun _ => FanM.lift (.ok ())) = _
        rw [ringMono_timeout]
        rfl
      · have hs : ∀ o ∈ ringOrders, ∀ dbg, ∀ w, ∀ fuel ∈ List.range 12, ringSmall o dbg w fuel = true := by
          intro o ho dbg w
          cases w
          · revert o ho dbg; decide +kernel
          · revert o ho dbg; decide +kernel
        have h := hs o ho dbg w fuel (by simpa using hf)
        unfold ringSmall at h
        rw [hT] at h
        simp only [Bool.and_eq_true, decide_eq_true_eq] at h
        rcases hq : innerTrace w fuel (PolyList.single closedRing) id st with ⟨cs, r⟩
        rw [hq] at h
        obtain ⟨h3, h4⟩ := h
        simp only at h3 h4
        subst h3
        split at h4
        · rfl
        · cases h4
    have hst : trapezoidize (ringCfg o dbg) fuel (PolyList.single closedRing) id = .error .timeout ∨
        trapezoidize (ringCfg o dbg) fuel (PolyList.single closedRing) id = .ok st := by
      rcases trapezoidize_fle (ringCfg o dbg) (PolyList.single closedRing) id (Nat.le_max_left fuel 10) with h | h
      · exact .inl h
      · refine .inr ?_
        rw [← h]
        rcases trapezoidize_fle (ringCfg o dbg) (PolyList.single closedRing) id (Nat.le_max_right fuel 10) with h | h
        · rw [hT] at h
          cases h
        · rw [h, hT]
    unfold triangulate
    rcases hst with h | h
    · rw [h]
      rfl
    · rw [h]
      show st.triangulate fuel _ id F = _
      rw [triangulate_eq_play, hw]
      rfl

/-- The same triangle without the repeated vertex is fine, in every order. -/
example : ∀ o ∈ [[0, 1, 2], [0, 2, 1], [1, 0, 2], [1, 2, 0], [2, 0, 1], [2, 1, 0]],
    (triangulate ⟨fun _ _ => o, mathN4, true⟩ 40 (PolyList.single (closedRing.take 3)) id
      (recorder Nat .counterclockwise)).2 = .ok [.newFan 2 0 1] := by decide +kernel

/-- C37, C38: the hypotheses are met by a self-intersecting polygon, with a repeated vertex. -/
example : let knot : List (Coords Int) := [⟨4, 0⟩, ⟨0, 1⟩, ⟨2, 2⟩, ⟨1, 1⟩, ⟨3, 0⟩, ⟨0, 1⟩]
    (Cfg.plain (fun _ _ => 1) false).Valid ∧ (PolyList.single knot).Resolves ∧
      (recorder Nat .clockwise).Never .panic :=
  ⟨fun _ _ => .refl _, ⟨by decide, by
    intro i hi
    have hi : i < 6 := by
      obtain ⟨a, ha, h⟩ : ∃ a < 6, Elem.ofIndex a = Elem.cont i := by simpa [PolyList.single] using hi
      cases h
      exact ha
    have : ∀ i < 6, ((PolyList.single [⟨4, 0⟩, ⟨0, 1⟩, ⟨2, 2⟩, ⟨1, 1⟩, ⟨3, 0⟩, ⟨0, 1⟩] : PolyList Nat (Coords Int)).getVertex i).isSome := by decide
    exact this i hi⟩, by constructor <;> simp [Grave.fault]⟩

/-- C39: the chain of the closed ring is made of input vertices, and its triangulation does not end. -/
example : ringChain.FromInput (PolyList.single closedRing) id ∧ ∀ w, ¬ ringChain.Ends w := by
  refine ⟨by unfold MonoB.FromInput; decide, fun w h => ?_⟩
  obtain ⟨n, hn⟩ := (ends_iff w ringChain).1 h
  refine hn ?_
  show (Mono.buildFans (m := TrM Nat) w n ringMono).res = _
  rw [ringMono_timeout]

end Hang

end Tri
