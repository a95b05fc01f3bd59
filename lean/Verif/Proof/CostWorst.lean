import Verif.Proof.CostErase
import Verif.Proof.CostRun
import Verif.Proof.LogStar
import Verif.Proof.Fuel
import Verif.Proof.RankedBuild

/-!
# The cost of trapezoidation in the worst case

No loop makes more passes than the number that C37 allows, so it suffices to count how often each loop is entered.
-/

set_option linter.unusedSectionVars false

namespace Tri

open Finset

variable {I V C : Type} [Scalar C]

/-! ## More steps do not change the counts -/

theorem findC_fle (qs : List (QueryNode C)) (c : Coords C) {k n : Nat} (h : k ≤ n) (qi : Nat) :
    FLe (St.findC qs c k qi) (St.findC qs c n qi) := by
  induction k generalizing n qi with
  | zero => exact .out _
  | succ k ih =>
    obtain ⟨n, rfl⟩ : ∃ m, n = m + 1 := ⟨n - 1, by omega⟩
    unfold St.findC
    refine FLe.bind' fun q => ?_
    cases q with
    | branch l r b => exact FLe.bind (ih (by omega) _) fun _ => .refl _
    | sink ti => exact .refl _

variable [DecidableEq I]

theorem addVertexVLC_fle (cfg : Cfg) (p : PolyList I V) (xy : V → Coords C) (st : St I C)
    (vls : List (VLoc I C)) (vli : Nat) (vi : I) (qi : Nat) {k n : Nat} (h : k ≤ n) :
    FLe (St.addVertexVLC cfg k p xy st vls vli vi qi) (St.addVertexVLC cfg n p xy st vls vli vi qi) := by
  unfold St.addVertexVLC St.addVertexC
  refine FLe.bind (FLe.bind' fun c => FLe.bind (findC_fle _ _ h _) fun r => FLe.bind' fun st' =>
    FLe.bind (debugCheck_fle cfg st' h) fun _ => .refl _) fun _ => .refl _

theorem addEndsC_fle (cfg : Cfg) (p : PolyList I V) (xy : V → Coords C) (st : St I C)
    (vls : List (VLoc I C)) (si : Nat) {k n : Nat} (h : k ≤ n) :
    FLe (St.addEndsC cfg k p xy st vls si) (St.addEndsC cfg n p xy st vls si) := by
  unfold St.addEndsC
  refine FLe.bind' fun vl0 => FLe.bind' fun vl1 => ?_
  have hv := fun (st : St I C) vls vli vi qi => addVertexVLC_fle cfg p xy st vls vli vi qi h
  cases vl0 <;> cases vl1
  · exact FLe.ite (FLe.bind (hv ..) fun _ => FLe.bind (hv ..) fun _ => .refl _)
      (FLe.bind (hv ..) fun _ => FLe.bind (hv ..) fun _ => .refl _)
  · exact FLe.bind (hv ..) fun _ => .refl _
  · exact FLe.bind (hv ..) fun _ => .refl _
  · exact .refl _

theorem addSegmentLoopC_fle (si : Nat) (s : Segment C) (l : St.SegLoop I C) {k n : Nat} (h : k ≤ n) :
    FLe (St.addSegmentLoopC si s k l) (St.addSegmentLoopC si s n l) := by
  induction k generalizing n l with
  | zero => exact .out _
  | succ k ih =>
    obtain ⟨n, rfl⟩ : ∃ m, n = m + 1 := ⟨n - 1, by omega⟩
    unfold St.addSegmentLoopC
    exact FLe.ite (.refl _) (FLe.bind' fun l' => FLe.bind (ih l' (by omega)) fun _ => .refl _)

theorem addSegmentC_fle (cfg : Cfg) (st : St I C) (a b : Nat) (c d : Coords C) {k n : Nat} (h : k ≤ n) :
    FLe (st.addSegmentC cfg k a b c d) (st.addSegmentC cfg n a b c d) := by
  unfold St.addSegmentC
  exact FLe.bind' fun l => FLe.bind (addSegmentLoopC_fle _ _ l h) fun l => FLe.bind' fun ns =>
    FLe.bind (debugCheck_fle cfg _ h) fun _ => .refl _

theorem addNthSegmentC_fle (cfg : Cfg) (p : PolyList I V) (xy : V → Coords C) (st : St I C)
    (vls : List (VLoc I C)) (si : Nat) {k n : Nat} (h : k ≤ n) :
    FLe (St.addNthSegmentC cfg k p xy st vls si) (St.addNthSegmentC cfg n p xy st vls si) := by
  unfold St.addNthSegmentC
  exact FLe.bind (addEndsC_fle cfg p xy st vls si h) fun r => FLe.bind' fun n0 => FLe.bind' fun n1 =>
    FLe.bind (FLe.ite (addSegmentC_fle cfg _ _ _ _ _ h) (addSegmentC_fle cfg _ _ _ _ _ h)) fun _ => .refl _

theorem walkC_fle (st : St I C) (dir : Dir) (c0 c1 : Coords C) (ti : Nat) {k n : Nat} (h : k ≤ n) :
    FLe (st.walkC dir c0 c1 k ti) (st.walkC dir c0 c1 n ti) := by
  induction k generalizing n ti with
  | zero => exact .out _
  | succ k ih =>
    obtain ⟨n, rfl⟩ : ∃ m, n = m + 1 := ⟨n - 1, by omega⟩
    unfold St.walkC
    refine FLe.bind' fun t => FLe.bind' fun done => FLe.ite (.refl _) ?_
    split
    · exact .refl _
    · exact FLe.bind' fun _ => FLe.bind (ih _ (by omega)) fun _ => .refl _

theorem relocStepC_fle (st : St I C) (r : St.Reloc I C) {k n : Nat} (h : k ≤ n) :
    FLe (St.relocStepC k st r) (St.relocStepC n st r) := by
  unfold St.relocStepC
  refine FLe.bind' fun vl => ?_
  cases vl with
  | inserted c ni => exact .refl _
  | pending c vi q =>
    exact FLe.bind' fun ti => FLe.bind (walkC_fle st _ _ _ _ h) fun _ => .refl _

theorem relocLoopC_fle (st : St I C) (r : St.Reloc I C) {f g k n : Nat} (hf : f ≤ g) (h : k ≤ n) :
    FLe (St.relocLoopC f st k r) (St.relocLoopC g st n r) := by
  induction k generalizing n r with
  | zero => exact .out _
  | succ k ih =>
    obtain ⟨n, rfl⟩ : ∃ m, n = m + 1 := ⟨n - 1, by omega⟩
    unfold St.relocLoopC
    exact FLe.ite (.refl _) (FLe.bind (relocStepC_fle st r hf) fun r' =>
      FLe.bind (ih r'.1 (by omega)) fun _ => .refl _)

theorem polyStepC_fle (cfg : Cfg) (p : PolyList I V) (xy : V → Coords C) (l : St.PolyLoop I C × Nat) (si : Nat)
    {k n : Nat} (h : k ≤ n) :
    FLe (St.polyStepC cfg k p xy l si) (St.polyStepC cfg n p xy l si) := by
  unfold St.polyStepC St.relocateC
  exact FLe.bind (addNthSegmentC_fle cfg p xy _ _ _ h) fun r => FLe.bind' fun pd =>
    FLe.ite (FLe.bind (relocLoopC_fle _ _ h h) fun _ => .refl _) (.refl _)

theorem buildStepC_fle (cfg : Cfg) (p : PolyList I V) (xy : V → Coords C) (l : St.BuildLoop I C × Nat)
    (e : Option (Elem I)) {k n : Nat} (h : k ≤ n) :
    FLe (St.buildStepC cfg k p xy l e) (St.buildStepC cfg n p xy l e) := by
  rcases e with _ | i | _
  · exact .refl _
  · exact .refl _
  · unfold St.buildStepC St.addPolygonC
    refine FLe.ite (FLe.ite (.refl _) ?_) (.refl _)
    refine FLe.bind (FLe.mapErr ?_) fun _ => .refl _
    exact FLe.bind (FLe.foldlM (fun s a => polyStepC_fle cfg p xy s a h) _ _) fun _ => .refl _

theorem trapezoidizeC_fle (cfg : Cfg) (p : PolyList I V) (xy : V → Coords C) {k n : Nat} (h : k ≤ n) :
    FLe (trapezoidizeC cfg k p xy) (trapezoidizeC cfg n p xy) := by
  unfold trapezoidizeC St.buildC
  exact FLe.bind (FLe.foldlM (fun s a => buildStepC_fle cfg p xy s a h) _ _) fun _ => .refl _

/-! ## Each loop makes at most as many passes as it is allowed -/

/-- What holds of a result holds of a counted one. -/
theorem Ens.cost {ε α : Type} {E E' : Fault ε → Prop} {P : α → Prop} {Q : α × Nat → Prop} {x : Res ε (α × Nat)}
    {y : Res ε α} (h : Ens E P y) (hxy : Res.fst x = y) (hx : Ens E' Q x) :
    Ens (fun _ => True) (fun r => P r.1 ∧ Q r) x := by
  subst hxy
  rcases x with e | ⟨a, n⟩
  · trivial
  · exact ⟨h, hx⟩

theorem findC_le (qs : List (QueryNode C)) (c : Coords C) (fuel qi : Nat) :
    Ens (fun _ => True) (fun r => r.2 ≤ fuel) (St.findC qs c fuel qi) := by
  induction fuel generalizing qi with
  | zero => trivial
  | succ k ih =>
    unfold St.findC
    refine Ens.bind (Ens.any _) fun q _ => ?_
    cases q with
    | branch l r b =>
      refine Ens.bind (ih _) fun r h => ?_
      show r.2 + 1 ≤ k + 1
      omega
    | sink ti => exact (by omega : 1 ≤ k + 1)

theorem addSegmentLoopC_le (si : Nat) (s : Segment C) (l : St.SegLoop I C) (fuel : Nat) :
    Ens (fun _ => True) (fun r => r.2 ≤ fuel) (St.addSegmentLoopC si s fuel l) := by
  induction fuel generalizing l with
  | zero => trivial
  | succ k ih =>
    unfold St.addSegmentLoopC
    refine Ens.ite (fun _ => Nat.zero_le _) fun _ => Ens.bind (Ens.any _) fun l' _ => Ens.bind (ih l') fun r h => ?_
    show r.2 + 1 ≤ k + 1
    omega

theorem walkC_le (st : St I C) (dir : Dir) (c0 c1 : Coords C) (ti fuel : Nat) :
    Ens (fun _ => True) (fun r => r.2 ≤ fuel) (st.walkC dir c0 c1 fuel ti) := by
  induction fuel generalizing ti with
  | zero => trivial
  | succ k ih =>
    unfold St.walkC
    refine Ens.bind (Ens.any _) fun t _ => Ens.bind (Ens.any _) fun d _ => Ens.ite (fun _ => ?_) fun _ => ?_
    · exact (by omega : 1 ≤ k + 1)
    · split
      · trivial
      · refine Ens.bind (Ens.any _) fun n _ => Ens.bind (ih _) fun r h => ?_
        show r.2 + 1 ≤ k + 1
        omega

theorem addVertexVLC_le (cfg : Cfg) (fuel : Nat) (p : PolyList I V) (xy : V → Coords C) (st : St I C)
    (vls : List (VLoc I C)) (vli : Nat) (vi : I) (qi : Nat) :
    Ens (fun _ => True) (fun r => r.2 ≤ fuel) (St.addVertexVLC cfg fuel p xy st vls vli vi qi) := by
  unfold St.addVertexVLC St.addVertexC
  refine Ens.bind (P := fun r => r.2 ≤ fuel) ?_ fun r h => Ens.bind (Ens.any _) fun _ _ => h
  exact Ens.bind (Ens.any _) fun c _ => Ens.bind (findC_le ..) fun r h =>
    Ens.bind (Ens.any _) fun _ _ => Ens.bind (Ens.any _) fun _ _ => h

theorem addEndsC_le (cfg : Cfg) (fuel : Nat) (p : PolyList I V) (xy : V → Coords C) (st : St I C)
    (vls : List (VLoc I C)) (si : Nat) :
    Ens (fun _ => True) (fun r => r.2 ≤ 2 * fuel) (St.addEndsC cfg fuel p xy st vls si) := by
  unfold St.addEndsC
  refine Ens.bind (Ens.any _) fun vl0 _ => Ens.bind (Ens.any _) fun vl1 _ => ?_
  have hv := fun (st : St I C) vls vli vi qi => addVertexVLC_le cfg fuel p xy st vls vli vi qi
  cases vl0 <;> cases vl1
  · refine Ens.ite (fun _ => ?_) fun _ => ?_
    · refine Ens.bind (hv ..) fun r h => Ens.bind (hv ..) fun r' h' => ?_
      show r.2 + r'.2 ≤ 2 * fuel
      omega
    · refine Ens.bind (hv ..) fun r h => Ens.bind (hv ..) fun r' h' => ?_
      show r.2 + r'.2 ≤ 2 * fuel
      omega
  · refine Ens.bind (hv ..) fun r h => ?_
    show r.2 ≤ 2 * fuel
    omega
  · refine Ens.bind (hv ..) fun r h => ?_
    show r.2 ≤ 2 * fuel
    omega
  · exact Nat.zero_le _

theorem addSegmentC_le (cfg : Cfg) (fuel : Nat) (st : St I C) (a b : Nat) (c d : Coords C) :
    Ens (fun _ => True) (fun r => r.2 ≤ fuel) (st.addSegmentC cfg fuel a b c d) := by
  unfold St.addSegmentC
  exact Ens.bind (Ens.any _) fun l _ => Ens.bind (addSegmentLoopC_le ..) fun r h =>
    Ens.bind (Ens.any _) fun _ _ => Ens.bind (Ens.any _) fun _ _ => h

theorem addNthSegmentC_le (cfg : Cfg) (fuel : Nat) (p : PolyList I V) (xy : V → Coords C) (st : St I C)
    (vls : List (VLoc I C)) (si : Nat) :
    Ens (fun _ => True) (fun r => r.2 ≤ 3 * fuel) (St.addNthSegmentC cfg fuel p xy st vls si) := by
  unfold St.addNthSegmentC
  refine Ens.bind (addEndsC_le cfg fuel p xy st vls si) fun r h => Ens.bind (Ens.any _) fun n0 _ =>
    Ens.bind (Ens.any _) fun n1 _ => Ens.bind (P := fun r => r.2 ≤ fuel)
      (Ens.ite (fun _ => addSegmentC_le ..) fun _ => addSegmentC_le ..) fun r' h' => ?_
  show r.2 + r'.2 ≤ 3 * fuel
  omega

theorem relocStepC_le (fuel : Nat) (st : St I C) (r : St.Reloc I C) :
    Ens (fun _ => True) (fun r => r.2 ≤ fuel) (St.relocStepC fuel st r) := by
  unfold St.relocStepC
  refine Ens.bind (Ens.any _) fun vl _ => ?_
  cases vl with
  | inserted c ni => exact Ens.bind (Ens.any _) fun _ _ => Nat.zero_le _
  | pending c vi q =>
    exact Ens.bind (Ens.any _) fun ti _ => Ens.bind (walkC_le ..) fun r h => Ens.bind (Ens.any _) fun _ _ =>
      Ens.bind (Ens.any _) fun _ _ => h

variable {A : I × Coords C → Prop}

/-- A relocation visits each vertex of the polygon at most once. -/
theorem relocLoopC_le {N : Nat} {st : St I C} (h : WF A st) (ht : Tidy N st) {fuel : Nat}
    (hf : st.ns.length + 1 < fuel) {vs : List (I × Coords C)} {L : Nat} (k : Nat)
    (r : St.Reloc I C) (hvl : VlsOK st.keys st.qs.length vs r.vls) (hloc : RLocOK st r.loc)
    (hpos : 0 < r.vls.length) (hL : r.unlocated = ahead r.vls r.target L) :
    Ens (fun _ => True) (fun x => x.2 ≤ L * (fuel + 1)) (St.relocLoopC fuel st k r) := by
  induction k generalizing r L with
  | zero => trivial
  | succ k ih =>
    unfold St.relocLoopC
    refine Ens.ite (fun _ => Nat.zero_le _) fun h0 => ?_
    cases L with
    | zero => exact absurd hL h0
    | succ L =>
      refine Ens.bind ((relocStep_ranked (E := fun _ => True) (fun _ => trivial) h ht hf r hvl hloc hpos h0 hL).cost
        (St.relocStepC_fst ..) (relocStepC_le ..)) ?_
      rintro ⟨r', c⟩ ⟨⟨h1, h2, h3, h4⟩, hc⟩
      refine Ens.bind (ih r' h1 h2 (by rw [h3]; exact hpos) h4) fun x hx => ?_
      show c + x.2 + 1 ≤ (L + 1) * (fuel + 1)
      simp only at hc
      rw [Nat.add_mul]
      omega

/-- What one pass of the loop of `add_polygon` does to the counters and costs. -/
theorem polyStepC_le {N : Nat} (cfg : Cfg) {fuel : Nat}
    (hf : enough N ≤ fuel) (p : PolyList I V) (xy : V → Coords C)
    {vs : List (I × Coords C)} (hvs : ∀ v ∈ vs, Src A p xy v) (hlen : 2 ≤ vs.length) {st0 : St I C}
    {done : List Nat} {l : St.PolyLoop I C} (h : PolyInv A vs st0 done l) (ht : Tidy N l.st)
    (hn : st0.ns.length + vs.length ≤ N) (hs : st0.ss.length + done.length < N)
    {si : Nat} (hsi : si < vs.length) (n : Nat) :
    Ens (fun _ => True) (fun r => r.1.i = l.i + 1 ∧
        (r.1.updateCount, r.1.nextUpdate) = (if l.i = l.nextUpdate then
          (l.updateCount + 1, cfg.mathN r.1.vls.length (l.updateCount + 1)) else (l.updateCount, l.nextUpdate)) ∧
        r.2 ≤ n + 1 + 3 * fuel + if l.i = l.nextUpdate then vs.length * (fuel + 1) else 0)
      (St.polyStepC cfg fuel p xy (l, n) si) := by
  have hsz : l.st.ns.length + (pend l.vls).length = st0.ns.length + vs.length := by
    have := h.perm.length_eq
    simpa [List.length_append, keys_length] using this
  have hss : l.st.ss.length = st0.ss.length + done.length := by
    obtain ⟨segs, h1, h2⟩ := h.ss
    rw [h1, List.length_append, h2.length_eq]
  have big := enough_big N
  unfold St.polyStepC
  refine Ens.bind (((addNthSegment_ranked (E := fun _ => True) (fun _ => trivial) h.wf ht cfg (fun _ => trivial) hf p xy
    hvs h.ok (by omega) (by omega) hlen hsi).with (addNthSegment_safe h.wf cfg fuel p xy hvs h.ok hlen si)).cost
    (St.addNthSegmentC_fst ..) (addNthSegmentC_le ..)) ?_
  rintro ⟨⟨st', vls', added⟩, k⟩ ⟨⟨ht', hn', hp⟩, hk⟩
  simp only at ht' hn' hp hk ⊢
  have hsz' : st'.ns.length + (pend vls').length = st0.ns.length + vs.length := by
    have := hn'.perm.length_eq
    simp only [List.length_append, keys_length] at this
    omega
  have hpd := h.pending
  refine Ens.bind (E := fun _ => True) (Ens.subP_le (by omega)) fun pd hpd' => ?_
  refine Ens.ite (fun hu => ?_) fun hu => ?_
  · have hl := hn'.ok.len
    have hposn : 0 < st'.ns.length := by
      obtain ⟨s, a, b, e1, e2, e3, e4⟩ := hn'.ss
      have := lt_of_get e4.1
      rw [keys_length] at this
      omega
    refine Ens.bind (relocLoopC_le hn'.wf ht' (L := vls'.length) (by omega) fuel _ hn'.ok hposn
      (by show 0 < vls'.length; omega) ?_) fun x hx => ?_
    · show pd = ahead vls' si vls'.length
      rw [ahead_cycle _ _ (by omega)]
      omega
    · rw [hl] at hx
      refine ⟨rfl, by rw [if_pos hu], ?_⟩
      rw [if_pos hu]
      show n + 1 + k + x.2 ≤ _
      omega
  · refine ⟨rfl, by rw [if_neg hu], ?_⟩
    rw [if_neg hu]
    show n + 1 + k ≤ _
    omega

/-- How many relocations the schedule of a polygon with `len` sides makes. -/
def relocations (cfg : Cfg) (len : Nat) : Nat := ((range len).filter fun i => relocAt (cfg.mathN len) i = true).card

theorem addPolygonC_le {N : Nat} {st : St I C} (h : WF A st) (ht : Tidy N st)
    (cfg : Cfg) (hcfg : cfg.Valid) {fuel : Nat}
    (hf : enough N ≤ fuel) (p : PolyList I V) (xy : V → Coords C) (k : Nat)
    {vs : List (I × Coords C)} (hvs : ∀ v ∈ vs, Src A p xy v) (hlen : 2 ≤ vs.length)
    (hn : st.ns.length + vs.length ≤ N) (hs : st.ss.length + vs.length ≤ N) :
    Ens (fun _ => True) (fun r => r.2 ≤ vs.length * (1 + 3 * fuel) +
        relocations cfg vs.length * (vs.length * (fuel + 1)))
      (St.addPolygonC cfg fuel p xy k st (startLocs vs)) := by
  have hol : (cfg.order k vs.length).length = vs.length := by
    rw [(hcfg k vs.length).length_eq, List.length_range]
  unfold St.addPolygonC
  have hl : (startLocs vs).length = vs.length := by simp [startLocs]
  rw [hl]
  have h0 : PolyInv A vs st [] ⟨st, startLocs vs, vs.length, 0, 1, cfg.mathN vs.length 1⟩ := by
    refine ⟨h, ⟨hl, ?_⟩, List.prefix_refl _, ?_, by simp, ?_, ⟨[], by simp, .nil⟩⟩
    · intro i v vl h1 h2
      simp only [startLocs, List.getElem?_map, h1, Option.map_some, Option.some.injEq] at h2
      subst h2
      exact ⟨rfl, h.root⟩
    · show (st.keys ++ pend (startLocs vs)).Perm _
      rw [pend_startLocs]
    · show _ = (pend (startLocs vs)).length
      rw [pend_startLocs]
  let m := cfg.mathN vs.length
  refine Ens.bind (Ens.foldlM (fun rest (l : St.PolyLoop I C × Nat) => Tidy N l.1.st ∧ ∃ done,
    cfg.order k vs.length = done ++ rest ∧ PolyInv A vs st done l.1 ∧ l.1.i = done.length ∧
    (l.1.updateCount, l.1.nextUpdate) = (sched m done.length).2 ∧
    l.2 ≤ done.length * (1 + 3 * fuel) +
      ((range done.length).filter fun i => relocAt m i = true).card * (vs.length * (fuel + 1))) ?_ _ _
      ⟨ht, [], rfl, h0, rfl, rfl, Nat.zero_le _⟩) ?_
  · rintro a rest ⟨l, n⟩ ⟨ht, done, hd, hi, hii, hsc, hcost⟩
    simp only at ht hi hii hsc hcost
    have hmem : a ∈ cfg.order k vs.length := by rw [hd]; simp
    have ha : a < vs.length := List.mem_range.1 ((hcfg k vs.length).subset hmem)
    have hdl : done.length < vs.length := by
      rw [hd] at hol
      simp only [List.length_append, List.length_cons] at hol
      omega
    refine Ens.imp (((polyStep_ranked (E := fun _ => True) (fun _ => trivial) cfg (fun _ => trivial) hf p xy hvs hlen hi ht
      hn (by omega) ha).with (polyStep_safe cfg fuel p xy hvs hlen hi a)).cost (St.polyStepC_fst ..)
      (polyStepC_le cfg hf p xy hvs hlen hi ht hn (by omega) ha n)) ?_
    rintro ⟨l', n'⟩ ⟨⟨h1, h2⟩, h3, h4, h5⟩
    simp only at h1 h2 h3 h4 h5
    have hup : l.updateCount = (sched m done.length).2.1 := congrArg Prod.fst hsc
    have hnx : l.nextUpdate = (sched m done.length).2.2 := congrArg Prod.snd hsc
    refine ⟨h1, done ++ [a], by simp [hd], h2, by simp [h3, hii], ?_, ?_⟩
    · rw [h4, List.length_append, List.length_singleton, sched, hii, hup, hnx, h2.ok.len]
      split <;> rfl
    · have e : (done ++ [a]).length = done.length + 1 := by simp
      rw [e, Finset.range_add_one, Finset.filter_insert]
      have hra : relocAt m done.length = true ↔ l.i = l.nextUpdate := by
        rw [relocAt, hii, hnx]; simp
      by_cases hu : l.i = l.nextUpdate
      · rw [if_pos hu] at h5
        rw [if_pos (hra.2 hu), Finset.card_insert_of_notMem (by simp)]
        show n' ≤ _
        rw [Nat.add_mul, Nat.add_mul]
        omega
      · rw [if_neg hu] at h5
        rw [if_neg fun h => hu (hra.1 h)]
        show n' ≤ _
        rw [Nat.add_mul]
        omega
  · rintro ⟨l, n⟩ ⟨-, done, hd, -, -, -, hc⟩
    rw [List.append_nil] at hd
    rw [← hd, hol] at hc
    exact hc

theorem buildStepC_le (cfg : Cfg) (hcfg : cfg.Valid) {fuel : Nat} (p : PolyList I V)
    (xy : V → Coords C) (hf : enough (conts p.elems) ≤ fuel) {R : Nat}
    (hR : ∀ len ≤ conts p.elems, relocations cfg len ≤ R) {e : Option (Elem I)}
    {rest : List (Option (Elem I))} {l : St.BuildLoop I C} {n : Nat} (h : BuildRank p xy (e :: rest) l)
    (hc : n + l.vLookup.length * (1 + 3 * fuel + R * (fuel + 1)) +
        conts (e :: rest) * (1 + 3 * fuel + R * (fuel + 1)) ≤ conts p.elems * (1 + 3 * fuel + R * (fuel + 1))) :
    Ens (fun _ => True) (fun r => BuildRank p xy rest r.1 ∧
        r.2 + r.1.vLookup.length * (1 + 3 * fuel + R * (fuel + 1)) +
        conts rest * (1 + 3 * fuel + R * (fuel + 1)) ≤ conts p.elems * (1 + 3 * fuel + R * (fuel + 1)))
      (St.buildStepC cfg fuel p xy (l, n) e) := by
  generalize hF : 1 + 3 * fuel + R * (fuel + 1) = F at hc ⊢
  refine (buildStep_ranked cfg hcfg p xy hf h).cost (St.buildStepC_fst ..) (E' := fun _ => True) ?_
  obtain ⟨⟨hwf, vs, hvs, hsrc⟩, ht, hns, hss, -⟩ := h
  have hlv : l.vLookup.length = vs.length := by rw [hvs]; simp [startLocs]
  unfold St.buildStepC
  dsimp only
  split
  · trivial
  · rename_i i
    have he : conts (some (.cont i) :: rest) = conts rest + 1 := by simp [conts]
    rw [he] at hc
    refine Ens.bind (Ens.any _) fun c _ => ?_
    show n + (l.vLookup ++ [_]).length * F + conts rest * F ≤ _
    rw [List.length_append, List.length_singleton, Nat.add_mul]
    rw [Nat.add_mul] at hc
    omega
  · have he : conts (some .newPolygon :: rest) = conts rest := by simp [conts]
    rw [he] at hc hns hss
    refine Ens.ite (fun _ => Ens.ite (fun _ => trivial) fun hlen => ?_) fun _ => hc
    rw [hvs]
    refine Ens.bind (P := fun r => r.2 ≤ vs.length * F) (Ens.mapErr (E := fun _ => True) (E' := fun _ => True)
      ((addPolygonC_le hwf ht cfg hcfg hf p xy l.k hsrc (by omega) (by omega) (by omega)).imp fun r hr => ?_)
      (fun _ _ => trivial) (fun _ => trivial) (fun _ => trivial) fun _ => trivial) fun r hr => ?_
    · refine hr.trans ?_
      rw [← hF, Nat.mul_add _ (1 + 3 * fuel) (R * (fuel + 1))]
      have := Nat.mul_le_mul_right (vs.length * (fuel + 1)) (hR vs.length (by omega))
      rw [Nat.mul_left_comm vs.length R]
      omega
    · show n + r.2 + ([] : List (VLoc I C)).length * F + conts rest * F ≤ _
      rw [hlv] at hc
      simp only [List.length_nil, Nat.zero_mul]
      omega

/-- The cost with the least number of passes that suffices. -/
theorem trapezoidizeC_le (cfg : Cfg) (hcfg : cfg.Valid) {fuel : Nat} (p : PolyList I V)
    (xy : V → Coords C) (hf : enough (conts p.elems) ≤ fuel) {R : Nat}
    (hR : ∀ len ≤ conts p.elems, relocations cfg len ≤ R) :
    Ens (fun _ => True) (fun r => r.2 ≤ conts p.elems * (1 + 3 * fuel + R * (fuel + 1)))
      (trapezoidizeC cfg fuel p xy) := by
  unfold trapezoidizeC St.buildC
  generalize hF : 1 + 3 * fuel + R * (fuel + 1) = F
  have hz : conts (p.elems ++ [some .newPolygon]) = conts p.elems := by simp [conts]
  refine Ens.bind (Ens.foldlM (fun rest (r : St.BuildLoop I C × Nat) => BuildRank p xy rest r.1 ∧
    r.2 + r.1.vLookup.length * F + conts rest * F ≤ conts p.elems * F) (fun a l s h => ?_) _ _
    ⟨(?_ : BuildRank p xy (p.elems ++ [some .newPolygon]) ⟨St.init, [], 0⟩), ?_⟩) ?_
  · subst hF
    exact buildStepC_le cfg hcfg p xy hf hR h.1 h.2
  · refine ⟨⟨WF.init, [], rfl, by simp⟩, Tidy.init _, ?_, ?_, ?_⟩
    · simp [St.init, conts]
    · simp [St.init, conts]
    · intro e he
      rcases List.mem_append.1 he with h | h
      · exact .inr h
      · exact .inl (List.mem_singleton.1 h)
  · simp [hz]
  · rintro ⟨l, n⟩ ⟨-, h⟩
    show n ≤ _
    simp only at h
    omega

/-- The cost of every trapezoidation that ends. -/
theorem trapezoidizeC_worst (cfg : Cfg) (hcfg : cfg.Valid) {fuel : Nat} (p : PolyList I V)
    (xy : V → Coords C) (hf : enough (conts p.elems) ≤ fuel) {R : Nat}
    (hR : ∀ len ≤ conts p.elems, relocations cfg len ≤ R) {st : St I C} {k : Nat}
    (h : trapezoidizeC cfg fuel p xy = .ok (st, k)) :
    k ≤ conts p.elems * (1 + 3 * enough (conts p.elems) + R * (enough (conts p.elems) + 1)) := by
  refine (trapezoidizeC_le cfg hcfg p xy (le_refl _) hR).of_ok (a := (st, k)) ?_
  rcases trapezoidizeC_fle cfg p xy hf with h0 | h0
  · exfalso
    have h1 := trapezoidize_ranked cfg hcfg p xy (le_refl (enough (conts p.elems)))
    have h2 := St.buildC_fst cfg (enough (conts p.elems)) p xy
    unfold trapezoidizeC at h0
    rw [h0] at h2
    unfold trapezoidize at h1
    rw [← h2] at h1
    exact h1
  · rw [← h0, h]

end Tri
