import Verif.Proof.Stream
import Verif.Props.Inputs
import Verif.Props.Safety

/-!
# C66: index iterators that never end
-/

namespace Tri

variable {I V C : Type}

/-- The first calls of `next()` return the elements of `es`. -/
def IndexIter.Yields (it : IndexIter I) (es : List (Option (Elem I))) : Prop := ∀ i (h : i < es.length), it.nth i = some es[i]

theorem IndexIter.Yields.eq {it : IndexIter I} {es : List (Option (Elem I))} (h : it.Yields es) : it.firstFrom 0 es.length = es := by
  unfold firstFrom
  refine List.ext_getElem (by simp) fun i h1 h2 => ?_
  simp [h i h2]

theorem IndexIter.firstFrom_append (it : IndexIter I) (n m : Nat) :
    it.firstFrom 0 (n + m) = it.firstFrom 0 n ++ it.firstFrom n m := by
  unfold firstFrom
  rw [List.range_add, List.map_append, List.map_map]
  simp [Function.comp_def]

variable [Scalar C] [DecidableEq I]

/-- The elements so far, without an end. -/
def foldFirst (cfg : Cfg) (fuel : Nat) (p : PolyList I V) (xy : V → Coords C) (es : List (Option (Elem I))) :
    Res TrapErr (St.BuildLoop I C) := es.foldlM (St.buildStep cfg fuel p xy) ⟨St.init, [], 0⟩

theorem trapezoidize_of_fold (cfg : Cfg) (fuel : Nat) (p : PolyList I V) (xy : V → Coords C) (es es' : List (Option (Elem I))) (e : Fault TrapErr)
    (h : foldFirst cfg fuel p xy es = .error e) : trapezoidize cfg fuel (p.withElems (es ++ es')) xy = .error e := by
  unfold trapezoidize St.build
  show (((es ++ es') ++ [some Elem.newPolygon]).foldlM (St.buildStep cfg fuel p xy) ⟨St.init, [], 0⟩ >>= _) = _
  rw [List.append_assoc, List.foldlM_append]
  unfold foldFirst at h
  rw [h]
  rfl

theorem fold_fle (cfg : Cfg) (p : PolyList I V) (xy : V → Coords C) (es : List (Option (Elem I))) {k n : Nat} (h : k ≤ n) :
    FLe (foldFirst cfg k p xy es) (foldFirst cfg n p xy es) :=
  FLe.foldlM (fun s a => buildStep_fle cfg p xy s a h) _ _

theorem fold_ends (cfg : Cfg) (hcfg : cfg.Valid) (p : PolyList I V) (xy : V → Coords C) (es : List (Option (Elem I))) (fuel : Nat)
    (hf : 2 * es.length + 3 ≤ fuel) : foldFirst cfg fuel p xy es ≠ .error .timeout := by
  intro h
  have h1 := trapezoidize_of_fold cfg fuel p xy es [] _ h
  obtain ⟨r, h2, h3, -⟩ := C37_trapezoidation_ends cfg hcfg (p.withElems (es ++ [])) xy
  rw [List.append_nil] at h1 h2
  rw [h2 fuel hf] at h1
  exact h3 h1

theorem fold_const (cfg : Cfg) (hcfg : cfg.Valid) (p : PolyList I V) (xy : V → Coords C) (es : List (Option (Elem I))) (fuel : Nat)
    (hf : 2 * es.length + 3 ≤ fuel) : foldFirst cfg fuel p xy es = foldFirst cfg (2 * es.length + 3) p xy es :=
  (fold_fle cfg p xy es hf).resolve_left (fold_ends cfg hcfg p xy es _ (Nat.le_refl _))

theorem trapezoidizeIter_endless (cfg : Cfg) (fuel : Nat) (p : PolyList I V) (xy : V → Coords C) (it : IndexIter I) (h : ∀ i, (it.nth i).isSome) :
    trapezoidizeIter cfg fuel p xy it = foldFirst cfg fuel p xy (it.firstFrom 0 fuel) >>= fun _ => .error .timeout := by
  unfold trapezoidizeIter
  rw [show it.start = it.after 0 from rfl, buildIter_endless cfg fuel p xy it h 0 fuel, bind_assoc]
  rfl

/-- **C66.**  The elements are taken from the iterator one at a time, and polygons added when they are complete.  For an iterator that ends this
makes no difference: the results are those for the list of its elements. -/
theorem C66_iterator_that_ends (cfg : Cfg) (fuel : Nat) (p : PolyList I V) (xy : V → Coords C) (it : IndexIter I) (es : List (Option (Elem I)))
    (h : it.Yields es) (he : it.nth es.length = none) (hf : es.length < fuel) :
    trapezoidizeIter cfg fuel p xy it = trapezoidize cfg fuel (p.withElems es) xy ∧
      ∀ F : FanFormat I, triangulateIter cfg fuel p xy it F = triangulate cfg fuel (p.withElems es) xy F := by
  have h1 : trapezoidizeIter cfg fuel p xy it = trapezoidize cfg fuel (p.withElems es) xy := by
    unfold trapezoidizeIter
    rw [show it.start = it.after 0 from rfl, buildIter_ends cfg fuel p xy it es.length 0 fuel hf
      (fun i hi => by rw [Nat.zero_add, h i hi]; rfl) (by rw [Nat.zero_add]; exact he), h.eq]
    rfl
  refine ⟨h1, fun F => ?_⟩
  rw [triangulate_withElems]
  unfold triangulateIter
  rw [h1]
  cases Res.mapErr TriErr.trapezoidation (trapezoidize cfg fuel (p.withElems es) xy) <;> rfl

/-- **C66.**  With an iterator that never ends there is never a result, and the format is never used.  Either the call does not return, or it returns
or panics because of what the iterator yielded first: then each list that begins in this way ends the same. -/
theorem C66_endless_iterator (cfg : Cfg) (hcfg : cfg.Valid) (p : PolyList I V) (xy : V → Coords C) (it : IndexIter I)
    (h : ∀ i, (it.nth i).isSome) :
    (∀ fuel, ∀ F : FanFormat I, triangulateIter cfg fuel p xy it F = (F.unused, .error .timeout)) ∨
    ∃ (n : Nat) (e : Fault TrapErr), e ≠ .timeout ∧ e ≠ .ub ∧
      (∀ fuel ≥ 2 * n + 3, trapezoidizeIter cfg fuel p xy it = .error e ∧
        ∀ F : FanFormat I, triangulateIter cfg fuel p xy it F = (F.unused, Res.mapErr TriErr.trapezoidation (.error e))) ∧
      ∀ es es', it.Yields es → n ≤ es.length → ∀ fuel ≥ 2 * n + 3,
        trapezoidize cfg fuel (p.withElems (es ++ es')) xy = .error e := by
  by_cases hc : ∃ n e, foldFirst cfg (2 * n + 3) p xy (it.firstFrom 0 n) = .error e
  · obtain ⟨n, e, he⟩ := hc
    have hlen : (it.firstFrom 0 n).length = n := by simp [IndexIter.firstFrom]
    have he' : ∀ fuel ≥ 2 * n + 3, foldFirst cfg fuel p xy (it.firstFrom 0 n) = .error e := by
      intro fuel hf
      have := fold_const cfg hcfg p xy (it.firstFrom 0 n) fuel (by rw [hlen]; exact hf)
      rw [this, hlen, he]
    have hne : e ≠ .timeout := by
      rintro rfl
      exact fold_ends cfg hcfg p xy (it.firstFrom 0 n) (2 * n + 3) (by rw [hlen]) he
    have htr : ∀ fuel ≥ 2 * n + 3, trapezoidizeIter cfg fuel p xy it = .error e := by
      intro fuel hf
      rw [trapezoidizeIter_endless cfg fuel p xy it h]
      obtain ⟨m, rfl⟩ : ∃ m, fuel = n + m := ⟨fuel - n, by omega⟩
      rw [IndexIter.firstFrom_append]
      have h1 := he' (n + m) hf
      unfold foldFirst at h1 ⊢
      rw [List.foldlM_append, h1]
      rfl
    refine .inr ⟨n, e, hne, ?_, fun fuel hf => ⟨htr fuel hf, fun F => ?_⟩, fun es es' hy hl fuel hf => ?_⟩
    · rintro rfl
      have h1 := trapezoidize_of_fold cfg _ p xy (it.firstFrom 0 n) [] _ he
      exact (C07_no_undefined_behaviour cfg _ _ xy).1 h1
    · unfold triangulateIter
      rw [htr fuel hf]
      cases e <;> rfl
    · obtain ⟨m, hm⟩ : ∃ m, es.length = n + m := ⟨es.length - n, by omega⟩
      have h1 := hy.eq
      rw [hm, IndexIter.firstFrom_append] at h1
      rw [← h1, List.append_assoc]
      exact trapezoidize_of_fold cfg fuel p xy _ _ _ (he' fuel hf)
  · left
    intro fuel F
    have h1 : trapezoidizeIter cfg fuel p xy it = .error .timeout := by
      rw [trapezoidizeIter_endless cfg fuel p xy it h]
      cases h2 : foldFirst cfg fuel p xy (it.firstFrom 0 fuel) with
      | ok l => rfl
      | error e =>
        rcases fold_fle cfg p xy (it.firstFrom 0 fuel) (show fuel ≤ 2 * fuel + 3 by omega) with h3 | h3
        · rw [h2] at h3
          rw [h3]
          rfl
        · exact (hc ⟨fuel, e, h3.trans h2⟩).elim
    unfold triangulateIter
    rw [h1]
    rfl

/-- **C66.**  If only separators come after the polygons then the call returns exactly if it reports an error for these polygons: errors are reported
without waiting for the end, and a success is not. -/
theorem C66_separators_without_end (cfg : Cfg) (hcfg : cfg.Valid) (p : PolyList I V) (xy : V → Coords C) (it : IndexIter I)
    (es : List (Option (Elem I))) (hy : it.Yields es) (h : ∀ i ≥ es.length, it.nth i = some (some .newPolygon)) :
    (∀ st, trapezoidize cfg (2 * es.length + 3) (p.withElems es) xy = .ok st →
      ∀ fuel, ∀ F : FanFormat I, triangulateIter cfg fuel p xy it F = (F.unused, .error .timeout)) ∧
    (∀ e, trapezoidize cfg (2 * es.length + 3) (p.withElems es) xy = .error e →
      ∀ fuel ≥ 2 * es.length + 5, ∀ F : FanFormat I,
        triangulateIter cfg fuel p xy it F = (F.unused, Res.mapErr TriErr.trapezoidation (.error e))) := by
  have hs : ∀ i, (it.nth i).isSome := by
    intro i
    by_cases hi : i < es.length
    · rw [hy i hi]; rfl
    · rw [h i (by omega)]; rfl
  have hsep : ∀ m, it.Yields (es ++ List.replicate m (some .newPolygon)) := by
    intro m i hi
    by_cases hil : i < es.length
    · rw [hy i hil, List.getElem_append_left hil]
    · rw [h i (by omega), List.getElem_append_right (by omega), List.getElem_replicate]
  have hsame : ∀ fuel m, trapezoidize cfg fuel (p.withElems (es ++ List.replicate m (some .newPolygon))) xy =
      trapezoidize cfg fuel (p.withElems es) xy := by
    intro fuel m
    induction m with
    | zero => simp
    | succ m ih =>
      rw [List.replicate_succ', ← List.append_assoc]
      exact (((C09_separators cfg fuel p xy).2 _ _ (.inr (.inl ⟨_, rfl, rfl⟩))).1).symm.trans ih
  have hconst : ∀ fuel ≥ 2 * es.length + 3, trapezoidize cfg fuel (p.withElems es) xy =
      trapezoidize cfg (2 * es.length + 3) (p.withElems es) xy := by
    obtain ⟨r, hr, -⟩ := C37_trapezoidation_ends cfg hcfg (p.withElems es) xy
    intro fuel hf
    exact (hr fuel hf).trans (hr _ (Nat.le_refl _)).symm
  constructor
  · intro st hst
    rcases C66_endless_iterator cfg hcfg p xy it hs with h1 | ⟨n, e, -, -, -, h2⟩
    · exact h1
    · have h3 := h2 _ [] (hsep n) (by simp) (max (2 * n + 3) (2 * es.length + 3)) (le_max_left _ _)
      rw [List.append_nil, hsame, hconst _ (le_max_right _ _), hst] at h3
      cases h3
  · intro e he fuel hf F
    have h1 : foldFirst cfg fuel p xy (es ++ [some .newPolygon]) = .error e := by
      have h2 := (hconst fuel (by omega)).trans he
      unfold trapezoidize St.build at h2
      change (((p.withElems es).elems ++ [some Elem.newPolygon]).foldlM (St.buildStep cfg fuel p xy) ⟨St.init, [], 0⟩ >>= _) = _ at h2
      unfold foldFirst
      change ((es ++ [some Elem.newPolygon]).foldlM (St.buildStep cfg fuel p xy) ⟨St.init, [], 0⟩ >>= _) = _ at h2
      cases h3 : (es ++ [some Elem.newPolygon]).foldlM (St.buildStep cfg fuel p xy) ⟨St.init, [], 0⟩ with
      | ok l => rw [h3] at h2; cases h2
      | error e' => rw [h3] at h2; cases h2; rfl
    have h4 : trapezoidizeIter cfg fuel p xy it = .error e := by
      rw [trapezoidizeIter_endless cfg fuel p xy it hs]
      obtain ⟨m, hm⟩ : ∃ m, fuel = (es.length + 1) + m := ⟨fuel - (es.length + 1), by omega⟩
      have h5 := (hsep 1).eq
      rw [List.length_append, List.length_replicate] at h5
      rw [show it.firstFrom 0 fuel = it.firstFrom 0 (es.length + 1 + m) by rw [hm], IndexIter.firstFrom_append, h5]
      unfold foldFirst at h1 ⊢
      rw [List.foldlM_append, show es ++ List.replicate 1 (some Elem.newPolygon) = es ++ [some .newPolygon] from rfl, h1]
      rfl
    unfold triangulateIter
    rw [h4]
    cases e <;> rfl

omit [Scalar C] [DecidableEq I] in
/-- **C66.**  The library's iterator for slices of polygons does end, and yields the vertices of each polygon in order with a separator after each
polygon. -/
theorem C66_nested_iterator (pss : List (List V)) :
    (IndexIter.nested pss).Yields (PolyList.nested pss).elems ∧
      (IndexIter.nested pss).nth (PolyList.nested pss).elems.length = none ∧
      (PolyList.nested pss).elems.length = (pss.map List.length).sum + pss.length := by
  have hlen := nestedElems_length pss 0
  have hcol := collect_nested pss pss 0 rfl ((pss.map List.length).sum + pss.length + 1) (by omega)
  have hel : (PolyList.nested pss).elems = (nestedElems pss 0).map some := by
    simp only [PolyList.nested]
    rw [hcol]
  obtain ⟨h1, h2⟩ := IndexIter.nested_collect pss ((pss.map List.length).sum + pss.length + 1) 0 _ (by omega) hcol
  unfold IndexIter.Yields
  rw [hel]
  refine ⟨fun i h => ?_, ?_, by rw [List.length_map, hlen]⟩
  · have h3 := h1 i (by simpa using h)
    rw [Nat.zero_add] at h3
    rw [h3]
    simp
  · rw [List.length_map, ← h2, Nat.zero_add]

/-! ### The hypotheses are met -/

/-- The vertices `0, …, n - 1`, and then separators. -/
def triangleThen (n : Nat) : IndexIter Nat := ⟨Nat, 0, fun i => (some (some (if i < n then .cont i else .newPolygon)), i + 1)⟩

theorem triangleThen_nth (n i : Nat) : (triangleThen n).nth i = some (some (if i < n then .cont i else .newPolygon)) := by
  have h : ∀ i, (triangleThen n).after i = i := by
    intro i
    induction i with
    | zero => rfl
    | succ i ih =>
      show ((triangleThen n).next ((triangleThen n).after i)).2 = _
      rw [ih]
      rfl
  unfold IndexIter.nth
  rw [h i]
  rfl

theorem triangleThen_yields (n : Nat) : (triangleThen n).Yields ((List.range n).map fun i => some (.cont i)) := by
  intro i hi
  rw [triangleThen_nth]
  simp only [List.length_map, List.length_range] at hi
  simp [hi]

section
attribute [local instance] exact

/-- A triangle is triangulated if the iterator ends, and the call does not return if only separators follow. -/
example : (triangulate (Cfg.plain (fun _ _ => 1) true) 50 (PolyList.single [⟨0, 0⟩, ⟨2, 0⟩, ⟨1, (1 : ℚ)⟩]) id (recorder Nat .counterclockwise)).2 =
      .ok [.newFan 2 0 1] ∧
    ∀ fuel, (triangulateIter (Cfg.plain (fun _ _ => 1) true) fuel (PolyList.single [⟨0, 0⟩, ⟨2, 0⟩, ⟨1, (1 : ℚ)⟩]) id (triangleThen 3)
      (recorder Nat .counterclockwise)).2 = .error .timeout := by
  refine ⟨by decide +kernel, fun fuel => ?_⟩
  have h := (C66_separators_without_end (Cfg.plain (fun _ _ => 1) true) (Cfg.plain_valid _ _) (PolyList.single [⟨0, 0⟩, ⟨2, 0⟩, ⟨1, (1 : ℚ)⟩]) id
    (triangleThen 3) _ (triangleThen_yields 3) (fun i hi => by
      rw [triangleThen_nth, if_neg (by simpa using hi)])).1
  cases hst : trapezoidize (Cfg.plain (fun _ _ => 1) true) (2 * ((List.range 3).map fun i => some (Elem.cont i)).length + 3)
      ((PolyList.single [⟨0, 0⟩, ⟨2, 0⟩, ⟨1, (1 : ℚ)⟩]).withElems ((List.range 3).map fun i => some (.cont i))) id with
  | ok st => rw [h st hst fuel]
  | error e =>
    have h2 : (trapezoidize (Cfg.plain (fun _ _ => 1) true) (2 * ((List.range 3).map fun i => some (Elem.cont i)).length + 3)
      ((PolyList.single [⟨0, 0⟩, ⟨2, 0⟩, ⟨1, (1 : ℚ)⟩]).withElems ((List.range 3).map fun i => some (.cont i))) id).map (fun st => st.ns.length) = .ok 3 := by
      decide +kernel
    rw [hst] at h2
    cases h2

/-- Two corners and then separators: the error is reported. -/
example (fuel : Nat) (hf : 9 ≤ fuel) :
    (triangulateIter (Cfg.plain (fun _ _ => 1) true) fuel (PolyList.single [⟨0, 0⟩, ⟨2, 0⟩, ⟨1, (1 : ℚ)⟩]) id (triangleThen 2)
      (recorder Nat .counterclockwise)).2 = .error (.err (.trapezoidation (.notEnoughVertices 2))) := by
  have h := (C66_separators_without_end (Cfg.plain (fun _ _ => 1) true) (Cfg.plain_valid _ _) (PolyList.single [⟨0, 0⟩, ⟨2, 0⟩, ⟨1, (1 : ℚ)⟩]) id
    (triangleThen 2) _ (triangleThen_yields 2) (fun i hi => by
      rw [triangleThen_nth, if_neg (by simpa using hi)])).2 (.err (.notEnoughVertices 2)) rfl fuel hf (recorder Nat .counterclockwise)
  rw [h]
  rfl

end

end Tri
