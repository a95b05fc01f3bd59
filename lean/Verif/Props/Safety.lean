import Verif.Proof.Containers
import Verif.Spec.Exact

/-!
# C06, C07, C16, C23: provenance of indices, absence of undefined behaviour, sizes

All of this is for an arbitrary `Scalar`: comparisons and arithmetic on coordinates may answer
anything, so NaN, infinities, rounding and invalid polygons are included.
-/

namespace Tri

variable {I V C : Type} [Scalar C] [DecidableEq I]

/-- **C06.**  Every index in a call on any format `F` (successful or not) was yielded by the polygon
list's index iterator. -/
theorem C06_only_input_indices (cfg : Cfg) (fuel : Nat) (p : PolyList I V) (xy : V → Coords C)
    (F : FanFormat I) :
    ∀ x ∈ (triangulate cfg fuel p xy F.logged).1.2, ∀ c, x.call? = some c →
      ∀ i ∈ c.indices, some (.cont i) ∈ p.elems := by
  rcases triangulate_cases_src cfg fuel p xy F.winding with ⟨e, -, h⟩ | ⟨cs, r, hcs, hB, -, h⟩
  · simp [h]
  · rw [h F.logged rfl, play_logged]
    intro x hx c hc i hi
    refine (hB c ?_ i hi).1
    have hmem : c ∈ (logOf F cs r).filterMap Ev.call? := List.mem_filterMap.2 ⟨x, hx, hc⟩
    rcases logOf_shape F cs hcs r with ⟨-, hl⟩ | ⟨pre, post, hl, -, hq, -, hc', -⟩ |
        ⟨pre, x', post, e, c', hl, -, hq, hx', -, hc', -⟩
    · rw [hl] at hmem; simp at hmem
    · rw [hl] at hmem
      rw [← hc']
      simpa [hq] using hmem
    · have hpost : post.filterMap Ev.call? = [] := by
        rw [List.filterMap_eq_nil_iff]
        exact fun y hy => (hq y hy).1
      have hcalls : (logOf F cs r).filterMap Ev.call? = pre.filterMap Ev.call? ++ [c'] := by
        rw [hl]; simp [hx', hpost]
      rw [hcalls] at hmem
      exact hc'.subset hmem

/-- **C07.**  Neither the trapezoidation nor the triangulation with any format (whose own operations
are free of it) has undefined behaviour: no unchecked access is out of range. -/
theorem C07_no_undefined_behaviour (cfg : Cfg) (fuel : Nat) (p : PolyList I V) (xy : V → Coords C) :
    trapezoidize cfg fuel p xy ≠ .error .ub ∧
    ∀ F : FanFormat I, F.NoUB → (triangulate cfg fuel p xy F).2 ≠ .error .ub := by
  refine ⟨?_, fun F hF => ?_⟩
  · have hs := trapezoidize_safe (A := fun _ => True) cfg fuel p xy fun _ _ _ _ => trivial
    intro h
    exact hs.of_error h rfl
  · rcases triangulate_cases_src cfg fuel p xy F.winding with ⟨e, he, h⟩ | ⟨cs, r, -, -, hr, h⟩
    · rw [h F]
      cases e <;> simp_all
    · rw [h F rfl]
      have hfin : ∀ (b : F.B) (r : Res (TriErr F.E) Unit), r ≠ .error .ub →
          (finishB F b r).2 ≠ .error .ub := by
        intro b r hr
        rcases r with (e | _ | _ | _) | u
        · simp [finishB]
        · simp [finishB]
        · exact absurd rfl hr
        · simp [finishB]
        · simp only [finishB]
          have := hF.build b
          rcases hq : F.build b with ⟨w, (e | _ | _ | _) | o⟩ <;> simp_all [liftBuilderErr]
      have hfeed : ∀ (cs : List (Call I)) (b : F.B), (feedB F cs b).2 ≠ .error .ub := by
        intro cs
        induction cs with
        | nil => intro b; simp [feedB]
        | cons c cs ih =>
          intro b
          cases c with
          | newFan x y z =>
            simp only [feedB]
            have := hF.newFan b x y z
            rcases hq : F.newFan b x y z with ⟨b', e | u⟩
            · rw [hq] at this; exact this
            · exact ih b'
          | extend v =>
            simp only [feedB]
            have := hF.extendFan b v
            rcases hq : F.extendFan b v with ⟨b', e | u⟩
            · rw [hq] at this; exact this
            · exact ih b'
      have hr' : ∀ {E : Type}, (liftInner r : Res (TriErr E) Unit) ≠ .error .ub := by
        intro E
        rcases r with (e | _ | _ | _) | u <;> simp_all [liftInner, liftInternal]
      have hr2 : ∀ e, r = .error e → (liftInternal e : Fault (TriErr F.E)) ≠ .ub := by
        intro e he
        subst he
        cases e <;> simp_all [liftInternal]
      rcases cs with _ | ⟨c, cs⟩
      · rcases r with e | u
        · simpa [play] using hr2 e rfl
        · simp [play]
      · cases c with
        | extend v =>
          rcases r with e | u
          · simpa [play] using hr2 e rfl
          · simp [play]
        | newFan x y z =>
          simp only [play]
          have hst := hF.start x y z
          rcases hq : F.start x y z with ⟨e, w⟩ | b
          · have := hst w
            cases e <;> simp_all [liftBuilderErr]
          · have h1 := hfeed cs b
            rcases hq : feedB F cs b with ⟨b', e | u⟩
            · rw [hq] at h1
              simp only [hq]
              refine hfin b' _ ?_
              cases e <;> simp_all [liftBuilderErr]
            · simp only [hq]
              exact hfin b' _ hr'

/-- **C16.**  The deindexed formats produce the fans (or their triangles) with every index replaced by
the vertex it names, after the previous content `pre`; they fail exactly when a run that only records
calls fails, with the same error. -/
theorem C16_deindexed_looks_up (cfg : Cfg) (fuel : Nat) (p : PolyList I V) (xy : V → Coords C)
    (pre : List (List V)) (preT : List (V × V × V)) :
    let rec_ := triangulate cfg fuel p xy (recorder I .counterclockwise)
    let out := triangulate cfg fuel p xy (deindexedFan p pre)
    let outT := triangulate cfg fuel p xy (deindexedList p preT).intoFanFormat
    ∃ fans vfans, HandsOver rec_.1 fans ∧
      List.Forall₂ (List.Forall₂ fun i v => p.getVertex i = some v) fans vfans ∧
      (∀ cs, rec_.2 = .ok cs →
        out = (pre ++ vfans, .ok (pre ++ vfans)) ∧
        outT = (preT ++ vfans.flatMap fanTriangles, .ok (preT ++ vfans.flatMap fanTriangles))) ∧
      (∀ e, rec_.2 = .error e → out.2 = .error e ∧ outT.2 = .error e) := by
  rcases deindexed_cases cfg fuel p xy with ⟨e, h⟩ | ⟨cs, r, fans, vcs, vfans, h0, hf, hvf, hl, hne, hF, hL, -⟩
  · simp only [h]
    exact ⟨[], [], ⟨by simp, rfl⟩, .nil, fun cs h => (by cases h), fun _ h => (by cases h; exact ⟨rfl, rfl⟩)⟩
  · simp only [h0, hF, hL, playList_triples]
    refine ⟨fans, vfans, hf, hl, ?_⟩
    have hp := play_indexed pre _ _ hvf r
    cases cs with
    | nil =>
      obtain ⟨rfl, rfl⟩ := hne.1 rfl
      refine ⟨fun cs h => ?_, fun e he => ?_⟩
      · rcases r with e | u <;> cases h
      · rcases r with e | u <;> cases he <;> exact ⟨rfl, rfl⟩
    | cons c cs =>
      have hts := hvf.triangles_ne fun h => nomatch (hne.2 h)
      generalize vfans.flatMap fanTriangles = ts at hts ⊢
      have hvc : ∃ c' l, vcs = c' :: l := by
        cases vcs with
        | nil =>
          have h1 : vfans = [] := hvf.nil
          exact absurd (hne.2 ⟨rfl, h1⟩) (by simp)
        | cons c l => exact ⟨c, l, rfl⟩
      obtain ⟨c', l, rfl⟩ := hvc
      cases ts with
      | nil => exact absurd rfl hts
      | cons t ts =>
        refine ⟨fun cs' h => ?_, fun e he => ?_⟩
        · rcases r with e | u
          · cases h
          · exact ⟨hp, rfl⟩
        · rcases r with e' | u
          · cases he
            refine ⟨by rw [hp]; rfl, ?_⟩
            cases e' <;> rfl
          · cases he

/-- **C23.**  A successful trapezoidation of polygons `vss` (pairs of index and coordinates) has their
vertices as vertex nodes, each once per occurrence, their sides as segments, and `1 + vertices +
segments` trapezoids, where both numbers are the number of yielded vertices. -/
theorem C23_sizes (cfg : Cfg) (hcfg : cfg.Valid) (fuel : Nat) (p : PolyList I V) (xy : V → Coords C)
    (st : St I C) (h : trapezoidize cfg fuel p xy = .ok st) :
    ∃ (es : List (Elem I)) (vss : List (List (I × Coords C))), p.elems = es.map some ∧
      vss.map (·.map Prod.fst) = polygonsOf es ∧
      (∀ vs ∈ vss, 3 ≤ vs.length ∧ ∀ v ∈ vs, (p.getVertex v.1).map xy = some v.2) ∧
      (st.ns.map fun n => (n.vi, n.c)).Perm vss.flatten ∧
      (∃ sides, sides.Perm (vss.flatMap cycleEdges) ∧
        List.Forall₂ (Joins (st.ns.map fun n => (n.vi, n.c))) st.ss sides) ∧
      st.ns.length = vss.flatten.length ∧ st.ss.length = vss.flatten.length ∧
      st.ts.length = 1 + vss.flatten.length + vss.flatten.length := by
  obtain ⟨es, vss, h1, h2⟩ := trapezoidize_post (A := fun _ => True) hcfg h fun _ _ _ _ => trivial
  obtain ⟨segs, es', h3, h4, h5⟩ := h2.ss
  have hk : st.keys.Perm vss.flatten := h2.perm
  have hss : st.ss = segs := h3
  have hn : st.ns.length = vss.flatten.length := by
    have := hk.length_eq
    rwa [St.keys, List.length_map] at this
  have hs : st.ss.length = vss.flatten.length := by
    rw [hss, h5.length_eq, h4.length_eq, List.length_flatMap, List.length_flatten]
    congr 1
    apply List.map_congr_left
    intro vs hvs
    exact cycleEdges_length vs
  refine ⟨es, vss, h1, h2.groups, fun vs hvs => ⟨h2.len vs hvs, fun v hv => ?_⟩, hk,
    ⟨es', h4, hss ▸ h5⟩, hn, hs, ?_⟩
  · have := h2.coords vs hvs v hv
    unfold PolyList.coords at this
    cases hg : p.getVertex v.1 with
    | none => rw [hg] at this; cases this
    | some w => rw [hg] at this; simpa using this
  · have := h2.wf.size
    omega

section Examples

attribute [local instance] exact

/-- C06, C07, C16: a run that succeeds and one (self-intersecting) that fails after having emitted. -/
example : (triangulate (Cfg.plain (fun _ _ => 1) false) 60 (PolyList.single dart) id
    (deindexedFan (PolyList.single dart) [])).2 =
      .ok [[ipt 0 0, ipt 4 1, ipt 1 2, ipt 2 5]] := by decide +kernel

example : let knot := [ipt 4 0, ipt 0 1, ipt 2 2, ipt 1 1, ipt 3 0]
    triangulate (Cfg.plain (fun _ _ => 1) false) 60 (PolyList.single knot) id (recorder Nat
      .counterclockwise) = ([.newFan 2 1 3], .error (.err (.internal .invalidI))) := by decide +kernel

example : (indexedFan ([] : List (List Nat))).NoUB where
  start := by simp
  newFan := by simp
  extendFan := by simp
  build := by simp

/-- C23: the dart has a trapezoidation; a permutation of the insertion order is a `Valid` one. -/
example : (Cfg.plain (fun _ _ => 1) true).Valid ∧
    ((trapezoidize (Cfg.plain (fun _ _ => 1) true) 60 (PolyList.single dart) id).toOption.map
      fun st => (st.ns.length, st.ss.length, st.ts.length)) = some (4, 4, 9) :=
  ⟨fun _ _ => .refl _, by decide +kernel⟩

end Examples

end Tri
