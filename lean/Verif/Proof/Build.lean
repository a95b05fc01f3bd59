import Verif.Spec.Input

/-!
# The element loop of `build`
-/

set_option linter.unusedSectionVars false

namespace Tri

variable {I V C : Type} [Scalar C] [DecidableEq I]

/-- The element loop from a given state. -/
abbrev runElems (cfg : Cfg) (fuel : Nat) (p : PolyList I V) (xy : V → Coords C)
    (es : List (Option (Elem I))) (l : St.BuildLoop I C) : Res TrapErr (St.BuildLoop I C) :=
  es.foldlM (St.buildStep cfg fuel p xy) l

theorem runElems_append (cfg : Cfg) (fuel : Nat) (p : PolyList I V) (xy : V → Coords C)
    (es es' : List (Option (Elem I))) (l : St.BuildLoop I C) :
    runElems cfg fuel p xy (es ++ es') l =
      (runElems cfg fuel p xy es l).bind (runElems cfg fuel p xy es') := by
  simp only [runElems, List.foldlM_append]; rfl

theorem runElems_cons (cfg : Cfg) (fuel : Nat) (p : PolyList I V) (xy : V → Coords C)
    (e : Option (Elem I)) (es : List (Option (Elem I))) (l : St.BuildLoop I C) :
    runElems cfg fuel p xy (e :: es) l =
      (St.buildStep cfg fuel p xy l e).bind (runElems cfg fuel p xy es) := by
  simp only [runElems, List.foldlM_cons]; rfl

theorem trapezoidize_eq (cfg : Cfg) (fuel : Nat) (p : PolyList I V) (xy : V → Coords C) :
    trapezoidize cfg fuel p xy =
      (runElems cfg fuel p xy (p.elems ++ [some .newPolygon]) ⟨St.init, [], 0⟩).map (·.st) := by
  simp only [trapezoidize, St.build, runElems]
  cases List.foldlM (St.buildStep cfg fuel p xy) ⟨St.init, [], 0⟩ (p.elems ++ [some .newPolygon]) <;>
    rfl

/-- The vertices are all that matters of the polygon list inside the loop. -/
theorem buildStep_withElems (cfg : Cfg) (fuel : Nat) (p : PolyList I V) (xy : V → Coords C)
    (es : List (Option (Elem I))) :
    St.buildStep cfg fuel (p.withElems es) xy = St.buildStep cfg fuel p xy := rfl

theorem trapezoidize_withElems (cfg : Cfg) (fuel : Nat) (p : PolyList I V) (xy : V → Coords C)
    (es : List (Option (Elem I))) :
    trapezoidize cfg fuel (p.withElems es) xy =
      (runElems cfg fuel p xy (es ++ [some .newPolygon]) ⟨St.init, [], 0⟩).map (·.st) :=
  trapezoidize_eq ..

theorem triStep_withElems {m : Type → Type} [FanM I m] (w : Winding) (fuel : Nat) (p : PolyList I V)
    (xy : V → Coords C) (es : List (Option (Elem I))) :
    triStep (m := m) w fuel (p.withElems es) xy = triStep w fuel p xy := by
  unfold triStep updateMonotones advanceMonotones restartMonotone
  rfl

theorem triLoop_withElems {m : Type → Type} [FanM I m] (w : Winding) (fuel : Nat) (p : PolyList I V)
    (xy : V → Coords C) (es : List (Option (Elem I))) (st : St I C) (k : Nat) (x : TI I C) :
    triLoop (m := m) w fuel (p.withElems es) xy st k x = triLoop w fuel p xy st k x := by
  induction k generalizing x with
  | zero => rfl
  | succ k ih =>
    simp only [triLoop, triStep_withElems]
    congr 1; funext t
    congr 1; funext t
    congr 1; funext t
    exact ih t

theorem St.triangulate_withElems (fuel : Nat) (p : PolyList I V) (xy : V → Coords C)
    (es : List (Option (Elem I))) (st : St I C) (F : FanFormat I) :
    st.triangulate fuel (p.withElems es) xy F = st.triangulate fuel p xy F := by
  simp only [St.triangulate, triangulateInner, triLoop_withElems]

theorem triangulate_withElems (cfg : Cfg) (fuel : Nat) (p : PolyList I V) (xy : V → Coords C)
    (es : List (Option (Elem I))) (F : FanFormat I) :
    triangulate cfg fuel (p.withElems es) xy F =
      match Res.mapErr TriErr.trapezoidation (trapezoidize cfg fuel (p.withElems es) xy) with
      | .ok st => st.triangulate fuel p xy F
      | .error e => (F.unused, .error e) := by
  simp only [triangulate, St.triangulate_withElems]
  cases Res.mapErr TriErr.trapezoidation (trapezoidize cfg fuel (p.withElems es) xy) <;> rfl

theorem buildStep_sep_empty (cfg : Cfg) (fuel : Nat) (p : PolyList I V) (xy : V → Coords C)
    (st : St I C) (k : Nat) :
    St.buildStep cfg fuel p xy ⟨st, [], k⟩ (some .newPolygon) = .ok ⟨st, [], k⟩ := rfl

theorem buildStep_sep_vLookup {cfg : Cfg} {fuel : Nat} {p : PolyList I V} {xy : V → Coords C}
    {l l' : St.BuildLoop I C} (h : St.buildStep cfg fuel p xy l (some .newPolygon) = .ok l') :
    l'.vLookup = [] := by
  simp only [St.buildStep] at h
  split at h
  · split at h
    · cases h
    · cases hst : Res.mapErr TrapErr.internal (St.addPolygon cfg fuel p xy l.k l.st l.vLookup) with
      | error e => rw [hst] at h; cases h
      | ok st => rw [hst] at h; cases h; rfl
  · cases h
    rename_i h
    simpa using h

/-- The vertices of one polygon: read, or a panic in `get_vertex`. -/
theorem runElems_conts (cfg : Cfg) (fuel : Nat) (p : PolyList I V) (xy : V → Coords C)
    (g : List I) (l : St.BuildLoop I C) :
    ((∀ i ∈ g, (p.getVertex i).isSome) ∧ ∃ vl, vl.length = g.length ∧
      runElems cfg fuel p xy (g.map fun i => some (.cont i)) l =
        .ok { l with vLookup := l.vLookup ++ vl }) ∨
    ((∃ i ∈ g, p.getVertex i = none) ∧
      runElems cfg fuel p xy (g.map fun i => some (.cont i)) l = .error .panic) := by
  induction g generalizing l with
  | nil => exact .inl ⟨by simp, [], rfl, by simp [runElems]; rfl⟩
  | cons i g ih =>
    simp only [List.map_cons, runElems_cons]
    cases hv : p.getVertex i with
    | none => exact .inr ⟨⟨i, by simp, hv⟩, by simp [St.buildStep, PolyList.coords, hv]; rfl⟩
    | some v =>
      have hs : St.buildStep cfg fuel p xy l (some (.cont i)) =
          .ok { l with vLookup := l.vLookup ++ [.pending (xy v) i 0] } := by
        simp [St.buildStep, PolyList.coords, hv]; rfl
      rw [hs]
      rcases ih { l with vLookup := l.vLookup ++ [.pending (xy v) i 0] } with
        ⟨h1, vl, h2, h3⟩ | ⟨⟨j, h1, h2⟩, h3⟩
      · refine .inl ⟨by simp [hv]; exact h1, .pending (xy v) i 0 :: vl, by simp [h2], ?_⟩
        simp only [Except.bind]
        rw [h3]
        simp
      · exact .inr ⟨⟨j, by simp [h1], h2⟩, by simp only [Except.bind]; rw [h3]⟩

/-- Only the polygons matter, not where the separators are. -/
theorem runElems_polygons (cfg : Cfg) (fuel : Nat) (p : PolyList I V) (xy : V → Coords C)
    (es : List (Elem I)) (cur : List I) (st : St I C) (k : Nat) :
    runElems cfg fuel p xy (cur.map (fun i => some (.cont i)) ++ (es.map some ++ [some .newPolygon]))
        ⟨st, [], k⟩ =
      runElems cfg fuel p xy ((elemsOf (polygonsFrom cur es)).map some) ⟨st, [], k⟩ := by
  induction es generalizing cur st k with
  | nil =>
    by_cases h : cur = []
    · subst h; rfl
    · simp [polygonsFrom, h, elemsOf, Function.comp_def]
  | cons e es ih =>
    cases e with
    | cont i =>
      have := ih (cur ++ [i]) st k
      simpa [polygonsFrom] using this
    | newPolygon =>
      by_cases h : cur = []
      · subst h
        have := ih [] st k
        simp only [polygonsFrom, if_true, List.map_cons, List.map_nil, List.nil_append,
          List.cons_append, runElems_cons] at this ⊢
        rw [buildStep_sep_empty]
        exact this
      · simp only [polygonsFrom, h, if_false, elemsOf, List.flatMap_cons, List.map_append,
          List.map_cons, List.append_assoc, List.cons_append, List.nil_append,
          List.map_map, runElems_append]
        rw [show (some ∘ Elem.cont : I → Option (Elem I)) = fun i => some (.cont i) from rfl]
        cases h1 : runElems cfg fuel p xy (cur.map fun i => some (.cont i)) ⟨st, [], k⟩ with
        | error e => rfl
        | ok l =>
          simp only [Except.bind, runElems_cons]
          cases h2 : St.buildStep cfg fuel p xy l (some .newPolygon) with
          | error e => rfl
          | ok l' =>
            have hv := buildStep_sep_vLookup h2
            obtain ⟨st', vl', k'⟩ := l'
            simp only at hv
            subst hv
            have := ih [] st' k'
            simp only [List.map_nil, List.nil_append, elemsOf] at this
            exact this

/-- One polygon and the separator after it. -/
theorem runElems_group (cfg : Cfg) (fuel : Nat) (p : PolyList I V) (xy : V → Coords C)
    (g : List I) (hg : g ≠ []) (st : St I C) (k n : Nat) :
    runElems cfg fuel p xy (g.map (fun i => some (.cont i)) ++ [some .newPolygon]) ⟨st, [], k⟩ =
        .error (.err (.notEnoughVertices n)) ↔
      g.length = n ∧ n < 3 ∧ ∀ i ∈ g, (p.getVertex i).isSome := by
  rw [runElems_append]
  rcases runElems_conts cfg fuel p xy g ⟨st, [], k⟩ with ⟨h1, vl, h2, h3⟩ | ⟨⟨i, h1, h2⟩, h3⟩
  · rw [h3]
    simp only [Except.bind, List.nil_append, runElems_cons]
    have hpos : vl.length > 0 := by
      rw [h2]; exact List.length_pos_iff.2 hg
    simp only [St.buildStep, hpos, if_true]
    by_cases h : vl.length < 3
    · simp only [h, if_true, Except.error.injEq, Fault.err.injEq, TrapErr.notEnoughVertices.injEq]
      refine ⟨?_, ?_⟩
      · rintro rfl; exact ⟨h2.symm, h, h1⟩
      · rintro ⟨rfl, -, -⟩; exact h2
    · simp only [h, if_false]
      refine ⟨fun hh => ?_, ?_⟩
      · rcases hst : St.addPolygon cfg fuel p xy k st vl with (e | _ | _ | _) | st'
        all_goals
          rw [hst] at hh
          cases hh
      · rintro ⟨rfl, h', -⟩
        omega
  · rw [h3]
    simp only [Except.bind]
    refine ⟨fun h => (by cases h), ?_⟩
    rintro ⟨-, -, h⟩
    have := h i h1
    rw [h2] at this
    cases this

theorem runElems_group_vLookup {cfg : Cfg} {fuel : Nat} {p : PolyList I V} {xy : V → Coords C}
    {es : List (Option (Elem I))} {l l' : St.BuildLoop I C}
    (h : runElems cfg fuel p xy (es ++ [some .newPolygon]) l = .ok l') : l'.vLookup = [] := by
  rw [runElems_append] at h
  cases h1 : runElems cfg fuel p xy es l with
  | error e => rw [h1] at h; cases h
  | ok l1 =>
    rw [h1] at h
    simp only [Except.bind, runElems_cons] at h
    cases h2 : St.buildStep cfg fuel p xy l1 (some .newPolygon) with
    | error e => rw [h2] at h; cases h
    | ok l2 => rw [h2] at h; cases h; exact buildStep_sep_vLookup h2

theorem runElems_short (cfg : Cfg) (fuel : Nat) (p : PolyList I V) (xy : V → Coords C)
    (gs : List (List I)) (hgs : ∀ g ∈ gs, g ≠ []) (st : St I C) (k n : Nat) :
    runElems cfg fuel p xy ((elemsOf gs).map some) ⟨st, [], k⟩ = .error (.err (.notEnoughVertices n)) ↔
      ∃ gs1 g gs2, gs = gs1 ++ g :: gs2 ∧ g.length = n ∧ n < 3 ∧ (∀ i ∈ g, (p.getVertex i).isSome) ∧
        ∃ l, runElems cfg fuel p xy ((elemsOf gs1).map some) ⟨st, [], k⟩ = .ok l := by
  induction gs generalizing st k with
  | nil =>
    refine ⟨fun h => (by cases h), ?_⟩
    rintro ⟨gs1, g, gs2, h, -⟩
    simp at h
  | cons g gs ih =>
    have hmap : ∀ gs : List (List I), (elemsOf (g :: gs)).map some =
        (g.map (fun i => some (.cont i)) ++ [some .newPolygon]) ++ (elemsOf gs).map some := by
      intro gs; simp [elemsOf, Function.comp_def]
    have hg := runElems_group cfg fuel p xy g (hgs g (by simp)) st k n
    have ihs := fun st k => ih (fun g hg => hgs g (by simp [hg])) st k
    rw [hmap, runElems_append]
    cases h1 : runElems cfg fuel p xy (g.map (fun i => some (.cont i)) ++ [some .newPolygon])
        ⟨st, [], k⟩ with
    | error e =>
      rw [h1] at hg
      simp only [Except.bind]
      rw [hg]
      constructor
      · rintro ⟨h2, h3, h4⟩
        exact ⟨[], g, gs, rfl, h2, h3, h4, ⟨_, rfl⟩⟩
      · rintro ⟨gs1, g', gs2, h2, h3, h4, h5, l, h6⟩
        cases gs1 with
        | nil =>
          simp only [List.nil_append, List.cons.injEq] at h2
          obtain ⟨rfl, rfl⟩ := h2
          exact ⟨h3, h4, h5⟩
        | cons g1 gs1 =>
          simp only [List.cons_append, List.cons.injEq] at h2
          obtain ⟨rfl, rfl⟩ := h2
          rw [hmap, runElems_append, h1] at h6
          cases h6
    | ok l =>
      simp only [Except.bind]
      have hv := runElems_group_vLookup h1
      obtain ⟨st', vl', k'⟩ := l
      simp only at hv
      subst hv
      rw [ihs st' k']
      constructor
      · rintro ⟨gs1, g', gs2, h2, h3, h4, h5, l, h6⟩
        refine ⟨g :: gs1, g', gs2, by simp [h2], h3, h4, h5, l, ?_⟩
        rw [hmap, runElems_append, h1]
        exact h6
      · rintro ⟨gs1, g', gs2, h2, h3, h4, h5, l, h6⟩
        cases gs1 with
        | nil =>
          simp only [List.nil_append, List.cons.injEq] at h2
          obtain ⟨rfl, rfl⟩ := h2
          rw [h1] at hg
          exact absurd (hg.2 ⟨h3, h4, h5⟩) (by simp)
        | cons g1 gs1 =>
          simp only [List.cons_append, List.cons.injEq] at h2
          obtain ⟨rfl, rfl⟩ := h2
          rw [hmap, runElems_append, h1] at h6
          exact ⟨gs1, g', gs2, rfl, h3, h4, h5, l, h6⟩

theorem polygonsFrom_ne (cur : List I) (es : List (Elem I)) : ∀ g ∈ polygonsFrom cur es, g ≠ [] := by
  induction es generalizing cur with
  | nil =>
    intro g hg
    by_cases h : cur = []
    · simp [polygonsFrom, h] at hg
    · simp only [polygonsFrom, h, if_false, List.mem_singleton] at hg
      rw [hg]; exact h
  | cons e es ih =>
    cases e with
    | cont i => exact ih (cur ++ [i])
    | newPolygon =>
      intro g hg
      by_cases h : cur = []
      · simp only [polygonsFrom, h, if_true] at hg
        exact ih [] g hg
      · simp only [polygonsFrom, h, if_false, List.mem_cons] at hg
        rcases hg with rfl | hg
        · exact h
        · exact ih [] g hg

theorem polygonsFrom_append (cur : List I) (g : List I) (es : List (Elem I)) :
    polygonsFrom cur (g.map .cont ++ es) = polygonsFrom (cur ++ g) es := by
  induction g generalizing cur with
  | nil => simp
  | cons a g ih => simp only [List.map_cons, List.cons_append, polygonsFrom]; rw [ih]; simp

theorem polygonsOf_elemsOf (gs : List (List I)) (h : ∀ g ∈ gs, g ≠ []) : polygonsOf (elemsOf gs) = gs := by
  induction gs with
  | nil => rfl
  | cons g gs ih =>
    have hg := h g (by simp)
    simp only [polygonsOf, elemsOf, List.flatMap_cons, List.append_assoc, polygonsFrom_append,
      List.nil_append, List.cons_append, polygonsFrom, hg, if_false, List.cons.injEq, true_and]
    exact ih fun g hg => h g (by simp [hg])

/-- Runs depend on the element sequence through its polygons. -/
theorem trapezoidize_polygons (cfg : Cfg) (fuel : Nat) (p : PolyList I V) (xy : V → Coords C)
    (es : List (Elem I)) :
    trapezoidize cfg fuel (p.withElems (es.map some)) xy =
      (runElems cfg fuel p xy ((elemsOf (polygonsOf es)).map some) ⟨St.init, [], 0⟩).map (·.st) := by
  rw [trapezoidize_withElems]
  have := runElems_polygons cfg fuel p xy es [] St.init 0
  simp only [List.map_nil, List.nil_append] at this
  rw [this]
  rfl

/-- What iterating over the polygons from number `o` on yields. -/
def nestedElems (rest : List (List V)) (o : Nat) : List (Elem (Nat × Nat)) :=
  (rest.zipIdx o).flatMap fun (ps, i) =>
    (List.range ps.length).map (fun j => Elem.cont (i, j)) ++ [Elem.newPolygon]

theorem nestedElems_cons (ps : List V) (rest : List (List V)) (o : Nat) :
    nestedElems (ps :: rest) o = (List.range' 0 ps.length).map (fun j => Elem.cont (o, j)) ++
      Elem.newPolygon :: nestedElems rest (o + 1) := by
  simp [nestedElems, List.zipIdx_cons, List.range_eq_range']

theorem collect_inner (pss : List (List V)) (o : Nat) (ps : List V) (hps : pss[o]? = some ps)
    (tail : List (Elem (Nat × Nat))) (N : Nat)
    (ht : ∀ n, N ≤ n → VecVecIter.collect pss n ⟨o + 1, 0⟩ = tail) (d : Nat) :
    ∀ i n, i + d = ps.length → d + 1 + N ≤ n → VecVecIter.collect pss n ⟨o, i⟩ =
      (List.range' i d).map (fun j => Elem.cont (o, j)) ++ Elem.newPolygon :: tail := by
  induction d with
  | zero =>
    intro i n hi hn
    obtain ⟨n, rfl⟩ : ∃ k, n = k + 1 := ⟨n - 1, by omega⟩
    have : ¬ i < ps.length := by omega
    simp only [VecVecIter.collect, VecVecIter.next, hps, this, if_false, List.range'_zero,
      List.map_nil, List.nil_append, List.cons.injEq, true_and]
    exact ht n (by omega)
  | succ d ih =>
    intro i n hi hn
    obtain ⟨n, rfl⟩ : ∃ k, n = k + 1 := ⟨n - 1, by omega⟩
    have : i < ps.length := by omega
    simp only [VecVecIter.collect, VecVecIter.next, hps, this, if_true, List.range'_succ,
      List.map_cons, List.cons_append, List.cons.injEq, true_and]
    exact ih (i + 1) n (by omega) (by omega)

theorem nestedElems_length (rest : List (List V)) (o : Nat) :
    (nestedElems rest o).length = (rest.map List.length).sum + rest.length := by
  induction rest generalizing o with
  | nil => rfl
  | cons ps rest ih =>
    rw [nestedElems_cons]
    simp [ih]
    omega

theorem collect_nested (pss rest : List (List V)) (o : Nat) (h : pss.drop o = rest) :
    ∀ n, (nestedElems rest o).length + 1 ≤ n →
      VecVecIter.collect pss n ⟨o, 0⟩ = nestedElems rest o := by
  induction rest generalizing o with
  | nil =>
    intro n hn
    obtain ⟨n, rfl⟩ : ∃ k, n = k + 1 := ⟨n - 1, by omega⟩
    have : pss[o]? = none := by
      rw [List.getElem?_eq_none_iff]
      simpa using h
    simp [VecVecIter.collect, VecVecIter.next, this, nestedElems]
  | cons ps rest ih =>
    intro n hn
    have hps : pss[o]? = some ps := by
      have := congrArg (·[0]?) h
      simpa using this
    have hrest : pss.drop (o + 1) = rest := by
      have := congrArg (List.drop 1) h
      simpa using this
    rw [nestedElems_cons] at hn ⊢
    simp only [List.length_append, List.length_map, List.length_range', List.length_cons] at hn
    exact collect_inner pss o ps hps _ _ (ih (o + 1) hrest) ps.length 0 n (by omega) (by omega)

end Tri
