import Verif.Model.Cost
import Verif.Proof.RunBuild

/-!
# The element loop of `build`, with its cost
-/

set_option linter.unusedSectionVars false

namespace Tri

section
variable {I V C : Type} [Scalar C] [DecidableEq I]

/-- The element loop from a given state and cost. -/
abbrev runElemsC (cfg : Cfg) (fuel : Nat) (p : PolyList I V) (xy : V → Coords C)
    (es : List (Option (Elem I))) (l : St.BuildLoop I C × Nat) : Res TrapErr (St.BuildLoop I C × Nat) :=
  es.foldlM (St.buildStepC cfg fuel p xy) l

theorem runElemsC_append (cfg : Cfg) (fuel : Nat) (p : PolyList I V) (xy : V → Coords C)
    (es es' : List (Option (Elem I))) (l : St.BuildLoop I C × Nat) :
    runElemsC cfg fuel p xy (es ++ es') l =
      (runElemsC cfg fuel p xy es l).bind (runElemsC cfg fuel p xy es') := by
  simp only [runElemsC, List.foldlM_append]; rfl

theorem runElemsC_cons (cfg : Cfg) (fuel : Nat) (p : PolyList I V) (xy : V → Coords C)
    (e : Option (Elem I)) (es : List (Option (Elem I))) (l : St.BuildLoop I C × Nat) :
    runElemsC cfg fuel p xy (e :: es) l =
      (St.buildStepC cfg fuel p xy l e).bind (runElemsC cfg fuel p xy es) := by
  simp only [runElemsC, List.foldlM_cons]; rfl

theorem trapezoidizeC_eq (cfg : Cfg) (fuel : Nat) (p : PolyList I V) (xy : V → Coords C) :
    trapezoidizeC cfg fuel p xy =
      (runElemsC cfg fuel p xy (p.elems ++ [some .newPolygon]) (⟨St.init, [], 0⟩, 0)).map fun l => (l.1.st, l.2) := by
  simp only [trapezoidizeC, St.buildC, runElemsC]
  cases List.foldlM (St.buildStepC cfg fuel p xy) (⟨St.init, [], 0⟩, 0) (p.elems ++ [some .newPolygon]) <;>
    rfl

theorem buildStepC_sep_vLookup {cfg : Cfg} {fuel : Nat} {p : PolyList I V} {xy : V → Coords C}
    {l l' : St.BuildLoop I C × Nat} (h : St.buildStepC cfg fuel p xy l (some .newPolygon) = .ok l') :
    l'.1.vLookup = [] := by
  obtain ⟨l, n⟩ := l
  simp only [St.buildStepC] at h
  split at h
  · split at h
    · cases h
    · cases hst : Res.mapErr TrapErr.internal (St.addPolygonC cfg fuel p xy l.k l.st l.vLookup) with
      | error e => rw [hst] at h; cases h
      | ok st => rw [hst] at h; cases h; rfl
  · cases h
    rename_i h
    simpa using h

theorem runElemsC_polygons (cfg : Cfg) (fuel : Nat) (p : PolyList I V) (xy : V → Coords C)
    (es : List (Elem I)) (cur : List I) (st : St I C) (k n : Nat) :
    runElemsC cfg fuel p xy (cur.map (fun i => some (.cont i)) ++ (es.map some ++ [some .newPolygon]))
        (⟨st, [], k⟩, n) =
      runElemsC cfg fuel p xy ((elemsOf (polygonsFrom cur es)).map some) (⟨st, [], k⟩, n) := by
  induction es generalizing cur st k n with
  | nil =>
    by_cases h : cur = []
    · subst h; rfl
    · simp [polygonsFrom, h, elemsOf, Function.comp_def]
  | cons e es ih =>
    cases e with
    | cont i =>
      have := ih (cur ++ [i]) st k n
      simpa [polygonsFrom] using this
    | newPolygon =>
      by_cases h : cur = []
      · subst h
        have := ih [] st k n
        simp only [polygonsFrom, if_true, List.map_cons, List.map_nil, List.nil_append,
          List.cons_append, runElemsC_cons] at this ⊢
        exact this
      · simp only [polygonsFrom, h, if_false, elemsOf, List.flatMap_cons, List.map_append,
          List.map_cons, List.append_assoc, List.cons_append, List.nil_append,
          List.map_map, runElemsC_append]
        rw [show (some ∘ Elem.cont : I → Option (Elem I)) = fun i => some (.cont i) from rfl]
        cases h1 : runElemsC cfg fuel p xy (cur.map fun i => some (.cont i)) (⟨st, [], k⟩, n) with
        | error e => rfl
        | ok l =>
          simp only [Except.bind, runElemsC_cons]
          cases h2 : St.buildStepC cfg fuel p xy l (some .newPolygon) with
          | error e => rfl
          | ok l' =>
            have hv := buildStepC_sep_vLookup h2
            obtain ⟨⟨st', vl', k'⟩, n'⟩ := l'
            simp only at hv
            subst hv
            have := ih [] st' k' n'
            simp only [List.map_nil, List.nil_append, elemsOf] at this
            exact this

end

variable {I V K : Type} [Field K] [LinearOrder K] [IsStrictOrderedRing K] [DecidableEq I]

attribute [local instance] exact

variable {P : Plane K} {p : PolyList I V} {xy : V → Coords K}

/-- The vertices of one polygon are read. -/
theorem runElemsC_read (cfg : Cfg) (fuel : Nat) {g : List (I × Coords K)}
    (hg : ∀ v ∈ g, p.coords (ε := TrapErr) xy v.1 = .ok v.2) (l : St.BuildLoop I K) (n : Nat) :
    runElemsC cfg fuel p xy ((g.map Prod.fst).map fun i => some (.cont i)) (l, n) =
      .ok ({ l with vLookup := l.vLookup ++ startLocs g }, n) := by
  induction g generalizing l with
  | nil => simp [runElemsC, startLocs]; rfl
  | cons v g ih =>
    simp only [List.map_cons, runElemsC_cons]
    have hs : St.buildStepC cfg fuel p xy (l, n) (some (.cont v.1)) =
        .ok ({ l with vLookup := l.vLookup ++ [.pending v.2 v.1 0] }, n) := by
      simp only [St.buildStepC, hg v (by simp), bind, Except.bind]
    rw [hs]
    simp only [Except.bind]
    rw [ih (fun w hw => hg w (by simp [hw]))]
    simp [startLocs]

/-- One polygon. -/
theorem runElemsC_poly (cfg : Cfg) (fuel : Nat) {g : List (I × Coords K)} (h3 : 3 ≤ g.length)
    (hg : ∀ v ∈ g, p.coords (ε := TrapErr) xy v.1 = .ok v.2) (st : St I K) (k n : Nat) {st' : St I K} {c : Nat}
    (h : St.addPolygonC cfg fuel p xy k st (startLocs g) = .ok (st', c)) :
    runElemsC cfg fuel p xy ((g.map Prod.fst).map (fun i => some (.cont i)) ++ [some .newPolygon]) (⟨st, [], k⟩, n) =
      .ok (⟨st', [], k + 1⟩, n + c) := by
  rw [runElemsC_append, runElemsC_read cfg fuel hg]
  have hlen : (startLocs g).length = g.length := by simp [startLocs]
  have hstep : St.buildStepC cfg fuel p xy (⟨st, [] ++ startLocs g, k⟩, n) (some .newPolygon) =
      .ok (⟨st', [], k + 1⟩, n + c) := by
    simp only [St.buildStepC, List.nil_append, hlen, show g.length > 0 by omega, if_true,
      show ¬ g.length < 3 by omega, if_false, h, Res.mapErr, bind, Except.bind]
  simp only [Except.bind, runElemsC_cons, hstep]
  rfl

end Tri
