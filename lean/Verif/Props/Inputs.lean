import Verif.Proof.Build
import Verif.Spec.Exact
import Verif.Spec.Format

/-!
# C08, C09, C10, C22: polygon lists
-/

namespace Tri

variable {I V C : Type} [Scalar C] [DecidableEq I]

/-- **C08.**  The run reports `NotEnoughVertices n` exactly when some polygon has `n < 3` vertices
(which can be looked up) and the polygons before it are accepted by themselves.  (Polygons are never
empty, so `n` is 1 or 2.) -/
theorem C08_not_enough_vertices (cfg : Cfg) (fuel : Nat) (p : PolyList I V) (xy : V → Coords C)
    (es : List (Elem I)) (n : Nat) :
    (trapezoidize cfg fuel (p.withElems (es.map some)) xy = .error (.err (.notEnoughVertices n)) ↔
      ∃ before g after, polygonsOf es = before ++ g :: after ∧ g.length = n ∧ 1 ≤ n ∧ n < 3 ∧
        (∀ i ∈ g, (p.getVertex i).isSome) ∧
        ∃ st, trapezoidize cfg fuel (p.withElems ((elemsOf before).map some)) xy = .ok st) ∧
    (∀ F : FanFormat I, trapezoidize cfg fuel (p.withElems (es.map some)) xy =
        .error (.err (.notEnoughVertices n)) →
      triangulate cfg fuel (p.withElems (es.map some)) xy F =
        (F.unused, .error (.err (.trapezoidation (.notEnoughVertices n))))) := by
  constructor
  · have hne := polygonsFrom_ne (I := I) [] es
    have key := runElems_short cfg fuel p xy (polygonsOf es) hne St.init 0 n
    rw [trapezoidize_polygons]
    have hmap : ∀ r : Res TrapErr (St.BuildLoop I C),
        r.map (·.st) = .error (.err (.notEnoughVertices n)) ↔
          r = .error (.err (.notEnoughVertices n)) := by
      intro r
      cases r with
      | error e => simp [Except.map]
      | ok a => simp [Except.map]
    rw [hmap, key]
    have hsub : ∀ before g after, polygonsOf es = before ++ g :: after →
        polygonsOf (elemsOf before) = before := by
      intro before g after h
      refine polygonsOf_elemsOf before fun g' hg' => hne g' ?_
      change g' ∈ polygonsOf es
      rw [h]; simp [hg']
    constructor
    · rintro ⟨gs1, g, gs2, h1, h2, h3, h4, l, h5⟩
      refine ⟨gs1, g, gs2, h1, h2, ?_, h3, h4, l.st, ?_⟩
      · have : g ≠ [] := hne g (by change g ∈ polygonsOf es; rw [h1]; simp)
        rw [← h2]
        exact List.length_pos_iff.2 this
      · rw [trapezoidize_polygons, hsub _ _ _ h1, h5]; rfl
    · rintro ⟨gs1, g, gs2, h1, h2, -, h3, h4, st, h5⟩
      rw [trapezoidize_polygons, hsub _ _ _ h1] at h5
      cases h6 : runElems cfg fuel p xy ((elemsOf gs1).map some) ⟨St.init, [], 0⟩ with
      | error e => rw [h6] at h5; cases h5
      | ok l => exact ⟨gs1, g, gs2, h1, h2, h3, h4, l, h6⟩
  · intro F h
    simp [triangulate, h, Res.mapErr]

/-- **C09.**  Element sequences that name the same polygons give the same results, so separators may
be repeated, and added or left out at both ends.  The last three statements say the latter also for
iterators that may panic. -/
theorem C09_separators (cfg : Cfg) (fuel : Nat) (p : PolyList I V) (xy : V → Coords C) :
    (∀ es es' : List (Elem I), polygonsOf es = polygonsOf es' →
      trapezoidize cfg fuel (p.withElems (es.map some)) xy =
        trapezoidize cfg fuel (p.withElems (es'.map some)) xy ∧
      ∀ F : FanFormat I, triangulate cfg fuel (p.withElems (es.map some)) xy F =
        triangulate cfg fuel (p.withElems (es'.map some)) xy F) ∧
    (∀ es es' : List (Option (Elem I)),
      (∃ a, es = a ∧ es' = some .newPolygon :: a) ∨ (∃ a, es = a ∧ es' = a ++ [some .newPolygon]) ∨
        (∃ a b, es = a ++ some .newPolygon :: b ∧ es' = a ++ some .newPolygon :: some .newPolygon :: b) →
      trapezoidize cfg fuel (p.withElems es) xy = trapezoidize cfg fuel (p.withElems es') xy ∧
      ∀ F : FanFormat I, triangulate cfg fuel (p.withElems es) xy F =
        triangulate cfg fuel (p.withElems es') xy F) := by
  constructor
  · intro es es' h
    have h1 : trapezoidize cfg fuel (p.withElems (es.map some)) xy =
        trapezoidize cfg fuel (p.withElems (es'.map some)) xy := by
      rw [trapezoidize_polygons, trapezoidize_polygons, h]
    refine ⟨h1, fun F => ?_⟩
    rw [triangulate_withElems, triangulate_withElems, h1]
  · intro es es' h
    have h1 : trapezoidize cfg fuel (p.withElems es) xy =
        trapezoidize cfg fuel (p.withElems es') xy := by
      rw [trapezoidize_withElems, trapezoidize_withElems]
      congr 1
      have twice : ∀ b l, runElems cfg fuel p xy (some .newPolygon :: some .newPolygon :: b) l =
          runElems cfg fuel p xy (some .newPolygon :: b) l := by
        intro b l
        rw [runElems_cons, runElems_cons (es := b)]
        cases h2 : St.buildStep cfg fuel p xy l (some .newPolygon) with
        | error e => rfl
        | ok l' =>
          have hv := buildStep_sep_vLookup h2
          obtain ⟨st', vl', k'⟩ := l'
          simp only at hv
          subst hv
          simp only [Except.bind]
          rw [runElems_cons, buildStep_sep_empty]
          rfl
      rcases h with ⟨a, rfl, rfl⟩ | ⟨a, rfl, rfl⟩ | ⟨a, b, rfl, rfl⟩
      · rw [List.cons_append, runElems_cons, buildStep_sep_empty]
        rfl
      · rw [List.append_assoc, runElems_append, runElems_append]
        congr 1
        funext l
        exact (twice [] l).symm
      · simp only [List.append_assoc, List.cons_append, runElems_append]
        congr 1
        funext l
        exact (twice _ l).symm
    refine ⟨h1, fun F => ?_⟩
    rw [triangulate_withElems, triangulate_withElems, h1]

/-- **C10.**  Without any vertex the result is `NoVertices` and the format is given back unused. -/
theorem C10_no_vertices (cfg : Cfg) (fuel : Nat) (hfuel : 1 ≤ fuel) (p : PolyList I V)
    (xy : V → Coords C) (es : List (Elem I)) (hes : ∀ e ∈ es, e = .newPolygon) (F : FanFormat I) :
    triangulate cfg fuel (p.withElems (es.map some)) xy F = (F.unused, .error (.err .noVertices)) ∧
    (triangulate cfg fuel (p.withElems (es.map some)) xy F.logged).1.2 = [] := by
  have hp : polygonsOf es = [] := by
    induction es with
    | nil => rfl
    | cons e es ih =>
      have := hes e (by simp)
      subst this
      simp only [polygonsOf, polygonsFrom, if_true]
      exact ih fun e he => hes e (by simp [he])
  have key : ∀ F : FanFormat I, triangulate cfg fuel (p.withElems (es.map some)) xy F =
      (F.unused, .error (.err .noVertices)) := by
    intro F
    rw [triangulate_withElems, trapezoidize_polygons, hp]
    obtain ⟨fuel, rfl⟩ : ∃ k, fuel = k + 1 := ⟨fuel - 1, by omega⟩
    rfl
  refine ⟨key F, ?_⟩
  rw [key F.logged]

omit [Scalar C] [DecidableEq I] in
/-- **C22.**  The iterator over nested vectors yields for polygon `i` the indices `(i, 0)`,
`(i, 1)`, … followed by a separator and then ends (`next` returns `None`, here: more calls than
`nested` makes do not yield anything further); every index names the vertex at that place, and
`vertex_count` is the number of indices. -/
theorem C22_nested_vectors (pss : List (List V)) :
    let expected := (pss.zipIdx.flatMap fun (ps, i) =>
      (List.range ps.length).map (fun j => Elem.cont (i, j)) ++ [Elem.newPolygon])
    (PolyList.nested pss).elems = expected.map some ∧
    (∀ n, (PolyList.nested pss).elems.length < n → VecVecIter.collect pss n ⟨0, 0⟩ = expected) ∧
    (∀ i j, (PolyList.nested pss).getVertex (i, j) = pss[i]?.bind (·[j]?)) ∧
    (∀ i j, Elem.cont (i, j) ∈ expected → ((PolyList.nested pss).getVertex (i, j)).isSome) ∧
    (PolyList.nested pss).vertexCount = (expected.filter (· ≠ .newPolygon)).length := by
  intro expected
  have hexp : expected = nestedElems pss 0 := rfl
  have hcol := collect_nested pss pss 0 rfl
  have hlen := nestedElems_length pss 0
  have hel : (PolyList.nested pss).elems = expected.map some := by
    simp only [PolyList.nested]
    rw [hcol _ (by omega), hexp]
  refine ⟨hel, fun n hn => ?_, fun i j => rfl, fun i j h => ?_, ?_⟩
  · rw [hel, List.length_map] at hn
    exact hcol n (by rw [← hexp]; omega)
  · simp only [expected, List.mem_flatMap, List.mem_append, List.mem_map, List.mem_range,
      List.mem_singleton] at h
    obtain ⟨⟨ps, i'⟩, h1, ⟨j', h2, h3⟩ | h2⟩ := h
    · cases h3
      have h1' : pss[i']? = some ps := by
        have := List.mem_zipIdx_iff_getElem?.1 h1
        simpa using this
      simp [PolyList.nested, h1', h2]
    · cases h2
  · rw [hexp]
    have : ∀ (rest : List (List V)) (o : Nat),
        ((nestedElems rest o).filter (· ≠ .newPolygon)).length = (rest.map List.length).sum := by
      intro rest
      induction rest with
      | nil => intro o; rfl
      | cons ps rest ih =>
        intro o
        rw [nestedElems_cons, List.filter_append, List.filter_eq_self.2 (by
          intro e he
          obtain ⟨j, -, rfl⟩ := List.mem_map.1 he
          simp)]
        have := ih (o + 1)
        simp at this
        simp [this]
    exact (this pss 0).symm

section Examples

attribute [local instance] exact

/-- Two triangles with superfluous separators, and a polygon of two vertices after a good one. -/
example : polygonsOf [Elem.newPolygon, .cont 1, .cont 2, .cont 3, .newPolygon, .newPolygon, .cont 4,
    .cont 5, .cont 6, .newPolygon] = [[1, 2, 3], [4, 5, 6]] := by decide

example : trapezoidize (Cfg.plain (fun _ _ => 1) true) 40
    ((PolyList.single (dart ++ [ipt 9 9, ipt 9 8])).withElems (([.cont 0, .cont 1, .cont 2, .cont 3,
      .newPolygon, .newPolygon, .cont 4, .cont 5] : List (Elem Nat)).map some)) id =
    .error (.err (.notEnoughVertices 2)) := by decide +kernel

example : (PolyList.nested [[7, 8, 9], [], [5]]).elems =
    [some (.cont (0, 0)), some (.cont (0, 1)), some (.cont (0, 2)), some .newPolygon,
      some .newPolygon, some (.cont (2, 0)), some .newPolygon] := by decide

example : (triangulate (Cfg.plain (fun _ _ => 1) true) 40
    ((PolyList.single dart).withElems ([.newPolygon, .newPolygon].map some)) id
    (indexedFan [[1, 2, 3]])).2 = .error (.err .noVertices) := by decide +kernel

end Examples

end Tri
