import Verif.Proof.Build
import Verif.Spec.Polygon

/-!
# What the standard inputs describe
-/

set_option linter.unusedSectionVars false

namespace Tri

variable {I V K : Type} [Field K] [LinearOrder K] [IsStrictOrderedRing K]

theorem polygonsFrom_conts (cur l : List I) (es : List (Elem I)) :
    polygonsFrom cur (l.map .cont ++ es) = polygonsFrom (cur ++ l) es := by
  induction l generalizing cur with
  | nil => simp
  | cons a l ih => simp [polygonsFrom, ih]

/-- A single polygon with its indices. -/
def indexed (vs : List (Coords K)) : List (Nat × Coords K) := (List.range vs.length).zip vs

theorem indexed_fst (vs : List (Coords K)) : (indexed vs).map Prod.fst = List.range vs.length :=
  List.map_fst_zip (by simp)

theorem indexed_snd (vs : List (Coords K)) : (indexed vs).map Prod.snd = vs :=
  List.map_snd_zip (by simp)

theorem indexed_mem {vs : List (Coords K)} {v : Nat × Coords K} (h : v ∈ indexed vs) : vs[v.1]? = some v.2 := by
  obtain ⟨k, hk⟩ := List.mem_iff_getElem?.1 h
  rw [indexed, List.getElem?_zip_eq_some] at hk
  have h1 := hk.1
  obtain ⟨h2, h3⟩ := List.getElem?_eq_some_iff.1 h1
  rw [List.getElem_range] at h3
  rw [← h3]; exact hk.2

/-- `Polygon::triangulate` of a slice. -/
theorem describes_single (vs : List V) (xy : V → Coords K) (h : vs ≠ []) :
    Describes (PolyList.single vs) xy [indexed (vs.map xy)] where
  elems := by
    refine ⟨(List.range vs.length).map .cont, by simp [PolyList.single, Elem.ofIndex, Function.comp_def], ?_⟩
    have := polygonsFrom_conts [] (List.range vs.length) []
    rw [List.append_nil] at this
    rw [polygonsOf, this, List.nil_append, polygonsFrom, if_neg (by simpa using h), List.map_singleton, indexed_fst]
    simp
  coords g hg v hv := by
    rw [List.mem_singleton] at hg
    subst hg
    have := indexed_mem hv
    rw [List.getElem?_map] at this
    exact this

/-- Nested vectors with their indices, from polygon number `o` on. -/
def indexedFrom (xy : V → Coords K) : Nat → List (List V) → List (List ((Nat × Nat) × Coords K))
  | _, [] => []
  | o, vs :: pss => (indexed (vs.map xy)).map (fun v => ((o, v.1), v.2)) :: indexedFrom xy (o + 1) pss

theorem indexedFrom_snd (xy : V → Coords K) (o : Nat) (pss : List (List V)) :
    (indexedFrom xy o pss).map (List.map Prod.snd) = pss.map (List.map xy) := by
  induction pss generalizing o with
  | nil => rfl
  | cons vs pss ih =>
    simp only [indexedFrom, List.map_cons, ih, List.map_map, List.cons.injEq, and_true]
    exact indexed_snd (vs.map xy)

theorem indexedFrom_mem {xy : V → Coords K} {o : Nat} {pss : List (List V)} {g : List ((Nat × Nat) × Coords K)}
    (hg : g ∈ indexedFrom xy o pss) {v : (Nat × Nat) × Coords K} (hv : v ∈ g) :
    ∃ k, v.1.1 = o + k ∧ (pss[k]?.bind fun p => p[v.1.2]?).map xy = some v.2 := by
  induction pss generalizing o with
  | nil => simp [indexedFrom] at hg
  | cons vs pss ih =>
    rcases List.mem_cons.1 hg with rfl | hg
    · obtain ⟨w, hw, rfl⟩ := List.mem_map.1 hv
      have := indexed_mem hw
      rw [List.getElem?_map] at this
      exact ⟨0, rfl, by simpa using this⟩
    · obtain ⟨k, h1, h2⟩ := ih hg
      exact ⟨k + 1, by omega, by simpa using h2⟩

theorem nestedElems_polygons (xy : V → Coords K) (pss : List (List V)) (h : ∀ vs ∈ pss, vs ≠ []) (o : Nat) :
    polygonsOf (nestedElems pss o) = (indexedFrom xy o pss).map (List.map Prod.fst) := by
  induction pss generalizing o with
  | nil => rfl
  | cons vs pss ih =>
    have h1 : ((indexed (vs.map xy)).map fun v => ((o, v.1), v.2)).map Prod.fst =
        (List.range' 0 vs.length).map fun j => (o, j) := by
      have := indexed_fst (vs.map xy)
      rw [List.length_map, List.range_eq_range'] at this
      rw [← this]; simp [Function.comp_def]
    have h2 : (List.range' 0 vs.length).map (fun j => (Elem.cont (o, j) : Elem (Nat × Nat))) =
        ((List.range' 0 vs.length).map fun j => (o, j)).map .cont := by simp [Function.comp_def]
    have hne : (List.range' 0 vs.length).map (fun j => (o, j)) ≠ [] := by
      have := h vs (by simp)
      simpa using this
    rw [polygonsOf, nestedElems_cons, h2, polygonsFrom_conts, List.nil_append, polygonsFrom, if_neg hne]
    simp only [indexedFrom, List.map_cons, h1, List.cons.injEq, true_and]
    exact ih (fun vs hvs => h vs (by simp [hvs])) (o + 1)

/-- `PolygonList::triangulate` of nested vectors. -/
theorem describes_nested (pss : List (List V)) (xy : V → Coords K) (h : ∀ vs ∈ pss, vs ≠ []) :
    Describes (PolyList.nested pss) xy (indexedFrom xy 0 pss) where
  elems := by
    have hcol := collect_nested pss pss 0 rfl
    refine ⟨nestedElems pss 0, ?_, nestedElems_polygons xy pss h 0⟩
    have hlen := nestedElems_length pss 0
    simp only [PolyList.nested]
    rw [hcol _ (by omega)]
  coords g hg v hv := by
    obtain ⟨k, h1, h2⟩ := indexedFrom_mem hg hv
    rw [Nat.zero_add] at h1
    subst h1
    exact h2

end Tri
