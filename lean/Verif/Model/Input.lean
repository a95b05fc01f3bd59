import Verif.Model.Core

/-!
# Model of the input side: polygon elements, polygon lists, `index_with`
-/

namespace Tri

variable {I J V C : Type}

/-- `PolygonElement<Index>` (`inputs/polygon_list.rs:10-17`). -/
inductive Elem (α : Type) where
  | cont (a : α)
  | newPolygon
deriving DecidableEq, Repr

/-- `impl From<Index> for PolygonElement<Index>` (`inputs/polygon_list.rs:19-23`). -/
def Elem.ofIndex {α : Type} (a : α) : Elem α := .cont a

/-- `impl From<Option<Index>> for PolygonElement<Index>` (`inputs/polygon_list.rs:25-32`). -/
def Elem.ofOption {α : Type} : Option α → Elem α
  | some a => .cont a
  | none => .newPolygon

/-- What the library sees of a `PolygonList` (`inputs/polygon_list.rs:127-180`) through
`PolygonListExt` (`184-218`).

* `vertexCount` is only used for `Vec::with_capacity` (`trapezoidation.rs:188-207`, `263`);
* `elems` is the sequence produced by `iter_indices`, already passed through `Into::into`;
  `none` stands for a `next()` call that panics (`conversion_panic`, lines 302-304);
* `getVertex` is `get_vertex`; `none` stands for a call that panics.

Simplification: both are functions of the list only (a `PolygonList` whose answers change from call
to call is not modelled here but in `Model/Wild.lean`), and the iterator is finite (iterators that need not end are in
`Model/Stream.lean`). -/
structure PolyList (I V : Type) where
  vertexCount : Nat
  elems : List (Option (Elem I))
  getVertex : I → Option V

/-- `impl Polygon for T: Deref<Target=[V]>` (`inputs/polygon_list.rs:259-277`) behind
`SinglePolygon` (`37-65`), which is how `Polygon::trapezoidize`/`triangulate` (`116-123`) call the
library: the iterator is `0..len`, every item is turned into a `ContinuePolygon`, `get_vertex` is
slice indexing. -/
def PolyList.single (vs : List V) : PolyList Nat V where
  vertexCount := vs.length
  elems := (List.range vs.length).map fun i => some (Elem.ofIndex i)
  getVertex := fun i => vs[i]?

/-- `VecVecIter` (`inputs/polygon_list.rs:221-226`); `parent` is passed separately. -/
structure VecVecIter where
  outerIndex : Nat
  innerIndex : Nat

/-- `VecVecIter::next` (`inputs/polygon_list.rs:242-256`). -/
def VecVecIter.next (parent : List (List V)) (it : VecVecIter) :
    Option (Elem (Nat × Nat)) × VecVecIter :=
  match parent[it.outerIndex]? with
  | some p =>
    if it.innerIndex < p.length then
      (some (.cont (it.outerIndex, it.innerIndex)), { it with innerIndex := it.innerIndex + 1 })
    else
      (some .newPolygon, { innerIndex := 0, outerIndex := it.outerIndex + 1 })
  | none => (none, it)

/-- The items an iterator yields before its first `None`, calling `next` at most `fuel` times. -/
def VecVecIter.collect (parent : List (List V)) : Nat → VecVecIter → List (Elem (Nat × Nat))
  | 0, _ => []
  | fuel + 1, it =>
    match it.next parent with
    | (none, _) => []
    | (some e, it') => e :: VecVecIter.collect parent fuel it'

/-- `impl PolygonList for D: Deref<Target=[P]>` (`inputs/polygon_list.rs:279-300`).  The budget given
to `collect` is one call per vertex, one per polygon and one for the final `None`; that it is enough
is part of the theorem about this definition. -/
def PolyList.nested (pss : List (List V)) : PolyList (Nat × Nat) V where
  vertexCount := (pss.map List.length).sum
  elems := (VecVecIter.collect pss ((pss.map List.length).sum + pss.length + 1) ⟨0, 0⟩).map some
  getVertex := fun i => pss[i.1]?.bind fun p => p[i.2]?

/-- `IndexWith` (`inputs/polygon_list.rs:343-374`) with its iterator (`322-339`).  `f` is
`index.map(|i| i.try_into())` on whole indices and `g` the same in the other direction; `none` is a
failed conversion, which panics. -/
def PolyList.indexWith (p : PolyList I V) (f : I → Option J) (g : J → Option I) : PolyList J V where
  vertexCount := p.vertexCount
  elems := p.elems.map fun e =>
    match e with
    | none => none
    | some .newPolygon => some .newPolygon
    | some (.cont i) => (f i).map .cont
  getVertex := fun j => (g j).bind p.getVertex

/-- `impl Mappable<T> for [T; N]` (`mappable.rs:21-27`) at `N = 2`, with a conversion that may fail
(and then panics). -/
def mapPair {A B : Type} (f : A → Option B) (p : A × A) : Option (B × B) :=
  (f p.1).bind fun a => (f p.2).map fun b => (a, b)

/-- `get_vertex(index).coords()` through `PolygonListExt` and `VertexExt`
(`inputs/polygon_list.rs:212-218`, `inputs/vertex.rs:77-79`); `xy` is the user's `Vertex`
implementation (`inputs/vertex.rs:9-19`). -/
def PolyList.coords {ε : Type} (p : PolyList I V) (xy : V → Coords C) (i : I) : Res ε (Coords C) :=
  match p.getVertex i with
  | some v => .ok (xy v)
  | none => .error .panic

end Tri
