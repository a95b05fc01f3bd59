import Verif.Model.Input

/-!
# Model of the output side: fan and list formats

A `FanFormat` value and its `FanBuilder` type are modelled as one record of operations.  `W` is what
the caller can still see of storage they lent to the format (`&mut Vec<..>`) once the call is over.
-/

namespace Tri

variable {I V : Type}

/-- `FanFormat` with its `Builder: FanBuilder` (`outputs/fan_format.rs:6-44`).  The record stands for
one format *value* (the Rust `self`). -/
structure FanFormat (I : Type) where
  /-- `FanFormat::Builder` -/
  B : Type
  /-- `FanBuilder::Error` -/
  E : Type
  /-- `FanBuilder::Output` -/
  O : Type
  /-- what the caller can observe of lent storage afterwards -/
  W : Type
  /-- `FanBuilder::WINDING` -/
  winding : Winding
  /-- the format is dropped without ever being initialised -/
  unused : W
  /-- `FanFormat::initialize`; a failure consumes the format -/
  start : I → I → I → Except (Fault E × W) B
  /-- `FanBuilder::new_fan` -/
  newFan : B → I → I → I → B × Res E Unit
  /-- `FanBuilder::extend_fan` -/
  extendFan : B → I → B × Res E Unit
  /-- `FanBuilder::build` -/
  build : B → W × Res E O
  /-- `FanBuilder::fail` -/
  fail : B → TriErr E → W
  /-- the builder is dropped (only on a panic, or by `FanBuilderState::new_fan` on an `Error` state) -/
  drop : B → W

/-- `Fan<V>` (`outputs/fan.rs:2-8`). -/
class Fan (F : Type) (V : outParam Type) where
  new : V → V → V → F
  push : F → V → F

/-- `impl Fan<V> for Vec<V>` (`outputs/fan.rs:10-18`). -/
instance : Fan (List V) V where
  new v0 v1 v2 := [v0, v1, v2]
  push f v := f ++ [v]

/-- `Fans` (`outputs/fan.rs:21-38`). -/
class Fans (FS : Type) (F : outParam Type) where
  len : FS → Nat
  truncate : FS → Nat → FS
  push : FS → F → FS

/-- `impl Fans for Vec<F>` (`outputs/fan.rs:40-54`); `impl Fans for &mut FS` (`56-70`) forwards and
needs no model of its own. -/
instance {F : Type} : Fans (List F) F where
  len fs := fs.length
  truncate fs n := fs.take n
  push fs f := fs ++ [f]

/-- `List<V>` (`outputs/list.rs:2-16`). -/
class TriList (L : Type) (V : outParam Type) where
  push : L → V → V → V → L
  len : L → Nat
  truncate : L → Nat → L

/-- `Vec<V>` used as a list of triangles (`outputs/list.rs:18-32`). -/
structure FlatVec (V : Type) where
  data : List V
deriving DecidableEq, Repr

/-- `impl List<V> for Vec<V>` (`outputs/list.rs:18-32`). -/
instance : TriList (FlatVec V) V where
  push l v0 v1 v2 := ⟨l.data ++ [v0] ++ [v1] ++ [v2]⟩
  len l := l.data.length / 3
  truncate l n := ⟨l.data.take (n * 3)⟩

/-- `impl List<V> for Vec<[V; 3]>` and `Vec<(V, V, V)>` (`outputs/list.rs:34-60`); `&mut L`
(`62-74`) forwards. -/
instance : TriList (List (V × V × V)) V where
  push l v0 v1 v2 := l ++ [(v0, v1, v2)]
  len l := l.length
  truncate l n := l.take n

/-- `GenericFans` (`outputs/formats/generic_fans.rs:5-11`). -/
structure GenericFans (FS F : Type) where
  fans : FS
  currentFan : F
  initialFanCount : Nat

namespace GenericFans
variable {FS F : Type} [Fans FS F] [Fan F V]

/-- `GenericFans::new` (`outputs/formats/generic_fans.rs:15-24`). -/
def new (fans : FS) (v0 v1 v2 : V) : GenericFans FS F := ⟨fans, Fan.new v0 v1 v2, Fans.len fans⟩

/-- `GenericFans::new_fan` (`outputs/formats/generic_fans.rs:26-29`). -/
def newFan (g : GenericFans FS F) (v0 v1 v2 : V) : GenericFans FS F :=
  { g with currentFan := Fan.new v0 v1 v2, fans := Fans.push g.fans g.currentFan }

/-- `GenericFans::extend_fan` (`outputs/formats/generic_fans.rs:31-33`). -/
def extendFan (g : GenericFans FS F) (v : V) : GenericFans FS F :=
  { g with currentFan := Fan.push g.currentFan v }

/-- `GenericFans::build` (`outputs/formats/generic_fans.rs:35-38`). -/
def build (g : GenericFans FS F) : FS := Fans.push g.fans g.currentFan

/-- `GenericFans::fail` (`outputs/formats/generic_fans.rs:40-42`). -/
def fail (g : GenericFans FS F) : FS := Fans.truncate g.fans g.initialFanCount

end GenericFans

/-- `GenericList` (`outputs/formats/generic_list.rs:5-9`). -/
structure GenericList (L : Type) where
  list : L
  initialVertCount : Nat

namespace GenericList
variable {L : Type} [TriList L V]

/-- `GenericList::new` (`outputs/formats/generic_list.rs:12-19`). -/
def new (list : L) : GenericList L := ⟨list, TriList.len list⟩

/-- `GenericList::new_triangle` (`outputs/formats/generic_list.rs:21-23`). -/
def newTriangle (g : GenericList L) (v0 v1 v2 : V) : GenericList L :=
  { g with list := TriList.push g.list v0 v1 v2 }

/-- `GenericList::build` (`outputs/formats/generic_list.rs:25-27`). -/
def build (g : GenericList L) : L := g.list

/-- `GenericList::fail` (`outputs/formats/generic_list.rs:29-31`). -/
def fail (g : GenericList L) : L := TriList.truncate g.list g.initialVertCount

end GenericList

/-- `IndexedFanFormat` (`outputs/formats/indexed_fan.rs:9-71`). -/
abbrev indexedFan {FS F : Type} [Fans FS F] [Fan F I] (fans : FS) : FanFormat I where
  B := GenericFans FS F
  E := Empty
  O := FS
  W := FS
  winding := .counterclockwise
  unused := fans
  start v0 v1 v2 := .ok (GenericFans.new fans v0 v1 v2)
  newFan b v0 v1 v2 := (b.newFan v0 v1 v2, .ok ())
  extendFan b v := (b.extendFan v, .ok ())
  build b := (b.build, .ok b.build)
  fail b _ := b.fail
  drop b := b.fans

/-- Three `get_vertex` calls as in `DeindexedFanBuilder::new`
(`outputs/formats/deindexed_fan.rs:46`, `64`). -/
def getVertex3 (p : PolyList I V) (v0 v1 v2 : I) : Option (V × V × V) :=
  (p.getVertex v0).bind fun a => (p.getVertex v1).bind fun b => (p.getVertex v2).map fun c => (a, b, c)

/-- `DeindexedFanFormat` (`outputs/formats/deindexed_fan.rs:9-81`); `get_vertex` may panic. -/
abbrev deindexedFan {FS F : Type} [Fans FS F] [Fan F V] (p : PolyList I V) (fans : FS) :
    FanFormat I where
  B := GenericFans FS F
  E := Empty
  O := FS
  W := FS
  winding := .counterclockwise
  unused := fans
  start v0 v1 v2 :=
    match getVertex3 p v0 v1 v2 with
    | some (a, b, c) => .ok (GenericFans.new fans a b c)
    | none => .error (.panic, fans)
  newFan g v0 v1 v2 :=
    match getVertex3 p v0 v1 v2 with
    | some (a, b, c) => (g.newFan a b c, .ok ())
    | none => (g, .error .panic)
  extendFan g v :=
    match p.getVertex v with
    | some a => (g.extendFan a, .ok ())
    | none => (g, .error .panic)
  build g := (g.build, .ok g.build)
  fail g _ := g.fail
  drop g := g.fans

/-- `DelimitedFanError` (`outputs/formats/delimited_fan.rs:8-10`). -/
inductive DelimitedFanError where
  | indexMatchesDelimiter
deriving DecidableEq, Repr

/-- `DelimitedFanBuilder` (`outputs/formats/delimited_fan.rs:46-51`). -/
structure DelimitedBuilder (I FS : Type) where
  fans : FS
  delimiter : I
  initialVertCount : Nat

namespace DelimitedBuilder
variable {FS : Type} [Fans FS I] [DecidableEq I]

/-- `DelimitedFanBuilder::push_index` (`outputs/formats/delimited_fan.rs:75-82`). -/
def pushIndex (b : DelimitedBuilder I FS) (v : I) :
    DelimitedBuilder I FS × Res DelimitedFanError Unit :=
  if b.delimiter = v then (b, .error (.err .indexMatchesDelimiter))
  else ({ b with fans := Fans.push b.fans v }, .ok ())

/-- `push_index(vi0)?; push_index(vi1)?; push_index(vi2)?` (`outputs/formats/delimited_fan.rs:68-70`,
`92-94`). -/
def push3 (b : DelimitedBuilder I FS) (v0 v1 v2 : I) :
    DelimitedBuilder I FS × Res DelimitedFanError Unit :=
  match b.pushIndex v0 with
  | (b, .error e) => (b, .error e)
  | (b, .ok ()) =>
    match b.pushIndex v1 with
    | (b, .error e) => (b, .error e)
    | (b, .ok ()) => b.pushIndex v2

end DelimitedBuilder

/-- `DelimitedFanFormat` (`outputs/formats/delimited_fan.rs:24-111`). -/
abbrev delimitedFan {FS : Type} [Fans FS I] [DecidableEq I] (fans : FS) (delimiter : I) :
    FanFormat I where
  B := DelimitedBuilder I FS
  E := DelimitedFanError
  O := FS
  W := FS
  winding := .counterclockwise
  unused := fans
  start v0 v1 v2 :=
    let fans' := if Fans.len fans > 0 then Fans.push fans delimiter else fans
    let b : DelimitedBuilder I FS := ⟨fans', delimiter, Fans.len fans⟩
    match b.push3 v0 v1 v2 with
    | (b, .ok ()) => .ok b
    | (b, .error e) => .error (e, b.fans)
  newFan b v0 v1 v2 := { b with fans := Fans.push b.fans b.delimiter }.push3 v0 v1 v2
  extendFan b v := b.pushIndex v
  build b := (b.fans, .ok b.fans)
  fail b _ := Fans.truncate b.fans b.initialVertCount
  drop b := b.fans

/-- `ListFormat` with its `Builder: ListBuilder` (`outputs/list_format.rs:6-42`). -/
structure ListFormat (I : Type) where
  B : Type
  E : Type
  O : Type
  W : Type
  winding : Winding
  unused : W
  start : Except (Fault E × W) B
  addTriangle : B → I → I → I → B × Res E Unit
  build : B → W × Res E O
  fail : B → TriErr E → W
  drop : B → W

/-- `IndexedListFormat` (`outputs/formats/indexed_list.rs:9-60`). -/
abbrev indexedList {L : Type} [TriList L I] (list : L) : ListFormat I where
  B := GenericList L
  E := Empty
  O := L
  W := L
  winding := .counterclockwise
  unused := list
  start := .ok (GenericList.new list)
  addTriangle g v0 v1 v2 := (g.newTriangle v0 v1 v2, .ok ())
  build g := (g.build, .ok g.build)
  fail g _ := g.fail
  drop g := g.list

/-- `DeindexedListFormat` (`outputs/formats/deindexed_list.rs:9-69`); `get_vertex` may panic. -/
abbrev deindexedList {L : Type} [TriList L V] (p : PolyList I V) (list : L) : ListFormat I where
  B := GenericList L
  E := Empty
  O := L
  W := L
  winding := .counterclockwise
  unused := list
  start := .ok (GenericList.new list)
  addTriangle g v0 v1 v2 :=
    match getVertex3 p v0 v1 v2 with
    | some (a, b, c) => (g.newTriangle a b c, .ok ())
    | none => (g, .error .panic)
  build g := (g.build, .ok g.build)
  fail g _ := g.fail
  drop g := g.list

/-- `FanToListBuilder` (`outputs/formats/fan_to_list.rs:28-33`). -/
structure FanToListBuilder (I B : Type) where
  listBuilder : B
  vi0 : I
  vi1 : I

/-- `ListFormat::into_fan_format` (`outputs/list_format.rs:16-19`): `FanToListFormat`
(`outputs/formats/fan_to_list.rs:8-70`).  When the first `add_triangle` fails inside `initialize`
(line 21) the list builder is dropped, not failed. -/
abbrev ListFormat.intoFanFormat (L : ListFormat I) : FanFormat I where
  B := FanToListBuilder I L.B
  E := L.E
  O := L.O
  W := L.W
  winding := L.winding
  unused := L.unused
  start v0 v1 v2 :=
    match L.start with
    | .error e => .error e
    | .ok b =>
      match L.addTriangle b v0 v1 v2 with
      | (b, .ok ()) => .ok ⟨b, v0, v2⟩
      | (b, .error e) => .error (e, L.drop b)
  newFan b v0 v1 v2 :=
    let r := L.addTriangle b.listBuilder v0 v1 v2
    (⟨r.1, v0, v2⟩, r.2)
  extendFan b v :=
    let r := L.addTriangle b.listBuilder b.vi0 b.vi1 v
    (⟨r.1, b.vi0, v⟩, r.2)
  build b := L.build b.listBuilder
  fail b e := L.fail b.listBuilder e
  drop b := L.drop b.listBuilder

/-- `FanFormat::reverse_winding` (`outputs/fan_format.rs:16-19`): `ReverseFanFormat`
(`outputs/formats/reverse_fan.rs:6-47`). -/
abbrev FanFormat.reverseWinding (F : FanFormat I) : FanFormat I :=
  { F with winding := F.winding.reverse }

end Tri
