import Mathlib.Tactic.Linarith
import Mathlib.Tactic.Ring
import Verif.Proof.Rename
import Verif.Proof.ExactLemmas
import Verif.Props.Inputs

/-!
# C20, C21, C36: renamed indices, failed conversions, other coordinates
-/

namespace Tri

section
variable {I J V C : Type} [Scalar C] [DecidableEq I] [DecidableEq J]

/-- **C20.**  Through `index_with`, with conversions that succeed on the indices the list yields and
are undone by the conversion back, a run is the run on the original list with every index renamed on
its way to the format: same outcome, same storage.  For the calls themselves: the calls made through
`index_with` are the renamed calls of the original run. -/
theorem C20_index_with_renames (cfg : Cfg) (fuel : Nat) (p : PolyList I V) (xy : V → Coords C)
    (f : I → Option J) (g : J → Option I) (h : I → J)
    (hfg : ∀ i, some (.cont i) ∈ p.elems → f i = some (h i) ∧ g (h i) = some i) :
    (∀ F : FanFormat J, triangulate cfg fuel (p.indexWith f g) xy F =
      triangulate cfg fuel p xy (F.renamed h)) ∧
    (∀ w, (triangulate cfg fuel (p.indexWith f g) xy (recorder J w)).1 =
      (triangulate cfg fuel p xy (recorder I w)).1.map (Call.renamed h) ∧
      (∀ cs, (triangulate cfg fuel (p.indexWith f g) xy (recorder J w)).2 = .ok cs ↔
        ∃ cs', (triangulate cfg fuel p xy (recorder I w)).2 = .ok cs' ∧ cs = cs'.map (Call.renamed h)) ∧
      (∀ e, (triangulate cfg fuel (p.indexWith f g) xy (recorder J w)).2 = .error e ↔
        (triangulate cfg fuel p xy (recorder I w)).2 = .error e)) := by
  refine ⟨triangulate_indexWith cfg fuel p xy f g h hfg, fun w => ?_⟩
  have key := triangulate_indexWith_recorder cfg fuel p xy f g h hfg w
  rw [key]
  refine ⟨rfl, ?_, ?_⟩
  · intro cs
    rcases (triangulate cfg fuel p xy (recorder I w)).2 with e | cs'
    · simp [Except.map]
    · simp [Except.map, eq_comm]
  · intro e
    rcases (triangulate cfg fuel p xy (recorder I w)).2 with e | cs'
    · simp [Except.map]
    · simp [Except.map]

/-- **C20.**  For nested vectors `index_with` converts the two parts of an index, the number of the polygon and the place
in the polygon, each by itself and in its place. -/
theorem C20_nested_indices (cfg : Cfg) (fuel : Nat) (pss : List (List V)) (xy : V → Coords C)
    (f : Nat → Option J) (g : J → Option Nat) (h : Nat → J)
    (hfg : ∀ i, (i < pss.length ∨ ∃ ps ∈ pss, i < ps.length) → f i = some (h i) ∧ g (h i) = some i) (F : FanFormat (J × J)) :
    triangulate cfg fuel ((PolyList.nested pss).indexWith (mapPair f) (mapPair g)) xy F =
      triangulate cfg fuel (PolyList.nested pss) xy (F.renamed fun i => (h i.1, h i.2)) := by
  obtain ⟨hel, -, hget, hsome, -⟩ := C22_nested_vectors pss
  refine (C20_index_with_renames cfg fuel (PolyList.nested pss) xy (mapPair f) (mapPair g) (fun i => (h i.1, h i.2)) ?_).1 F
  rintro ⟨i, j⟩ hm
  rw [hel] at hm
  obtain ⟨e, he, h2⟩ := List.mem_map.1 hm
  obtain rfl := Option.some.inj h2
  have h3 := hsome i j he
  rw [hget] at h3
  obtain ⟨v, h3⟩ := Option.isSome_iff_exists.1 h3
  obtain ⟨ps, h4, h5⟩ := Option.bind_eq_some_iff.1 h3
  obtain ⟨hi, h4⟩ := List.getElem?_eq_some_iff.1 h4
  obtain ⟨hj, -⟩ := List.getElem?_eq_some_iff.1 h5
  obtain ⟨a1, a2⟩ := hfg i (.inl hi)
  obtain ⟨b1, b2⟩ := hfg j (.inr ⟨ps, h4 ▸ List.getElem_mem hi, hj⟩)
  simp [mapPair, a1, a2, b1, b2]

/-- **C21.**  If the list yields, after complete polygons `gs` and some vertices `cur` of the next one,
an index that cannot be converted (or cannot be converted back), and `gs` is accepted, then
triangulation through `index_with` panics and the format is never used; if `gs` is not accepted, it
fails as it does on `gs` alone. -/
theorem C21_failed_conversion_panics (cfg : Cfg) (fuel : Nat) (p : PolyList I V) (xy : V → Coords C)
    (f : I → Option J) (g : J → Option I) (gs : List (List I)) (cur : List I) (i : I)
    (rest : List (Option (Elem I)))
    (hp : p.elems = (elemsOf gs).map some ++ cur.map (fun i => some (.cont i)) ++ some (.cont i) :: rest)
    (hi : f i = none ∨ ∃ j, f i = some j ∧ g j = none) (F : FanFormat J) :
    (∀ st, trapezoidize cfg fuel ((p.withElems ((elemsOf gs).map some)).indexWith f g) xy = .ok st →
      triangulate cfg fuel (p.indexWith f g) xy F = (F.unused, .error .panic)) ∧
    (∀ e, trapezoidize cfg fuel ((p.withElems ((elemsOf gs).map some)).indexWith f g) xy = .error e →
      triangulate cfg fuel (p.indexWith f g) xy F = (F.unused, .error (trapFault e))) := by
  have key := trapezoidize_unconvertible cfg fuel p xy f g gs cur i rest hp hi
  constructor
  · intro st h
    rw [triangulate, key, h]
    rfl
  · intro e h
    rw [triangulate, key, h]
    cases e <;> rfl

end

attribute [local instance] exact

/-- The conversion `usize → u8` and back. -/
private def toByte (n : Nat) : Option (Fin 256) := if h : n < 256 then some ⟨n, h⟩ else none

/-- `index_with::<_, u8>` on a polygon with four vertices: the conversions are inverse to each other,
and the output is not empty. -/
example : (∀ i, some (.cont i) ∈ (PolyList.single dart).elems →
      toByte i = some (Fin.ofNat 256 i) ∧ some (Fin.ofNat 256 i).val = some i) ∧
    (triangulate (Cfg.plain (fun _ _ => 0) true) 60 ((PolyList.single dart).indexWith toByte
      (fun j => some j.val)) id (recorder (Fin 256) .counterclockwise)).2 =
      .ok [.newFan 0 1 2, .extend 3] := by
  constructor
  · intro i hi
    have : i < 4 := by
      simpa [PolyList.single, Elem.ofIndex, dart] using hi
    have h2 : i < 256 := by omega
    have h3 : i % 256 = i := Nat.mod_eq_of_lt h2
    constructor
    · unfold toByte
      rw [dif_pos h2]
      congr 1
      exact Fin.ext h3.symm
    · simp [Fin.ofNat, h3]
  · decide +kernel

/-- `index_with::<_, u8>` on nested vectors: two triangles, the output names the polygon first. -/
example : (∀ i, (i < 2 ∨ ∃ ps ∈ [[(⟨0, 0⟩ : Coords Int), ⟨4, 0⟩, ⟨0, 4⟩], [⟨10, 0⟩, ⟨14, 1⟩, ⟨10, 5⟩]], i < ps.length) →
      toByte i = some (Fin.ofNat 256 i) ∧ some (Fin.ofNat 256 i).val = some i) ∧
    (triangulate (Cfg.plain (fun _ _ => 0) true) 60 ((PolyList.nested
      [[(⟨0, 0⟩ : Coords Int), ⟨4, 0⟩, ⟨0, 4⟩], [⟨10, 0⟩, ⟨14, 1⟩, ⟨10, 5⟩]]).indexWith (mapPair toByte)
      (mapPair fun j => some j.val)) id (recorder (Fin 256 × Fin 256) .counterclockwise)).2 =
      .ok [.newFan (0, 2) (0, 0) (0, 1), .newFan (1, 2) (1, 0) (1, 1)] := by
  constructor
  · intro i hi
    have : i < 3 := by
      simp only [List.mem_cons, List.not_mem_nil, or_false, exists_eq_or_imp, exists_eq_left, List.length_cons,
        List.length_nil] at hi
      omega
    have h2 : i < 256 := by omega
    have h3 : i % 256 = i := Nat.mod_eq_of_lt h2
    constructor
    · unfold toByte
      rw [dif_pos h2]
      congr 1
      exact Fin.ext h3.symm
    · simp [Fin.ofNat, h3]
  · decide +kernel

/-- A polygon after which the index 300, which does not fit a byte, is yielded. -/
example : let p : PolyList Nat (Coords Int) :=
      ⟨4, (elemsOf [[0, 1, 2]]).map some ++ [3].map (fun i => some (.cont i)) ++ some (.cont 300) :: [],
        fun i => dart[i]?⟩
    (toByte 300 = none ∨ ∃ j, toByte 300 = some j ∧ some j.val = none) ∧
    (∃ st, trapezoidize (Cfg.plain (fun _ _ => 0) true) 60 ((p.withElems
      ((elemsOf [[0, 1, 2]]).map some)).indexWith toByte (fun j => some j.val)) id = .ok st) := by
  refine ⟨.inl (by decide), ?_⟩
  have : (trapezoidize (Cfg.plain (fun _ _ => 0) true) 60 (((⟨4, [], fun i => dart[i]?⟩ :
      PolyList Nat (Coords Int)).withElems ((elemsOf [[0, 1, 2]]).map some)).indexWith toByte
        (fun j => some j.val)) id).isOk = true := by decide +kernel
  revert this
  show (trapezoidize (Cfg.plain (fun _ _ => 0) true) 60 (((⟨4, [], fun i => dart[i]?⟩ :
      PolyList Nat (Coords Int)).withElems ((elemsOf [[0, 1, 2]]).map some)).indexWith toByte
        (fun j => some j.val)) id).isOk = true → ∃ st, trapezoidize (Cfg.plain (fun _ _ => 0) true) 60
          (((⟨4, [], fun i => dart[i]?⟩ : PolyList Nat (Coords Int)).withElems
          ((elemsOf [[0, 1, 2]]).map some)).indexWith toByte (fun j => some j.val)) id = .ok st
  generalize trapezoidize (Cfg.plain (fun _ _ => 0) true) 60 (((⟨4, [], fun i => dart[i]?⟩ :
      PolyList Nat (Coords Int)).withElems ((elemsOf [[0, 1, 2]]).map some)).indexWith toByte
        (fun j => some j.val)) id = r
  intro h
  cases r with
  | error e => cases h
  | ok st => exact ⟨st, rfl⟩

section
variable {I V W C D : Type} [Scalar C] [Scalar D] [DecidableEq I]

/-- **C36.**  Two inputs that yield the same elements and whose vertices answer every comparison and
side test alike are triangulated alike: same outcome and same storage, whatever the format. -/
theorem C36_only_answers_matter (cfg : Cfg) (fuel : Nat) (p : PolyList I V) (xy : V → Coords C)
    (p' : PolyList I W) (xy' : W → Coords D) (he : p'.elems = p.elems)
    (ha : SameAnswers (fun i => (p.getVertex i).map xy) (fun i => (p'.getVertex i).map xy'))
    (F : FanFormat I) : triangulate cfg fuel p' xy' F = triangulate cfg fuel p xy F :=
  triangulate_answers cfg fuel p xy p' xy' he ha F

end

section
variable {I V K : Type} [DecidableEq I] [Field K] [LinearOrder K] [IsStrictOrderedRing K]

/-- **C36** for exact coordinates: moving the input, and stretching it by positive factors along the
axes, does not change the output. -/
theorem C36_translation_and_scaling (cfg : Cfg) (fuel : Nat) (p : PolyList I V) (xy : V → Coords K)
    (a b c d : K) (ha : 0 < a) (hc : 0 < c) (F : FanFormat I) :
    triangulate cfg fuel p (fun v => ⟨a * (xy v).x + b, c * (xy v).y + d⟩) F =
      triangulate cfg fuel p xy F := by
  have hlt : ∀ {a b : K}, 0 < a → ∀ x y, a * x + b < a * y + b ↔ x < y := by
    intro a b ha x y
    rw [add_lt_add_iff_right, mul_lt_mul_iff_right₀ ha]
  have heq : ∀ {a b : K}, 0 < a → ∀ x y, a * x + b = a * y + b ↔ x = y := by
    intro a b ha x y
    rw [add_left_inj, mul_right_inj' (ne_of_gt ha)]
  have hcmp : ∀ {a b : K}, 0 < a → ∀ x y, Scalar.cmp (a * x + b) (a * y + b) = Scalar.cmp x y := by
    intro a b ha x y
    simp only [Scalar.cmp, hlt ha, heq ha]
  refine C36_only_answers_matter cfg fuel p xy p _ rfl ⟨?_, ?_, ?_, ?_, ?_⟩ F
  · intro i
    simp
  · intro i j u v u' v' h1 h2 h3 h4
    simp only [Option.map_eq_some_iff] at h1 h2 h3 h4
    obtain ⟨p1, h1, rfl⟩ := h1
    obtain ⟨p2, h2, rfl⟩ := h2
    obtain ⟨q1, h3, rfl⟩ := h3
    obtain ⟨q2, h4, rfl⟩ := h4
    obtain rfl : p1 = q1 := by rw [h1] at h3; exact Option.some.inj h3
    obtain rfl : p2 = q2 := by rw [h2] at h4; exact Option.some.inj h4
    simp only [Coords.partialCmp, hcmp ha, hcmp hc]
  · intro i j k u v w u' v' w' h1 h2 h3 h4 h5 h6
    simp only [Option.map_eq_some_iff] at h1 h2 h3 h4 h5 h6
    obtain ⟨p1, h1, rfl⟩ := h1
    obtain ⟨p2, h2, rfl⟩ := h2
    obtain ⟨p3, h3, rfl⟩ := h3
    obtain ⟨q1, h4, rfl⟩ := h4
    obtain ⟨q2, h5, rfl⟩ := h5
    obtain ⟨q3, h6, rfl⟩ := h6
    obtain rfl : p1 = q1 := by rw [h1] at h4; exact Option.some.inj h4
    obtain rfl : p2 = q2 := by rw [h2] at h5; exact Option.some.inj h5
    obtain rfl : p3 = q3 := by rw [h3] at h6; exact Option.some.inj h6
    rw [Bool.eq_iff_iff, isLeft_unfold, isLeft_unfold]
    simp only [hlt ha, heq hc]
    have e1 : (a * (xy p1).x + b - (a * (xy p2).x + b)) * (c * (xy p3).y + d - (c * (xy p2).y + d)) =
        (a * c) * (((xy p1).x - (xy p2).x) * ((xy p3).y - (xy p2).y)) := by ring
    have e2 : (c * (xy p1).y + d - (c * (xy p2).y + d)) * (a * (xy p3).x + b - (a * (xy p2).x + b)) =
        (a * c) * (((xy p1).y - (xy p2).y) * ((xy p3).x - (xy p2).x)) := by ring
    rw [e1, e2, mul_lt_mul_iff_right₀ (mul_pos ha hc)]
  · intro i j u v u' v' h1 h2 h3 h4
    simp only [Option.map_eq_some_iff] at h1 h2 h3 h4
    obtain ⟨p1, h1, rfl⟩ := h1
    obtain ⟨p2, h2, rfl⟩ := h2
    obtain ⟨q1, h3, rfl⟩ := h3
    obtain ⟨q2, h4, rfl⟩ := h4
    obtain rfl : p1 = q1 := by rw [h1] at h3; exact Option.some.inj h3
    obtain rfl : p2 = q2 := by rw [h2] at h4; exact Option.some.inj h4
    simp only [Scalar.eq, heq ha]
  · intro i j u v u' v' h1 h2 h3 h4
    simp only [Option.map_eq_some_iff] at h1 h2 h3 h4
    obtain ⟨p1, h1, rfl⟩ := h1
    obtain ⟨p2, h2, rfl⟩ := h2
    obtain ⟨q1, h3, rfl⟩ := h3
    obtain ⟨q2, h4, rfl⟩ := h4
    obtain rfl : p1 = q1 := by rw [h1] at h3; exact Option.some.inj h3
    obtain rfl : p2 = q2 := by rw [h2] at h4; exact Option.some.inj h4
    simp only [Scalar.eq, heq hc]

end

/-- The dart and the same polygon on other coordinates answer every question alike (not an affine
image: the last vertex is moved). -/
example : SameAnswers (fun i => ((PolyList.single dart).getVertex i).map id)
    (fun i => ((PolyList.single [ipt 0 0, ipt 8 1, ipt 2 2, ipt 4 7]).getVertex i).map id) := by
  have key : ∀ {P : Nat → Coords Int → Coords Int → Prop},
      P 0 (ipt 0 0) (ipt 0 0) → P 1 (ipt 4 1) (ipt 8 1) → P 2 (ipt 1 2) (ipt 2 2) →
      P 3 (ipt 2 5) (ipt 4 7) → ∀ i a a', ((PolyList.single dart).getVertex i).map id = some a →
      ((PolyList.single [ipt 0 0, ipt 8 1, ipt 2 2, ipt 4 7]).getVertex i).map id = some a' →
      P i a a' := by
    intro P h0 h1 h2 h3 i a a' ha ha'
    rcases i with _ | _ | _ | _ | i <;> simp [PolyList.single, dart] at ha ha' <;> subst ha ha' <;>
      assumption
  refine ⟨?_, ?_, ?_, ?_, ?_⟩
  · intro i
    rcases i with _ | _ | _ | _ | i <;> simp [PolyList.single, dart]
  · intro i j a b a' b' h1 h2 h3 h4
    revert h1 h3
    revert i a a'
    apply key <;> (revert h2 h4; revert j b b'; apply key <;> decide)
  · intro i j k a b c a' b' c' h1 h2 h3 h4 h5 h6
    revert h1 h4
    revert i a a'
    apply key <;> (revert h2 h5; revert j b b'; apply key <;>
      (revert h3 h6; revert k c c'; apply key <;> decide))
  · intro i j a b a' b' h1 h2 h3 h4
    revert h1 h3
    revert i a a'
    apply key <;> (revert h2 h4; revert j b b'; apply key <;> decide)
  · intro i j a b a' b' h1 h2 h3 h4
    revert h1 h3
    revert i a a'
    apply key <;> (revert h2 h4; revert j b b'; apply key <;> decide)

end Tri
