import Verif.Proof.Idx
import Verif.Proof.WordsRoom
import Verif.Proof.WordsTriRoom
import Verif.Props.Canonical
import Verif.Props.Ending
import Verif.Props.Mesh
import Verif.Props.Safety

/-!
# C63: machine words and vectors of limited length
-/

namespace Tri

section Trapezoidation

variable {I V C : Type} [Scalar C] [DecidableEq I]

/-- **C63.**  On every machine the trapezoidation gives what it gives with unbounded numbers and vectors, or it panics.  So no overflow leads to
undefined behaviour, to a loop without end, to an error value or to another result, with or without debug assertions.  Coordinates, comparisons, the input
and its `vertex_count` are arbitrary. -/
theorem C63_overflow_only_panics (M : Machine) (hM : M.Valid) (cfg : Cfg) (hcfg : cfg.Valid) (fuel : Nat) (p : PolyList I V)
    (xy : V → Coords C) :
    (trapezoidizeW M cfg fuel p xy = .error .panic ∨ trapezoidizeW M cfg fuel p xy = trapezoidize cfg fuel p xy) ∧
      trapezoidizeW M cfg fuel p xy ≠ .error .ub ∧
      (2 * p.elems.length + 3 ≤ fuel → trapezoidizeW M cfg fuel p xy ≠ .error .timeout) := by
  have h : trapezoidizeW M cfg fuel p xy = .error .panic ∨ trapezoidizeW M cfg fuel p xy = trapezoidize cfg fuel p xy :=
    Or.imp id And.left (trapezoidize_near hM cfg hcfg fuel p xy)
  refine ⟨h, ?_, fun hf => ?_⟩
  · rcases h with h | h <;> rw [h]
    · simp
    · exact (C07_no_undefined_behaviour cfg fuel p xy).1
  · rcases h with h | h <;> rw [h]
    · simp
    · obtain ⟨r, h1, h2, -⟩ := C37_trapezoidation_ends cfg hcfg p xy
      rw [h1 fuel hf]
      exact h2

/-- **C63** for the whole triangulation, with every format: on every machine it panics, or it ends as it does with unbounded numbers and vectors, with the same output and the same
contents of the caller's vectors.  There is no undefined behaviour unless the format brings it in. -/
theorem C63_triangulation_only_panics (M : Machine) (hM : M.Valid) (cfg : Cfg) (hcfg : cfg.Valid) (fuel : Nat) (p : PolyList I V)
    (xy : V → Coords C) (F : FanFormat I) :
    ((triangulateW M cfg fuel p xy F).2 = .error .panic ∨ triangulateW M cfg fuel p xy F = triangulate cfg fuel p xy F) ∧
      (F.NoUB → (triangulateW M cfg fuel p xy F).2 ≠ .error .ub) := by
  have h := triangulate_near hM cfg hcfg fuel p xy F
  refine ⟨h, fun hF => ?_⟩
  rcases h with h | h
  · rw [h]
    simp
  · rw [h]
    exact (C07_no_undefined_behaviour cfg fuel p xy).2 F hF

/-- **C63.**  A chain, once it is built, is cut into fans without any overflow, whatever its shape and the arithmetic: here limits change nothing. -/
theorem C63_chains_never_overflow (M : Machine) (debug : Bool) (F : FanFormat I) (fuel : Nat) (b : MonoB I C)
    (hb : (b.first :: b.rest).length + 3 ≤ 2 ^ M.bits) :
    (finishMonotoneW M debug F.winding fuel b : FBM F Unit) = finishMonotone F.winding fuel b := by
  funext s
  exact (finishMonotone_same F.winding fuel (by simpa [MonoB.InWords] using hb) s).1

/-- **C63.**  Nothing overflows if the vectors have room for what `n` vertices need at most, and for what `vertex_count` asks for.  A debug build also
counts the visits of its consistency check, and these can be exponentially many (C64), so there the words have to be long enough for these, too. -/
theorem C63_enough_room (M : Machine) (hM : M.Valid) (cfg : Cfg) (hcfg : cfg.Valid) (fuel n : Nat) (p : PolyList I V) (xy : V → Coords C)
    (hn : p.elems.length ≤ n) (hf : 2 * n + 3 ≤ fuel)
    (hns : n ≤ M.ns) (hss : n ≤ M.ss) (hvl : n ≤ M.vls) (hu : n ≤ M.us) (hts : 2 * n + 1 ≤ M.ts) (hqs : n ^ 2 + 4 * n + 1 ≤ M.qs)
    (hv : p.vertexCount ≤ n) (hdb : cfg.debug = true → 2 * n + 1 ≤ M.bits) :
    trapezoidizeW M cfg fuel p xy = trapezoidize cfg fuel p xy := by
  have hc : conts p.elems ≤ n := (conts_le _).trans hn
  have hsq : conts p.elems * conts p.elems ≤ n * n := Nat.mul_le_mul hc hc
  have hsq' : n ^ 2 = n * n := by rw [Nat.pow_two]
  refine trapezoidize_room cfg hcfg p xy ?_ ?_ ?_
  · constructor <;> first | exact hM | omega | (rw [Nat.pow_two]; omega) | (intro h; have := hdb h; omega)
  · constructor <;> omega
  · unfold enough
    omega

/-- **C63.**  `vertex_count` is more than a hint: if it is larger than the number of nexuses a vector can have, trapezoidation panics, in every build and
for every input, although it never looks at that many vertices. -/
theorem C63_too_large_vertex_count_panics (M : Machine) (hM : M.Valid) (cfg : Cfg) (fuel : Nat) (p : PolyList I V) (xy : V → Coords C)
    (hv : M.ns < p.vertexCount) :
    trapezoidizeW M cfg fuel p xy = .error .panic := by
  have h : (St.newW M cfg.debug p.vertexCount : Res TrapErr (St I C)) = .error .panic := by
    have ok : ∀ {α β : Type} {x : Res TrapErr α} {f : α → Res TrapErr β}, (∀ e, x = .error e → e = .panic) →
        (∀ a, x = .ok a → f a = .error .panic) → x >>= f = .error .panic := by
      intro α β x f h1 h2
      rcases x with e | a
      · rw [h1 e rfl]
        rfl
      · exact h2 a rfl
    have hadd : ∀ a b e, (M.add cfg.debug a b : Res TrapErr Nat) = .error e → e = .panic := by
      intro a b e h
      unfold Machine.add at h
      split at h <;> (try split at h) <;> cases h
      rfl
    have hmul : ∀ a b e, (M.mul cfg.debug a b : Res TrapErr Nat) = .error e → e = .panic := by
      intro a b e h
      unfold Machine.mul at h
      split at h <;> (try split at h) <;> cases h
      rfl
    have hcap : ∀ r n e, (Machine.capacity r n : Res TrapErr Unit) = .error e → e = .panic := by
      intro r n e h
      unfold Machine.capacity at h
      split at h <;> cases h
      rfl
    have hpush : ∀ {α : Type} r (xs : List α) x e, (Machine.push r xs x : Res TrapErr (List α)) = .error e → e = .panic := by
      intro α r xs x e h
      unfold Machine.push at h
      split at h <;> cases h
      rfl
    have hnew : ∀ e, (M.new cfg.debug 0 : Res TrapErr Nat) = .error e → e = .panic := by
      intro e h
      unfold Machine.new at h
      rw [if_pos (by have := Nat.one_lt_two_pow (n := M.bits) (by have := hM.bits; omega); omega)] at h
      cases h
    unfold St.newW
    refine ok (hmul _ _) fun _ _ => ok (hcap _ _) fun _ _ => ok hnew fun _ _ => ok hnew fun _ _ => ok (hpush _ _ _) fun _ _ =>
      ok (hmul _ _) fun _ _ => ok (hadd _ _) fun _ _ => ok (hcap _ _) fun _ _ => ok (hpush _ _ _) fun _ _ => ok (hcap _ _) fun _ h => ?_
    unfold Machine.capacity at h
    rw [if_neg (by omega)] at h
    cases h
  unfold trapezoidizeW
  rw [h]
  rfl

end Trapezoidation

section Valid

variable {I V K : Type} [Field K] [LinearOrder K] [IsStrictOrderedRing K] [DecidableEq I]

attribute [local instance] exact

/-- **C63** for the whole triangulation of valid polygons: with room for what `n` vertices need at most the limits change nothing, for every
format, and if the format does not fail then the triangulation succeeds on the machine, too. -/
theorem C63_valid_input_enough_room (M : Machine) (hM : M.Valid) (p : PolyList I V) (xy : V → Coords K) (gs : List (List (I × Coords K)))
    (hd : Describes p xy gs) (hv : ValidPolys (gs.map (List.map Prod.snd))) (hne : gs ≠ []) (cfg : Cfg) (hcfg : cfg.Valid) (fuel n : Nat)
    (hn : p.elems.length ≤ n) (hf : (p.elems.length + 3) ^ 2 ≤ fuel)
    (hns : n ≤ M.ns) (hss : n ≤ M.ss) (hvl : n ≤ M.vls) (hu : n ≤ M.us) (hts : 2 * n + 1 ≤ M.ts) (hqs : n ^ 2 + 4 * n + 1 ≤ M.qs)
    (hc : 2 * n + 2 ≤ M.chain) (hb : 4 * n + 2 ≤ M.branches) (hs : 2 * n + 1 ≤ M.chains) (hvc : p.vertexCount ≤ n)
    (hdb : cfg.debug = true → 2 * n + 1 ≤ M.bits) (F : FanFormat I) :
    triangulateW M cfg fuel p xy F = triangulate cfg fuel p xy F ∧
      (F.Infallible → ∃ o, (triangulateW M cfg fuel p xy F).2 = .ok o) := by
  have h : triangulateW M cfg fuel p xy F = triangulate cfg fuel p xy F := by
    have hc' : conts p.elems ≤ n := (conts_le _).trans hn
    have hsq : conts p.elems * conts p.elems ≤ n * n := Nat.mul_le_mul hc' hc'
    have hsq' : n ^ 2 = n * n := by rw [Nat.pow_two]
    refine triangulate_room hd hv hne cfg hcfg fuel hf ?_ ?_ (by omega) (by omega) (by omega) F
    · constructor <;> first | exact hM | omega | (rw [Nat.pow_two]; omega) | (intro h; have := hdb h; omega)
    · constructor <;> omega
  refine ⟨h, fun hF => ?_⟩
  obtain ⟨o, t, ho⟩ := (C01_valid_input_succeeds p xy gs hd hv hne cfg hcfg).1 F hF
  exact ⟨o, by rw [h, ho fuel hf]⟩

end Valid

section Idx

variable {ε : Type} {w : Nat}

/-- **C63.**  An index that is not the largest word survives being stored; the largest one panics with debug assertions and is undefined behaviour without them. -/
theorem C63_idx_new (debug : Bool) (hw : 0 < w) (i : BitVec w) :
    (i.toNat + 1 < 2 ^ w → ∃ j : Idx w, (Idx.new debug i : Res ε (Idx w)) = .ok j ∧ j.usize = i) ∧
    (i.toNat + 1 = 2 ^ w → (Idx.new debug i : Res ε (Idx w)) = .error (if debug then .panic else .ub)) := by
  constructor
  · intro h
    obtain ⟨j, h1, h2⟩ := new_small (ε := ε) debug i h
    exact ⟨j, h1, BitVec.eq_of_toNat_eq h2⟩
  · intro h
    have h' := new_toNat (ε := ε) debug ⟨w, 0, 0, 0, 0, 0, 0, 0, 0, 0⟩ rfl hw i
    unfold Machine.new at h'
    rw [if_neg (by show ¬ i.toNat + 1 < 2 ^ w; omega)] at h'
    generalize (Idx.new debug i : Res ε (Idx w)) = r at h'
    rcases r with e | j
    · cases debug <;> (rw [show e = _ from Except.error.inj h']; rfl)
    · cases debug <;> cases h'

/-- **C63.**  Indices are equal exactly if the numbers they stand for are, and they are ordered like these (`PartialEq` and `Ord` compare the stored words). -/
theorem C63_idx_order (i j : Idx w) :
    (i = j ↔ i.usize = j.usize) ∧ (i.1 < j.1 ↔ i.usize < j.usize) := by
  have hi := usize_toNat i
  have hj := usize_toNat j
  rw [Idx.ext_usize, BitVec.lt_def, BitVec.lt_def]
  exact ⟨⟨fun h => BitVec.eq_of_toNat_eq h, fun h => by rw [h]⟩, by omega⟩

/-- **C63.**  `advance`, `recede`, addition and subtraction of an index, as long as the results stay below the largest word. -/
theorem C63_idx_arithmetic (debug : Bool) (i : Idx w) (n : BitVec w) :
    (i.usize.toNat + n.toNat + 1 < 2 ^ w →
      ∃ j : Idx w, (Idx.add debug i n : Res ε (Idx w)) = .ok j ∧ j.usize.toNat = i.usize.toNat + n.toNat) ∧
    (n.toNat ≤ i.usize.toNat →
      ∃ j : Idx w, (Idx.sub debug i n : Res ε (Idx w)) = .ok j ∧ j.usize.toNat = i.usize.toNat - n.toNat) ∧
    (i.usize.toNat < n.toNat → (Idx.sub debug i n : Res ε (Idx w)) = .error .panic) ∧
    (i.usize.toNat + 2 < 2 ^ w →
      ∃ j : Idx w, (Idx.advance debug i : Res ε (Idx w)) = .ok j ∧ j.usize.toNat = i.usize.toNat + 1) ∧
    (∃ j : Idx w, (Idx.recede debug i : Res ε (Idx w)) = .ok j ∧ j.usize.toNat = i.usize.toNat - 1) := by
  have hi := usize_lt i
  have hw : w ≠ 0 := by
    rintro rfl
    simp at hi
  have h1 : (1 : BitVec w).toNat = 1 := by
    simp [BitVec.toNat_ofNat, Nat.mod_eq_of_lt (Nat.one_lt_two_pow hw)]
  have plus : ∀ k : BitVec w, i.usize.toNat + k.toNat + 1 < 2 ^ w →
      ∃ j : Idx w, (uadd debug i.usize k >>= Idx.new debug : Res ε (Idx w)) = .ok j ∧ j.usize.toNat = i.usize.toNat + k.toNat := by
    intro k h
    have hk : (i.usize + k).toNat = i.usize.toNat + k.toNat := by rw [BitVec.toNat_add, Nat.mod_eq_of_lt (by omega)]
    unfold uadd
    rw [if_pos (by omega)]
    obtain ⟨j, h2, h3⟩ := new_small (ε := ε) debug (i.usize + k) (by omega)
    exact ⟨j, h2, by rw [h3, hk]⟩
  have minus : ∀ k : BitVec w, k.toNat ≤ i.usize.toNat →
      ∃ j : Idx w, (Idx.new debug (i.usize - k) : Res ε (Idx w)) = .ok j ∧ j.usize.toNat = i.usize.toNat - k.toNat := by
    intro k h
    have hk : (i.usize - k).toNat = i.usize.toNat - k.toNat := BitVec.toNat_sub_of_le (BitVec.le_def.2 h)
    obtain ⟨j, h2, h3⟩ := new_small (ε := ε) debug (i.usize - k) (by omega)
    exact ⟨j, h2, by rw [h3, hk]⟩
  refine ⟨plus n, fun h => ?_, fun h => ?_, fun h => ?_, ?_⟩
  · unfold Idx.sub
    rw [if_pos (BitVec.le_def.2 h)]
    exact minus n h
  · unfold Idx.sub
    rw [if_neg (by rw [BitVec.le_def]; omega)]
  · have := plus 1 (by omega)
    rw [h1] at this
    exact this
  · unfold Idx.recede
    split
    · rename_i h
      have hpos : 0 < i.usize.toNat := by simpa [BitVec.lt_def] using h
      have := minus 1 (by omega)
      rw [h1] at this
      exact this
    · rename_i h
      have hz : ¬ 0 < i.usize.toNat := by simpa [BitVec.lt_def] using h
      exact ⟨i, rfl, by omega⟩

/-- **C63.**  `next_wrapped` and `prev_wrapped` go round the indices of a slice that is not empty, without overflow, even if it has as many elements as
there are words. -/
theorem C63_idx_wrapped (debug : Bool) (i : Idx w) (len : BitVec w) (h : i.usize.toNat < len.toNat) :
    (∃ j : Idx w, (Idx.nextWrapped debug len i : Res ε (Idx w)) = .ok j ∧ j.usize.toNat = (i.usize.toNat + 1) % len.toNat) ∧
    (∃ j : Idx w, (Idx.prevWrapped debug len i : Res ε (Idx w)) = .ok j ∧
      j.usize.toNat = (i.usize.toNat + len.toNat - 1) % len.toNat) := by
  have hi := usize_lt i
  have hl := len.isLt
  have hw : w ≠ 0 := by
    rintro rfl
    simp at hi
  have h1 : (1 : BitVec w).toNat = 1 := by
    simp [BitVec.toNat_ofNat, Nat.mod_eq_of_lt (Nat.one_lt_two_pow hw)]
  have h0 : len ≠ 0 := by
    rintro rfl
    simp at h
  constructor
  · have hk : (i.usize + 1).toNat = i.usize.toNat + 1 := by rw [BitVec.toNat_add, h1, Nat.mod_eq_of_lt (by omega)]
    have hm := Nat.mod_lt (i.usize.toNat + 1) (show len.toNat > 0 by omega)
    obtain ⟨j, h2, h3⟩ := new_small (ε := ε) debug ((i.usize + 1) % len) (by rw [BitVec.toNat_umod, hk]; omega)
    refine ⟨j, ?_, by rw [h3, BitVec.toNat_umod, hk]⟩
    unfold Idx.nextWrapped uadd
    rw [if_neg h0, if_pos (by omega)]
    exact h2
  · unfold Idx.prevWrapped
    rw [if_neg h0]
    split
    · rename_i hz
      have hz' : i.usize.toNat = 0 := by rw [hz]; simp
      have hk : (len - 1).toNat = len.toNat - 1 := by
        rw [BitVec.toNat_sub_of_le (BitVec.le_def.2 (by omega)), h1]
      obtain ⟨j, h2, h3⟩ := new_small (ε := ε) debug (len - 1) (by omega)
      exact ⟨j, h2, by rw [h3, hk, hz', Nat.zero_add, Nat.mod_eq_of_lt (by omega)]⟩
    · rename_i hz
      have hz' : i.usize.toNat ≠ 0 := fun e => hz (BitVec.eq_of_toNat_eq (by simpa using e))
      have hk : (i.usize - 1).toNat = i.usize.toNat - 1 := by
        rw [BitVec.toNat_sub_of_le (BitVec.le_def.2 (by omega)), h1]
      obtain ⟨j, h2, h3⟩ := new_small (ε := ε) debug (i.usize - 1) (by omega)
      refine ⟨j, h2, ?_⟩
      rw [h3, hk, show i.usize.toNat + len.toNat - 1 = (i.usize.toNat - 1) + len.toNat by omega, Nat.add_mod_right,
        Nat.mod_eq_of_lt (by omega)]

/-- **C63.**  The natural numbers of `Machine` are the words: addition and `Idx::new` do the same. -/
theorem C63_words_are_numbers (debug : Bool) (M : Machine) (hw : M.bits = w) (hpos : 0 < w) (a b : BitVec w) :
    (uadd debug a b : Res ε (BitVec w)).map BitVec.toNat = M.add debug a.toNat b.toNat ∧
    (Idx.new debug a : Res ε (Idx w)).map (fun j => j.usize.toNat) = M.new debug a.toNat :=
  ⟨uadd_toNat debug M hw a b, new_toNat debug M hw hpos a⟩

end Idx

/-! ### The hypotheses are met -/

/-- A machine with words of 64 bits, and elements of 128 bytes. -/
def machine64 : Machine := ⟨64, 2 ^ 56 - 1, 2 ^ 56 - 1, 2 ^ 56 - 1, 2 ^ 56 - 1, 2 ^ 56 - 1, 2 ^ 60 - 1, 2 ^ 56 - 1, 2 ^ 56 - 1, 2 ^ 56 - 1⟩

/-- A machine with words of 16 bits and elements of 4096 bytes. -/
def machine16 : Machine := ⟨16, 7, 7, 7, 7, 7, 7, 7, 7, 7⟩

example : machine64.Valid := by constructor <;> decide

example : machine16.Valid := by constructor <;> decide

/-- With 64 bits there is room for every input of at most `2 ^ 27` vertices. -/
example (n : Nat) (hn : n ≤ 2 ^ 27) : n ≤ machine64.ns ∧ n ≤ machine64.us ∧ 2 * n + 1 ≤ machine64.ts ∧ n ^ 2 + 4 * n + 1 ≤ machine64.qs := by
  have : n ^ 2 ≤ (2 ^ 27) ^ 2 := Nat.pow_le_pow_left hn 2
  refine ⟨?_, ?_, ?_, ?_⟩ <;> simp only [machine64] <;> omega

attribute [local instance] exact

/-- A square needs more query nodes than the small machine can have: the trapezoidation panics there, and succeeds on the other one. -/
example : let sq : List (Coords ℚ) := [⟨0, 0⟩, ⟨4, 1⟩, ⟨3, 5⟩, ⟨-1, 4⟩]
    trapezoidizeW machine16 (Cfg.plain (fun _ _ => 1) false) 20 (PolyList.single sq) id = .error .panic ∧
    (trapezoidizeW machine64 (Cfg.plain (fun _ _ => 1) true) 20 (PolyList.single sq) id).isOk = true := by
  decide +kernel

/-- The same for the whole triangulation. -/
example : let sq : List (Coords ℚ) := [⟨0, 0⟩, ⟨4, 1⟩, ⟨3, 5⟩, ⟨-1, 4⟩]
    (triangulateW machine16 (Cfg.plain (fun _ _ => 1) false) 40 (PolyList.single sq) id (recorder Nat .clockwise)).2 = .error .panic ∧
    (triangulateW machine64 (Cfg.plain (fun _ _ => 1) true) 40 (PolyList.single sq) id (recorder Nat .clockwise)).2.isOk = true := by
  decide +kernel

/-- A square with a hole has enough room with 64 bits. -/
example (F : FanFormat (Nat × Nat)) : triangulateW machine64 (Cfg.plain (fun _ _ => 0) true) 1000 (PolyList.nested holed) id F =
    triangulate (Cfg.plain (fun _ _ => 0) true) 1000 (PolyList.nested holed) id F :=
  (C63_valid_input_enough_room machine64 (by constructor <;> decide) _ _ _ holed_describes holed_valid holed_ne _ (Cfg.plain_valid _ _) 1000 20
    (by decide +kernel) (by decide +kernel) (by decide) (by decide) (by decide) (by decide) (by decide) (by decide) (by decide) (by decide)
    (by decide) (by decide +kernel) (by decide) F).1

/-- A chain of three vertices. -/
example (u v w : Nat × Coords ℚ) : (u :: [v, w]).length + 3 ≤ 2 ^ machine64.bits := by simp [machine64]

/-- A `vertex_count` that is too large. -/
example : let p : PolyList Nat (Coords ℚ) := { PolyList.single [⟨0, 0⟩, ⟨4, 1⟩, ⟨3, 5⟩] with vertexCount := 2 ^ 62 }
    machine64.ns < p.vertexCount := by decide

end Tri
