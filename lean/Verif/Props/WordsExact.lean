import Verif.Proof.Sizes
import Verif.Proof.WordsExact
import Verif.Props.DebugCost

/-!
# C63: the inputs that a machine can process
-/

set_option linter.unusedSectionVars false

namespace Tri

open Machine St

variable {I V C : Type}

theorem new_iff {ε : Type} {M : Machine} (hM : M.Valid) (debug : Bool) (n : Nat) (st : St I C) :
    (newW M debug n : Res ε (St I C)) = .ok st ↔ st = St.init ∧ 0 < M.qs ∧ n ≤ M.ns ∧ n ≤ M.ss ∧ n ≤ M.vls ∧ 2 * n + 1 ≤ M.ts ∧
      4 * n % 2 ^ M.bits ≤ M.qs ∧ (debug = true → 4 * n < 2 ^ M.bits) := by
  have hb := hM.big
  have h2 : 2 ^ M.bits = 2 ^ (M.bits - 1) + 2 ^ (M.bits - 1) := by
    have hb : M.bits = M.bits - 1 + 1 := by have := hM.bits; omega
    calc 2 ^ M.bits = 2 ^ (M.bits - 1 + 1) := by rw [← hb]
      _ = _ := by rw [pow_succ]; omega
  have hns := hM.room M.ns (by simp)
  have cap : ∀ {room n : Nat} {u : Unit}, (Machine.capacity room n : Res ε Unit) = .ok u ↔ n ≤ room := by
    intro room n u
    unfold Machine.capacity
    split <;> simp_all
  have psh : ∀ {α : Type} {room : Nat} {xs ys : List α} {x : α}, (Machine.push room xs x : Res ε (List α)) = .ok ys ↔
      xs.length < room ∧ ys = xs ++ [x] := by
    intro α room xs ys x
    unfold Machine.push
    split <;> simp_all [eq_comm]
  have nw : (M.new debug 0 : Res ε Nat) = .ok 0 := new_ok (by omega)
  constructor
  · intro h
    unfold newW at h
    obtain ⟨q, hq, h⟩ := ok_of_bind h
    obtain ⟨_, h1, h⟩ := ok_of_bind h
    obtain ⟨ti, hti, h⟩ := ok_of_bind h
    obtain ⟨qi, hqi, h⟩ := ok_of_bind h
    rw [nw] at hti hqi
    cases hti
    cases hqi
    obtain ⟨qs, h3, h⟩ := ok_of_bind h
    obtain ⟨t, ht, h⟩ := ok_of_bind h
    obtain ⟨t', ht', h⟩ := ok_of_bind h
    obtain ⟨_, h4, h⟩ := ok_of_bind h
    obtain ⟨ts, h5, h⟩ := ok_of_bind h
    obtain ⟨_, h6, h⟩ := ok_of_bind h
    obtain ⟨_, h7, h⟩ := ok_of_bind h
    obtain ⟨_, h8, h⟩ := ok_of_bind h
    cases h
    rw [cap] at h1 h4 h6 h7 h8
    rw [psh] at h3 h5
    have e1 : t = n * 2 := by
      rw [mul_ok (by omega)] at ht
      cases ht; rfl
    subst e1
    rw [add_ok (by omega)] at ht'
    cases ht'
    refine ⟨?_, by simpa using h3.1, h6, h7, h8, by omega, ?_, ?_⟩
    · rw [h3.2, h5.2]; rfl
    · unfold Machine.mul at hq
      split at hq
      · cases hq
        rw [Nat.mul_comm, Nat.mod_eq_of_lt (by assumption)]
        exact h1
      · split at hq <;> cases hq
        rw [Nat.mul_comm]
        exact h1
    · intro hd
      unfold Machine.mul at hq
      split at hq
      · omega
      · cases hq
  · rintro ⟨rfl, hq, h1, h2', h3, h4, h5, h6⟩
    have hc : ∀ {room n : Nat}, n ≤ room → (Machine.capacity room n : Res ε Unit) = .ok () := fun h => if_pos h
    have hm : (M.mul debug n 4 : Res ε Nat) = .ok (4 * n % 2 ^ M.bits) := by
      unfold Machine.mul
      rw [Nat.mul_comm n 4]
      split
      · rw [Nat.mod_eq_of_lt (by assumption)]
      · rw [if_neg fun hd => by have := h6 hd; omega]
    unfold newW
    rw [hm, mul_ok (show n * 2 < 2 ^ M.bits by omega)]
    simp only [bind, Except.bind, hc h5, hc h1, hc h2', hc h3, nw,
      add_ok (M := M) (a := n * 2) (b := 1) (by omega), hc (show n * 2 + 1 ≤ M.ts by omega)]
    simp [Machine.push, hq, show 0 < M.ts by omega, St.init]

theorem exists_longer (cur : List I) (es : List (Elem I)) (h : cur ≠ []) : ∃ g ∈ polygonsFrom cur es, cur.length ≤ g.length := by
  induction es generalizing cur with
  | nil => exact ⟨cur, by simp [polygonsFrom, h], Nat.le_refl _⟩
  | cons e es ih =>
    cases e with
    | cont i =>
      obtain ⟨g, hg, hl⟩ := ih (cur ++ [i]) (by simp)
      exact ⟨g, hg, by simp only [List.length_append] at hl; omega⟩
    | newPolygon => exact ⟨cur, by simp [polygonsFrom, h], Nat.le_refl _⟩

theorem polysFit_iff (M : Machine) (cur : List I) (es : List (Elem I)) (h : cur.length ≤ M.vls) :
    PolysFit M cur.length (es.map some ++ [some .newPolygon]) ↔ ∀ g ∈ polygonsFrom cur es, g.length ≤ M.vls ∧ g.length ≤ M.us := by
  induction es generalizing cur with
  | nil =>
    by_cases hc : cur = []
    · subst hc
      simp [PolysFit, polygonsFrom]
    · simp [PolysFit, polygonsFrom, hc, h]
  | cons e es ih =>
    cases e with
    | cont i =>
      simp only [List.map_cons, List.cons_append, PolysFit, polygonsFrom]
      constructor
      · rintro ⟨h1, h2⟩
        exact (ih (cur ++ [i]) (by simp only [List.length_append, List.length_singleton]; omega)).1 (by simpa using h2)
      · intro hg
        obtain ⟨g, hm, hl⟩ := exists_longer (cur ++ [i]) es (by simp)
        have := (hg g hm).1
        simp only [List.length_append, List.length_singleton] at hl
        exact ⟨by omega, by simpa using (ih (cur ++ [i]) (by simp only [List.length_append, List.length_singleton]; omega)).2 hg⟩
    | newPolygon =>
      have := ih [] (Nat.zero_le _)
      simp only [List.length_nil] at this
      simp only [List.map_cons, List.cons_append, PolysFit, polygonsFrom, this]
      by_cases hc : cur = []
      · subst hc
        simp
      · simp [hc, h]

variable [Scalar C] [DecidableEq I]

theorem build_polysFit {M : Machine} {cfg : Cfg} {fuel : Nat} {p : PolyList I V} {xy : V → Coords C} (es : List (Option (Elem I)))
    (l l' : BuildLoop I C) (h : es.foldlM (St.buildStepW M cfg fuel p xy) l = .ok l') : PolysFit M l.vLookup.length es := by
  induction es generalizing l with
  | nil => trivial
  | cons e es ih =>
    rw [List.foldlM_cons] at h
    obtain ⟨l1, h1, h⟩ := ok_of_bind h
    have := ih l1 h
    rcases e with _ | ⟨i⟩ | _
    · trivial
    · obtain ⟨c, -, h1⟩ := ok_of_bind h1
      obtain ⟨r, -, h1⟩ := ok_of_bind h1
      obtain ⟨vl, h2, h1⟩ := ok_of_bind h1
      cases h1
      unfold Machine.push at h2
      split at h2
      · cases h2
        exact ⟨by assumption, by simpa using this⟩
      · cases h2
    · simp only [buildStepW] at h1
      split at h1
      · split at h1
        · cases h1
        · obtain ⟨st, hst, h1⟩ := ok_of_bind h1
          cases h1
          refine ⟨?_, this⟩
          rcases hr : addPolygonW M cfg fuel p xy l.k l.st l.vLookup with e | s
          · rw [hr] at hst; cases e <;> cases hst
          · unfold addPolygonW at hr
            obtain ⟨_, hc, -⟩ := ok_of_bind hr
            unfold Machine.capacity at hc
            split at hc
            · assumption
            · cases hc
      · rename_i h0
        cases h1
        have h0 : l.vLookup.length = 0 := by omega
        rw [h0] at this ⊢
        exact ⟨Nat.zero_le _, this⟩

/-- **C63.**  A trapezoidation succeeds on a machine exactly if it succeeds with unbounded numbers and vectors, the machine has room for all vectors of the
result, for the vertices of each polygon and for what `vertex_count` asks for, and, in a debug build, for the number of visits of the consistency check of the
result.  Nothing on the way needs more than the result. -/
theorem C63_succeeds_exactly_if (M : Machine) (hM : M.Valid) (cfg : Cfg) (hcfg : cfg.Valid) (fuel : Nat) (p : PolyList I V)
    (xy : V → Coords C) (hf : 2 * p.elems.length + 3 ≤ fuel) (st : St I C) :
    trapezoidizeW M cfg fuel p xy = .ok st ↔
      trapezoidize cfg fuel p xy = .ok st ∧
      (st.ns.length ≤ M.ns ∧ st.ss.length ≤ M.ss ∧ st.ts.length ≤ M.ts ∧ st.qs.length ≤ M.qs) ∧
      (∀ es : List (Elem I), p.elems = es.map some → ∀ g ∈ polygonsOf es, g.length ≤ M.vls ∧ g.length ≤ M.us) ∧
      (p.vertexCount ≤ M.ns ∧ p.vertexCount ≤ M.ss ∧ p.vertexCount ≤ M.vls ∧ 2 * p.vertexCount + 1 ≤ M.ts ∧
        4 * p.vertexCount % 2 ^ M.bits ≤ M.qs ∧ (cfg.debug = true → 4 * p.vertexCount < 2 ^ M.bits)) ∧
      (cfg.debug = true → ∀ m, st.checkQueryC fuel 0 = .ok m → m < 2 ^ M.bits) := by
  constructor
  · intro h
    have h1 : trapezoidize cfg fuel p xy = .ok st ∧ InRoom M st := by
      rcases trapezoidize_near hM cfg hcfg fuel p xy with h' | ⟨h', hr⟩
      · rw [h] at h'; cases h'
      · exact ⟨h'.symm.trans h, hr st h⟩
    refine ⟨h1.1, ⟨h1.2.ns, h1.2.ss, h1.2.ts, h1.2.qs⟩, ?_, ?_, ?_⟩
    · intro es hes
      unfold trapezoidizeW at h
      obtain ⟨st0, -, h⟩ := ok_of_bind h
      obtain ⟨l, hl, -⟩ := ok_of_bind h
      rw [hes] at hl
      exact (polysFit_iff M [] es (Nat.zero_le _)).1 (build_polysFit _ _ _ hl)
    · unfold trapezoidizeW at h
      obtain ⟨st0, hst0, h⟩ := ok_of_bind h
      exact ((new_iff hM _ _ _).1 hst0).2.2
    · intro hd m hm
      have hb := hM.big
      rcases (trapezoidizeW_checked hM cfg fuel p xy).ok_of h with h' | h'
      · subst h'
        have := checkQueryC_visits hm
        obtain ⟨f, rfl⟩ : ∃ f, fuel = f + 1 := ⟨fuel - 1, by omega⟩
        simp only [visits, St.init] at this
        simp at this
        omega
      · unfold debugCheckW at h'
        rw [if_pos hd] at h'
        obtain ⟨_, -, h'⟩ := ok_of_bind h'
        obtain ⟨_, -, h'⟩ := ok_of_bind h'
        obtain ⟨k, hk, -⟩ := ok_of_bind h'
        rw [hd] at hk
        obtain ⟨hk1, hk2⟩ := checkQueryW_count hk
        rw [hm] at hk1
        cases hk1
        exact hk2
  · rintro ⟨h, ⟨hns, hss, hts, hqs⟩, hg, hv, hd⟩
    have hvis : cfg.debug = true → ∀ f, visits st.qs f 0 < 2 ^ M.bits := by
      intro hdb f
      obtain ⟨m, -, hm⟩ := C64_visits_at_most cfg hcfg p xy fuel _ st (Nat.le_refl _) hf h
      have h1 := checkQueryC_visits (hm (max f fuel) (by omega))
      have h2 := visits_mono st.qs (Nat.le_max_left f fuel) 0
      have h3 := hd hdb m (hm fuel (by omega))
      omega
    have hfine : Fine M cfg st := ⟨⟨hns, hss, hts, hqs⟩, hvis⟩
    have hq : 0 < M.qs := by
      have hr := trapezoidize_ranked cfg hcfg (fuel := fuel) p xy (by have := conts_le p.elems; unfold enough; omega)
      have := (hr.ok_of h).1.root
      omega
    have hnew : (newW M cfg.debug p.vertexCount : Res TrapErr (St I C)) = .ok St.init :=
      (new_iff hM _ _ _).2 ⟨rfl, hq, hv⟩
    obtain ⟨es, -, hes, -⟩ := trapezoidize_post (A := fun _ => True) hcfg h fun _ _ _ _ => trivial
    unfold trapezoidizeW
    rw [hnew]
    unfold trapezoidize build at h
    obtain ⟨l, hl, h⟩ := ok_of_bind h
    cases h
    have hfit := (build_fit hM cfg hcfg p xy (by have := conts_le p.elems; unfold enough; omega) (p.elems ++ [some Elem.newPolygon]) ⟨St.init, [], 0⟩ ?_
      (Nat.zero_le _) ?_).1 l hl hfine
    · show ((p.elems ++ [some Elem.newPolygon]).foldlM (St.buildStepW M cfg fuel p xy) ⟨St.init, [], 0⟩ >>= _) = _
      rw [hfit]
      rfl
    · refine ⟨⟨WF.init, [], rfl, by simp⟩, Tidy.init _, ?_, ?_, ?_⟩
      · simp [St.init, conts]
      · simp [St.init, conts]
      · intro e he
        rcases List.mem_append.1 he with h | h
        · exact .inr h
        · exact .inl (List.mem_singleton.1 h)
    · rw [hes]
      exact (polysFit_iff M [] es (Nat.zero_le _)).2 (hg es hes)

attribute [local instance] exact

/-- A square has four nexuses, four segments, nine trapezoids and as many query nodes as the machine needs room for; with one less it panics. -/
example : let sq : List (Coords ℚ) := [⟨0, 0⟩, ⟨4, 1⟩, ⟨3, 5⟩, ⟨-1, 4⟩]
    let run := fun M => trapezoidizeW M (Cfg.plain (fun _ _ => 1) true) 20 (PolyList.single sq) id
    (match trapezoidize (Cfg.plain (fun _ _ => 1) true) 20 (PolyList.single sq) id with
      | .ok st => decide (st.ns.length = 4 ∧ st.ss.length = 4 ∧ st.ts.length = 9 ∧ st.qs.length = 18)
      | .error _ => false) = true ∧
    (run ⟨16, 4, 4, 9, 18, 4, 4, 0, 0, 0⟩).isOk = true ∧ run ⟨16, 3, 4, 9, 18, 4, 4, 0, 0, 0⟩ = .error .panic ∧
    run ⟨16, 4, 3, 9, 18, 4, 4, 0, 0, 0⟩ = .error .panic ∧ run ⟨16, 4, 4, 8, 18, 4, 4, 0, 0, 0⟩ = .error .panic ∧
    run ⟨16, 4, 4, 9, 17, 4, 4, 0, 0, 0⟩ = .error .panic ∧ run ⟨16, 4, 4, 9, 18, 3, 4, 0, 0, 0⟩ = .error .panic ∧
    run ⟨16, 4, 4, 9, 18, 4, 3, 0, 0, 0⟩ = .error .panic := by
  decide +kernel

/-- These machines are valid. -/
example : Machine.Valid ⟨16, 4, 4, 9, 18, 4, 4, 0, 0, 0⟩ := by constructor <;> decide

end Tri
