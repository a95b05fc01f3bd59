import Verif.Proof.RunPoly
import Verif.Spec.Polygon

/-!
# The whole trapezoidation
-/

set_option linter.unusedSectionVars false

namespace Tri

variable {I V K : Type} [Field K] [LinearOrder K] [IsStrictOrderedRing K] [DecidableEq I]

attribute [local instance] exact

variable {P : Plane K} {p : PolyList I V} {xy : V → Coords K}

/-- The vertices of one polygon are read. -/
theorem runElems_read (cfg : Cfg) (fuel : Nat) {g : List (I × Coords K)}
    (hg : ∀ v ∈ g, p.coords (ε := TrapErr) xy v.1 = .ok v.2) (l : St.BuildLoop I K) :
    runElems cfg fuel p xy ((g.map Prod.fst).map fun i => some (.cont i)) l =
      .ok { l with vLookup := l.vLookup ++ startLocs g } := by
  induction g generalizing l with
  | nil => simp [runElems, startLocs]; rfl
  | cons v g ih =>
    simp only [List.map_cons, runElems_cons]
    have hs : St.buildStep cfg fuel p xy l (some (.cont v.1)) =
        .ok { l with vLookup := l.vLookup ++ [.pending v.2 v.1 0] } := by
      simp only [St.buildStep, hg v (by simp), bind, Except.bind]
    rw [hs]
    simp only [Except.bind]
    rw [ih (fun w hw => hg w (by simp [hw]))]
    simp [startLocs]

/-- The state after the polygons `gs`. -/
structure AllIn (P : Plane K) (p : PolyList I V) (xy : V → Coords K) (gs : List (List (I × Coords K))) (A : Abs K)
    (st : St I K) : Prop where
  glob : Glob P p xy A st (fun _ => False)
  segs : ∀ i < A.S, ∃ g ∈ gs, ∃ k, SideIs g k (A.sg i)
  has : ∀ g ∈ gs, ∀ k e, SideIs g k e → ∃ i < A.S, A.sg i = e
  cs : ∀ n < A.N, ∃ g ∈ gs, ∃ v ∈ g, A.c n = v.2

theorem glob_init : Glob P p xy Abs.init (St.init : St I K) (fun _ => False) where
  inv := inv_init P
  link := by
    refine ⟨rfl, rfl, rfl, ?_, ?_, ?_, ?_, ?_, ?_⟩
    · intro n nx h; simp [St.init] at h
    · intro n nx h; simp [St.init] at h
    · intro n nx h; simp [St.init] at h
    · intro i t h
      have hi : i = 0 := by
        have := lt_of_get h
        simp [St.init] at this; exact this
      subst hi
      simp only [St.init, List.getElem?_cons_zero, Option.some.injEq] at h
      subst h; rfl
    · intro n m nx my h; simp [St.init] at h
    · intro i hi; exact absurd hi (Nat.not_lt_zero _)
  qry := by
    refine ⟨?_, ?_, .sink (t := 0) rfl, 0, .sink rfl, rfl⟩
    · intro i t h
      have hi : i = 0 := by
        have := lt_of_get h
        simp [St.init] at this; exact this
      subst hi
      simp only [St.init, List.getElem?_cons_zero, Option.some.injEq] at h
      subst h; rfl
    · intro q i h
      have hi : q = 0 := by
        have := lt_of_get h
        simp [St.init] at this; exact this
      subst hi
      simp only [St.init, List.getElem?_cons_zero, Option.some.injEq, QueryNode.sink.injEq] at h
      subst h
      exact ⟨Trapezoid.all 0, rfl, rfl⟩
  root w _ _ := ⟨0, 0, .sink rfl, by
    refine ⟨?_, ?_, ?_, ?_⟩ <;> intro d h <;> cases h⟩
  src k hk := by simp [St.keys, St.init] at hk

/-- The ends of a side are vertices of the polygon. -/
theorem SideIs.ends {g : List (I × Coords K)} {k : Nat} {e : Coords K × Coords K} (h : SideIs g k e) :
    (∃ v ∈ g, e.1 = v.2) ∧ ∃ v ∈ g, e.2 = v.2 := by
  obtain ⟨a, b, h1, h2, rfl⟩ := h
  unfold edgeC
  split
  · exact ⟨⟨a, mem_of_get h1, rfl⟩, b, mem_of_get h2, rfl⟩
  · exact ⟨⟨b, mem_of_get h2, rfl⟩, a, mem_of_get h1, rfl⟩

/-- One more polygon. -/
theorem AllIn.step (order : Nat → Nat → List Nat) (mathN : Nat → Nat → Nat)
    (hord : ∀ k n, (order k n).Perm (List.range n)) {done : List (List (I × Coords K))} {A : Abs K} {st : St I K}
    (h : AllIn P p xy done A st) {g : List (I × Coords K)} (hg : PolyCtx P p xy g)
    (hdis : ∀ v ∈ g, ∀ g' ∈ done, ∀ v' ∈ g', v.2 ≠ v'.2) (k : Nat) :
    ∃ N A' st', (∀ cfg : Cfg, cfg.order = order → cfg.mathN = mathN → ∀ fuel ≥ N,
        St.addPolygon cfg fuel p xy k st (startLocs g) = .ok st') ∧
      AllIn P p xy (done ++ [g]) A' st' ∧ Gro P A st A' st' := by
  obtain ⟨N1, A1, st1, hr1, hG1, hgr1, hsegs1, hhas1, hcs1⟩ := addPolygon_run hg
    (Old := fun e => ∃ g' ∈ done, ∃ k, SideIs g' k e) (by
      rintro j e he ⟨g', hg', j', he'⟩
      obtain ⟨v, hv, h1⟩ := he.ends.1
      obtain ⟨v', hv', h1'⟩ := he'.ends.1
      exact hdis v hv g' hg' v' hv' (h1.symm.trans h1')) h.glob (by
      intro v hv n hn he
      obtain ⟨g', hg', v', hv', h1⟩ := h.cs n hn
      exact hdis v hv g' hg' v' hv' (he.symm.trans h1)) h.segs k order mathN (hord _ _)
  refine ⟨N1, A1, st1, hr1, ⟨hG1, ?_, ?_, ?_⟩, hgr1⟩
  · intro i hi
    rcases hsegs1 i hi with ⟨g', hg', j, h'⟩ | ⟨j, h'⟩
    · exact ⟨g', by simp [hg'], j, h'⟩
    · exact ⟨g, by simp, j, h'⟩
  · intro g' hg' j e he
    rcases List.mem_append.1 hg' with hg' | hg'
    · obtain ⟨i, hi, h'⟩ := h.has g' hg' j e he
      exact ⟨i, hi.trans_le hgr1.S, by rw [hgr1.sg i hi, h']⟩
    · rw [List.mem_singleton] at hg'
      subst hg'
      exact hhas1 j e he
  · intro n hn
    rcases hcs1 n hn with h' | ⟨v, hv, h'⟩
    · obtain ⟨g', hg', v', hv', h2⟩ := h.cs n h'
      exact ⟨g', by simp [hg'], v', hv', by rw [hgr1.c n h', h2]⟩
    · exact ⟨g, by simp, v, hv, h'⟩

theorem runPolys_run (order : Nat → Nat → List Nat) (mathN : Nat → Nat → Nat)
    (hord : ∀ k n, (order k n).Perm (List.range n)) (todo : List (List (I × Coords K))) :
    ∀ {done : List (List (I × Coords K))} {A : Abs K} {st : St I K}, AllIn P p xy done A st →
    (∀ g ∈ todo, PolyCtx P p xy g ∧ ∀ v ∈ g, p.coords (ε := TrapErr) xy v.1 = .ok v.2) →
    ((done ++ todo).flatten.map (·.2)).Nodup → ∀ k : Nat,
    ∃ N A' st', (∀ cfg : Cfg, cfg.order = order → cfg.mathN = mathN → ∀ fuel ≥ N,
        runElems cfg fuel p xy ((elemsOf (todo.map (List.map Prod.fst))).map some) ⟨st, [], k⟩ = .ok ⟨st', [], k + todo.length⟩) ∧
      AllIn P p xy (done ++ todo) A' st' := by
  induction todo with
  | nil =>
    intro done A st h _ _ k
    exact ⟨0, A, st, fun _ _ _ _ _ => rfl, by rw [List.append_nil]; exact h⟩
  | cons g todo ih =>
    intro done A st h hctx hnd k
    obtain ⟨hg, hsrc⟩ := hctx g (by simp)
    have hdis : ∀ v ∈ g, ∀ g' ∈ done, ∀ v' ∈ g', v.2 ≠ v'.2 := by
      intro v hv g' hg' v' hv' he
      rw [List.flatten_append, List.map_append, List.nodup_append] at hnd
      exact hnd.2.2 v'.2 (List.mem_map.2 ⟨v', List.mem_flatten.2 ⟨g', hg', hv'⟩, rfl⟩) v.2
        (List.mem_map.2 ⟨v, List.mem_flatten.2 ⟨g, by simp, hv⟩, rfl⟩) he.symm
    obtain ⟨N1, A1, st1, hr1, h1, -⟩ := h.step order mathN hord hg hdis k
    obtain ⟨N2, A2, st2, hr2, h2⟩ := ih h1 (fun g' hg' => hctx g' (by simp [hg'])) (by simpa using hnd) (k + 1)
    refine ⟨max N1 N2, A2, st2, fun cfg ho hm fuel hf => ?_, by simpa using h2⟩
    have hmap : (elemsOf ((g :: todo).map (List.map Prod.fst))).map some =
        ((g.map Prod.fst).map (fun i => some (.cont i)) ++ [some .newPolygon]) ++
          (elemsOf (todo.map (List.map Prod.fst))).map some := by
      simp [elemsOf, Function.comp_def]
    rw [hmap, runElems_append, runElems_append, runElems_read cfg fuel hsrc]
    have hlen : (startLocs g).length = g.length := by simp [startLocs]
    have h3 := hg.len
    have hstep : St.buildStep cfg fuel p xy ⟨st, [] ++ startLocs g, k⟩ (some .newPolygon) = .ok ⟨st1, [], k + 1⟩ := by
      have := hr1 cfg ho hm fuel (le_trans (le_max_left _ _) hf)
      simp only [St.buildStep, List.nil_append, hlen, show g.length > 0 by omega, if_true,
        show ¬ g.length < 3 by omega, if_false, this, Res.mapErr, bind, Except.bind]
    simp only [Except.bind, runElems_cons, hstep]
    have := hr2 cfg ho hm fuel (le_trans (le_max_right _ _) hf)
    rw [show k + 1 + todo.length = k + (g :: todo).length by simp; omega] at this
    exact this

/-- What is known about the whole input. -/
structure PolysCtx (P : Plane K) (p : PolyList I V) (xy : V → Coords K) (gs : List (List (I × Coords K))) : Prop where
  desc : Describes p xy gs
  poly : ∀ g ∈ gs, PolyCtx P p xy g
  distinct : (gs.flatten.map (·.2)).Nodup

theorem coords_of_get {ε : Type} {i : I} {c : Coords K} (h : (p.getVertex i).map xy = some c) :
    p.coords (ε := ε) xy i = .ok c := by
  unfold PolyList.coords
  cases hv : p.getVertex i with
  | none => rw [hv] at h; cases h
  | some v => rw [hv] at h; cases h; rfl

/-- The trapezoidation of a valid input succeeds, with or without the debug checks. -/
theorem trapezoidize_run {gs : List (List (I × Coords K))} (hctx : PolysCtx P p xy gs)
    (order : Nat → Nat → List Nat) (mathN : Nat → Nat → Nat) (hord : ∀ k n, (order k n).Perm (List.range n)) :
    ∃ N A st, (∀ cfg : Cfg, cfg.order = order → cfg.mathN = mathN → ∀ fuel ≥ N,
        trapezoidize cfg fuel p xy = .ok st) ∧ AllIn P p xy gs A st := by
  obtain ⟨es, hes, hpoly⟩ := hctx.desc.elems
  have h0 : AllIn P p xy ([] : List (List (I × Coords K))) Abs.init (St.init : St I K) :=
    ⟨glob_init, fun i hi => absurd hi (Nat.not_lt_zero _), by simp, fun i hi => absurd hi (Nat.not_lt_zero _)⟩
  obtain ⟨N, A, st, hr, h⟩ := runPolys_run order mathN hord gs h0
    (fun g hg => ⟨hctx.poly g hg, fun v hv => coords_of_get (hctx.desc.coords g hg v hv)⟩) (by simpa using hctx.distinct) 0
  refine ⟨N, A, st, fun cfg ho hm fuel hf => ?_, by simpa using h⟩
  have h1 := runElems_polygons cfg fuel p xy es [] St.init 0
  rw [← polygonsOf.eq_1, hpoly, hr cfg ho hm fuel hf] at h1
  rw [trapezoidize_eq, hes]
  simp only [List.map_nil, List.nil_append] at h1
  rw [h1]; rfl

end Tri
