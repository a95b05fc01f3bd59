import Verif.Proof.FarPoints
import Verif.Proof.RunBuild
import Verif.Proof.CostErase

/-!
# One polygon, side by side

The invariants of the loop of `add_polygon` together, for a first polygon.
-/

set_option linter.unusedSectionVars false

namespace Tri

variable {I V K : Type} [Field K] [LinearOrder K] [IsStrictOrderedRing K] [DecidableEq I]

attribute [local instance] exact

variable {P : Plane K} {p : PolyList I V} {xy : V → Coords K} {vs : List (I × Coords K)}

/-- What holds after the sides `done` of the first polygon. -/
structure Stage (P : Plane K) (p : PolyList I V) (xy : V → Coords K) (vs : List (I × Coords K)) (done : List Nat)
    (A : Abs K) (l : St.PolyLoop I K) : Prop where
  run : PolyRun P p xy vs (fun _ => False) Abs.init St.init done A l
  inv : PolyInv (fun _ => True) vs St.init done l
  tidy : Tidy vs.length l.st

/-- The loop before its first iteration. -/
def St.PolyLoop.start (mathN : Nat → Nat → Nat) (vs : List (I × Coords K)) : St.PolyLoop I K :=
  ⟨St.init, startLocs vs, vs.length, 0, 1, mathN vs.length 1⟩

theorem Stage.start (hctx : PolyCtx P p xy vs) (mathN : Nat → Nat → Nat) :
    Stage P p xy vs [] Abs.init (St.PolyLoop.start mathN vs) := by
  have hl : (startLocs vs).length = vs.length := by simp [startLocs]
  refine ⟨?_, ?_, .init _⟩
  · refine ⟨glob_init, .refl _ _, ⟨hl, ?_⟩, ?_, fun i hi => absurd hi (Nat.not_lt_zero _), by simp,
      fun n hn => absurd hn (Nat.not_lt_zero _)⟩
    · intro i v vl h1 h2
      simp only [St.PolyLoop.start, startLocs, List.getElem?_map, h1, Option.map_some, Option.some.injEq] at h2
      subst h2
      have hm := mem_of_get h1
      exact ⟨rfl, fun i hi => absurd hi (Nat.not_lt_zero _),
        (glob_init (p := p) (xy := xy)).root _ (hctx.U v hm) fun i hi => absurd hi (Nat.not_lt_zero _)⟩
    · show _ = (pend (startLocs vs)).length
      rw [pend_startLocs]; rfl
  · have h : WF (fun _ => True) (St.init : St I K) := .init
    refine ⟨h, ⟨hl, ?_⟩, List.prefix_refl _, ?_, by simp, ?_, ⟨[], by simp [St.PolyLoop.start], .nil⟩⟩
    · intro i v vl h1 h2
      simp only [St.PolyLoop.start, startLocs, List.getElem?_map, h1, Option.map_some, Option.some.injEq] at h2
      subst h2
      exact ⟨rfl, h.root⟩
    · show (St.init.keys ++ pend (startLocs vs)).Perm _
      rw [pend_startLocs]
    · show _ = (pend (startLocs vs)).length
      rw [pend_startLocs]; rfl

theorem Stage.step (hctx : PolyCtx P p xy vs) {done : List Nat} {A : Abs K} {l : St.PolyLoop I K}
    (h : Stage P p xy vs done A l) {si : Nat} (hsi : si < vs.length) (hnd : si ∉ done) (hlen : done.length < vs.length)
    (mathN : Nat → Nat → Nat) :
    ∃ N A' l', (∀ cfg : Cfg, cfg.mathN = mathN → ∀ fuel ≥ N, St.polyStep cfg fuel p xy l si = .ok l') ∧
      Stage P p xy vs (done ++ [si]) A' l' ∧ Keeps l.st.qs l'.st.qs ∧
      ∀ w, P.U w → A'.Fresh w → Moves P A l.st.qs A' l'.st.qs w := by
  obtain ⟨N, A', l', k, hr, hrun, v0, v1, ps, kf, kr, -, -, -, -, -, -, hmv, -⟩ :=
    polyStepC_run hctx (fun _ _ _ h => h) h.run hsi hnd mathN
  have hr' : ∀ cfg : Cfg, cfg.mathN = mathN → ∀ fuel ≥ N, St.polyStep cfg fuel p xy l si = .ok l' := by
    intro cfg hc fuel hf
    rw [← St.polyStepC_fst cfg fuel p xy l 0 si, hr cfg hc fuel hf 0]; rfl
  have hvs : ∀ v ∈ vs, Src (fun _ => True) p xy v := fun v hv => ⟨trivial, hctx.src v hv⟩
  have h2 : 2 ≤ vs.length := by have := hctx.len; omega
  let cfg : Cfg := ⟨fun _ n => List.range n, mathN, true⟩
  let fuel := max N (enough vs.length)
  have he := hr' cfg rfl fuel (le_max_left _ _)
  have i1 := polyStep_safe cfg fuel p xy hvs h2 h.inv si
  have i2 := polyStep_ranked (E := fun _ => True) (fun _ => trivial) cfg (fun _ => trivial)
    (N := vs.length) (fuel := fuel) (le_max_right _ _) p xy hvs h2 h.inv h.tidy (by simp [St.init]) (by simpa [St.init] using hlen) hsi
  have i3 := polyStep_keeps cfg (N := vs.length) (fuel := fuel) (le_max_right _ _) p xy hvs h2 h.inv h.tidy (by simp [St.init])
    (by simpa [St.init] using hlen) hsi
  rw [he] at i1 i2 i3
  exact ⟨N, A', l', hr', ⟨hrun, i1, i2⟩, i3, fun w hw hf q k hq => by
    obtain ⟨k', hk, -⟩ := (hmv w hw hf).2 q k hq
    exact ⟨k', hk⟩⟩

theorem Stage.done {done : List Nat} {A : Abs K} {l : St.PolyLoop I K} (h : Stage P p xy vs done A l) : Done P A :=
  h.run.glob.stateOf.done

theorem Stage.edge {done : List Nat} {A : Abs K} {l : St.PolyLoop I K} (h : Stage P p xy vs done A l) {i : Nat}
    (hi : i < A.S) : ∃ k ∈ done, SideIs vs k (A.sg i) := (h.run.segs i hi).resolve_left id

theorem Stage.vert {done : List Nat} {A : Abs K} {l : St.PolyLoop I K} (h : Stage P p xy vs done A l) {v : Coords K} :
    Verts A v ↔ ∃ k ∈ done, ∃ e, SideIs vs k e ∧ (v = e.1 ∨ v = e.2) := by
  rw [h.run.glob.stateOf.verts]
  constructor
  · rintro ⟨e, ⟨i, hi, rfl⟩, hv⟩
    obtain ⟨k, hk, hs⟩ := h.edge hi
    exact ⟨k, hk, _, hs, hv⟩
  · rintro ⟨k, hk, e, hs, hv⟩
    exact ⟨e, h.run.has k hk e hs, hv⟩

theorem Stage.fresh {done : List Nat} {A : Abs K} {l : St.PolyLoop I K} (h : Stage P p xy vs done A l) {g : Coords K}
    (hg : ∀ v ∈ vs, v.2 ≠ g) : A.Fresh g := by
  intro n hn e
  rcases h.run.cs n hn with h1 | ⟨v, hv, h1⟩
  · exact absurd h1 (Nat.not_lt_zero _)
  · exact hg v hv (h1.symm.trans e)

theorem Finds.findsN {qs : List (QueryNode K)} {v : Coords K} {q q' t : Nat} (h : Finds qs v q q' t) :
    ∃ k, FindsN qs v q q' t k := by
  induction h with
  | sink h => exact ⟨1, .sink h⟩
  | branch h _ ih =>
    obtain ⟨k, hk⟩ := ih
    exact ⟨k + 1, .branch h hk⟩

/-- A point that is no vertex has at least one way. -/
theorem Stage.has_one {done : List Nat} {A : Abs K} {l : St.PolyLoop I K} (h : Stage P p xy vs done A l) {g : Coords K}
    (hU : P.U g) (hg : ∀ v ∈ vs, v.2 ≠ g) : Has P A l.st.qs g 1 := by
  obtain ⟨q, t, h1, h2⟩ := h.run.glob.root g hU (h.fresh hg)
  obtain ⟨k, hk⟩ := h1.findsN
  obtain ⟨x, hx, -⟩ := h.run.glob.qry.snk' q t h1.end_sink
  exact ⟨t, q, k, by rw [← h.run.glob.link.tsL]; exact lt_of_get hx, h2, h1.end_sink, hk.ways⟩

/-- Going on with a side keeps the ways. -/
theorem Stage.grow {done' : List Nat} {A A' : Abs K} {l l' : St.PolyLoop I K}
    (h' : Stage P p xy vs done' A' l') (hk : Keeps l.st.qs l'.st.qs)
    (hm : ∀ w, P.U w → A'.Fresh w → Moves P A l.st.qs A' l'.st.qs w) {g : Coords K} (hU : P.U g)
    (hg : ∀ v ∈ vs, v.2 ≠ g) {m : Nat} (hh : Has P A l.st.qs g m) : Has P A' l'.st.qs g m :=
  Has.grow h'.run.glob.qry h'.run.glob.link.tsL hk hh (hm g hU (h'.fresh hg))

end Tri
