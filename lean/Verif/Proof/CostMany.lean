import Verif.Proof.CostBuild
import Verif.Proof.CostErase

/-!
# Polygons below each other

A lower bound for the cost of trapezoidation when each polygon is below those before it: the search for a vertex of the
next polygon starts at the root and gets longer with every polygon.
-/

set_option linter.unusedSectionVars false

namespace Tri

section
variable {I V C : Type} [Scalar C] [DecidableEq I]

namespace St

theorem bind_ok' {ε α β : Type} {x : Res ε α} {f : α → Res ε β} {b : β} (h : (x >>= f) = .ok b) :
    ∃ a, x = .ok a ∧ f a = .ok b := by
  cases x with
  | error e => cases h
  | ok a => exact ⟨a, rfl, h⟩

/-- The count grows. -/
theorem polyStepC_le {cfg : Cfg} {fuel : Nat} {p : PolyList I V} {xy : V → Coords C} {l l' : PolyLoop I C × Nat} {si : Nat}
    (h : polyStepC cfg fuel p xy l si = .ok l') : l.2 ≤ l'.2 := by
  obtain ⟨l, n⟩ := l
  unfold polyStepC at h
  obtain ⟨⟨⟨st, vls, added⟩, k⟩, -, h⟩ := bind_ok' h
  obtain ⟨pending, -, h⟩ := bind_ok' h
  simp only at h
  split at h
  · obtain ⟨⟨vls, k'⟩, -, h⟩ := bind_ok' h
    cases h
    show n ≤ n + 1 + k + k'
    omega
  · cases h
    show n ≤ n + 1 + k
    omega

theorem polyLoopC_le {cfg : Cfg} {fuel : Nat} {p : PolyList I V} {xy : V → Coords C} (todo : List Nat) :
    ∀ {l l' : PolyLoop I C × Nat}, todo.foldlM (polyStepC cfg fuel p xy) l = .ok l' → l.2 ≤ l'.2 := by
  induction todo with
  | nil => intro l l' h; cases h; exact le_refl _
  | cons si todo ih =>
    intro l l' h
    rw [List.foldlM_cons] at h
    obtain ⟨l1, h1, h2⟩ := bind_ok' h
    exact (polyStepC_le h1).trans (ih h2)

theorem addVertexVLC_ge {cfg : Cfg} {fuel : Nat} {p : PolyList I V} {xy : V → Coords C} {st st' : St I C}
    {vls vls' : List (VLoc I C)} {vli ni q k : Nat} {vi : I} {c : Coords C}
    (h : addVertexVLC cfg fuel p xy st vls vli vi q = .ok ((st', vls', ni), k)) (hc : p.coords (ε := IErr) xy vi = .ok c) :
    ∃ r, findC st.qs c fuel q = .ok (r, k) := by
  unfold addVertexVLC at h
  obtain ⟨⟨⟨st1, ni1⟩, k1⟩, h1, h⟩ := bind_ok' h
  obtain ⟨vl, -, h⟩ := bind_ok' h
  cases h
  unfold addVertexC at h1
  obtain ⟨c', hc', h1⟩ := bind_ok' h1
  rw [hc] at hc'
  cases hc'
  obtain ⟨⟨⟨qp, ti⟩, k2⟩, h2, h1⟩ := bind_ok' h1
  obtain ⟨st2, -, h1⟩ := bind_ok' h1
  obtain ⟨st3, -, h1⟩ := bind_ok' h1
  cases h1
  exact ⟨_, h2⟩

end St
end

variable {I V K : Type} [Field K] [LinearOrder K] [IsStrictOrderedRing K] [DecidableEq I]

attribute [local instance] exact

variable {P : Plane K} {p : PolyList I V} {xy : V → Coords K}

/-- The first search for a vertex of a polygon starts at the root. -/
theorem addPolygonC_ge {cfg : Cfg} {fuel : Nat} {vs : List (I × Coords K)} (hctx : PolyCtx P p xy vs) {st st' : St I K}
    {j k c : Nat} (h : St.addPolygonC cfg fuel p xy j st (startLocs vs) = .ok (st', c))
    (hord : (cfg.order j vs.length).Perm (List.range vs.length))
    (hk : ∀ v ∈ vs, ∀ r k', St.findC st.qs v.2 fuel 0 = .ok (r, k') → k ≤ k') : k ≤ c := by
  have hl : (startLocs vs).length = vs.length := by simp [startLocs]
  have h3 := hctx.len
  unfold St.addPolygonC at h
  obtain ⟨⟨l, n⟩, h1, h⟩ := St.bind_ok' h
  cases h
  rw [hl] at h1
  obtain ⟨si, todo, ho⟩ : ∃ si todo, cfg.order j vs.length = si :: todo := by
    cases ho : cfg.order j vs.length with
    | nil => have := hord.length_eq; rw [ho] at this; simp at this; omega
    | cons si todo => exact ⟨_, _, rfl⟩
  have hsi : si < vs.length := by
    have := hord.mem_iff (a := si)
    rw [ho] at this; simpa using this
  rw [ho, List.foldlM_cons] at h1
  obtain ⟨⟨l1, n1⟩, h1, h2⟩ := St.bind_ok' h1
  refine le_trans ?_ (St.polyLoopC_le todo h2)
  show k ≤ n1
  unfold St.polyStepC at h1
  obtain ⟨⟨⟨st1, vls, added⟩, k1⟩, h3, h1⟩ := St.bind_ok' h1
  obtain ⟨pending, -, h1⟩ := St.bind_ok' h1
  have hn1 : k1 ≤ n1 := by
    simp only at h1
    split at h1
    · obtain ⟨⟨vls, k'⟩, -, h⟩ := St.bind_ok' h1
      cases h; omega
    · cases h1; omega
  refine le_trans ?_ hn1
  unfold St.addNthSegmentC at h3
  obtain ⟨⟨⟨st2, vls2, ni0, ni1, added2⟩, k2⟩, h4, h3⟩ := St.bind_ok' h3
  obtain ⟨n0, -, h3⟩ := St.bind_ok' h3
  obtain ⟨n1', -, h3⟩ := St.bind_ok' h3
  obtain ⟨⟨st5, k5⟩, -, h3⟩ := St.bind_ok' h3
  have hk2 : k2 ≤ k1 := by cases h3; omega
  refine le_trans ?_ hk2
  have hsj := hctx.lt si
  have e0 := List.getElem?_eq_getElem hsi
  have e1 := List.getElem?_eq_getElem hsj
  set v0 := vs[si]
  set v1 := vs[(si + 1) % vs.length]
  have g0 : (startLocs vs)[si]? = some (.pending v0.2 v0.1 0) := by simp [startLocs, e0]
  have g1 : (startLocs vs)[(si + 1) % vs.length]? = some (.pending v1.2 v1.1 0) := by
    rw [startLocs, List.getElem?_map, e1]; rfl
  unfold St.addEndsC at h4
  simp only [hl, getP, g0, g1, bind, Except.bind] at h4
  split at h4
  · split at h4
    · cases h4
    · rename_i r hr
      obtain ⟨⟨sa, va, na⟩, ka⟩ := r
      obtain ⟨r', hf⟩ := St.addVertexVLC_ge hr (hctx.src _ (mem_of_get e0))
      have := hk v0 (mem_of_get e0) _ _ hf
      simp only at h4
      split at h4
      · cases h4
      · cases h4; omega
  · split at h4
    · cases h4
    · rename_i r hr
      obtain ⟨⟨sa, va, na⟩, ka⟩ := r
      obtain ⟨r', hf⟩ := St.addVertexVLC_ge hr (hctx.src _ (mem_of_get e1))
      have := hk v1 (mem_of_get e1) _ _ hf
      simp only at h4
      split at h4
      · cases h4
      · cases h4; omega

/-- `w` is below all vertices. -/
def Low (P : Plane K) (A : Abs K) (w : Coords K) : Prop := ∀ n < A.N, P.h w < P.h (A.c n)

/-- The search for a point below everything gets longer when something is added below what was there. -/
theorem Gro.deeper {A A' : Abs K} {st st' : St I K} (hG : Glob P p xy A st (fun _ => False))
    (hG' : Glob P p xy A' st' (fun _ => False)) (h : Gro P A st A' st') {w : Coords K} (hw : P.U w) (hlow : Low P A' w)
    {n : Nat} (hn : n < A'.N) (hnlow : Low P A (A'.c n)) {k : Nat} (hk : Locs P A st.qs w 0 k) :
    ∃ k' > k, Locs P A' st'.qs w 0 k' := by
  have hfr : A'.Fresh w := fun m hm he => by have := hlow m hm; rw [he] at this; exact lt_irrefl _ this
  obtain ⟨q', t, h1, h2⟩ := hk
  obtain ⟨q'', t', k', h3, h4, h5, -, h7⟩ := h.trk w 0 hw hfr q' t k h1 h2
  refine ⟨k', ?_, _, _, h3, h4⟩
  obtain ⟨x, hx, -⟩ := hG'.qry.snk' q'' t' h3.finds.end_sink
  have ht' : t' < A'.M := by rw [← hG'.link.tsL]; exact lt_of_get hx
  have hI := hG'.inv
  have hdown : (A'.T t').down = none := by
    cases hd : (A'.T t').down with
    | none => rfl
    | some d => exact absurd (h4.down d hd) (not_lt.2 (hlow d (hI.downM t' ht' d hd).1).le)
  have hlat : ¬ (A'.T t').Lat := fun hl => (hI.bnd t' ht' hl).2 hdown
  rcases h7 with ⟨rfl, -, he⟩ | ⟨-, h7 | h7⟩
  · exfalso
    obtain ⟨y, hy, -⟩ := hG.qry.snk' q' t' h1.finds.end_sink
    have ht : t' < A.M := by rw [← hG.link.tsL]; exact lt_of_get hy
    refine hI.empty n hn t' ht' ⟨?_, ?_, ?_, ?_⟩
    · intro d hd; rw [hdown] at hd; cases hd
    · intro u hu
      rw [he] at hu
      have huN := (hG.inv.upM t' ht u hu).1
      rw [h.c u huN]
      exact hnlow u huN
    · intro l hl; exact absurd (.inl (by rw [hl]; simp)) hlat
    · intro l hl; exact absurd (.inr (by rw [hl]; simp)) hlat
  · exact h7
  · exact absurd h7 hlat

/-- All vertices of `g'` are below all vertices of `g`. -/
def Under (P : Plane K) (g g' : List (I × Coords K)) : Prop := ∀ v ∈ g, ∀ v' ∈ g', P.h v'.2 < P.h v.2

theorem AllIn.low {done : List (List (I × Coords K))} {A : Abs K} {st : St I K} (h : AllIn P p xy done A st)
    {w : Coords K} (hw : ∀ g ∈ done, ∀ v ∈ g, P.h w < P.h v.2) : Low P A w := by
  intro n hn
  obtain ⟨g, hg, v, hv, he⟩ := h.cs n hn
  rw [he]; exact hw g hg v hv

theorem AllIn.vertex {done : List (List (I × Coords K))} {A : Abs K} {st : St I K} (h : AllIn P p xy done A st)
    {g : List (I × Coords K)} (hg : g ∈ done) (hctx : PolyCtx P p xy g) {v : I × Coords K} (hv : v ∈ g) :
    ∃ n < A.N, A.c n = v.2 := by
  obtain ⟨j, hj, rfl⟩ := List.getElem_of_mem hv
  obtain ⟨i, hi, he⟩ := h.has g hg j _ ⟨_, _, List.getElem?_eq_getElem hj, List.getElem?_eq_getElem (hctx.lt j), rfl⟩
  have hst := h.glob.stateOf
  refine (hst.verts _).2 ⟨_, ⟨i, hi, rfl⟩, ?_⟩
  rw [he]; unfold edgeC
  split
  · exact .inl rfl
  · exact .inr rfl

theorem runPolysC_ge (order : Nat → Nat → List Nat) (mathN : Nat → Nat → Nat)
    (hord : ∀ k n, (order k n).Perm (List.range n)) (todo : List (List (I × Coords K))) :
    ∀ {done : List (List (I × Coords K))} {A : Abs K} {st : St I K}, AllIn P p xy done A st →
    (∀ w, P.U w → Low P A w → ∃ k > done.length, Locs P A st.qs w 0 k) →
    (∀ g ∈ todo, PolyCtx P p xy g ∧ ∀ v ∈ g, p.coords (ε := TrapErr) xy v.1 = .ok v.2) →
    (done ++ todo).Pairwise (Under P) → ∀ k : Nat,
    ∃ N A' st', (AllIn P p xy (done ++ todo) A' st' ∧ ∀ w, P.U w → Low P A' w → ∃ k > (done ++ todo).length, Locs P A' st'.qs w 0 k) ∧
      ∀ cfg : Cfg, cfg.order = order → cfg.mathN = mathN → ∀ fuel ≥ N, ∀ n, ∃ c,
        runElemsC cfg fuel p xy ((elemsOf (todo.map (List.map Prod.fst))).map some) (⟨st, [], k⟩, n) =
          .ok (⟨st', [], k + todo.length⟩, n + c) ∧
        todo.length * (2 * done.length + todo.length + 1) ≤ 2 * c := by
  induction todo with
  | nil =>
    intro done A st h hdeep _ _ k
    exact ⟨0, A, st, by simpa using ⟨h, hdeep⟩, fun _ _ _ _ _ n => ⟨0, rfl, by simp⟩⟩
  | cons g todo ih =>
    intro done A st h hdeep hctx hund k
    obtain ⟨hg, hsrc⟩ := hctx g (by simp)
    have hund' : ∀ g' ∈ done, Under P g' g := by
      intro g' hg'
      exact (List.pairwise_append.1 hund).2.2 g' hg' g (by simp)
    obtain ⟨N1, A1, st1, hr1, h1, hgro⟩ := h.step order mathN hord hg (by
      intro v hv g' hg' v' hv' he
      have := hund' g' hg' v' hv' v hv
      rw [he] at this; exact lt_irrefl _ this) k
    have hlow : ∀ v ∈ g, Low P A v.2 := fun v hv => h.low fun g' hg' v' hv' => hund' g' hg' v' hv' v hv
    have hdeep1 : ∀ w, P.U w → Low P A1 w → ∃ k > (done ++ [g]).length, Locs P A1 st1.qs w 0 k := by
      intro w hw hl
      obtain ⟨k, hk, hk'⟩ := hdeep w hw (fun n hn => by rw [← hgro.c n hn]; exact hl n (hn.trans_le hgro.N))
      obtain ⟨v, hv⟩ : ∃ v, v ∈ g := List.exists_mem_of_length_pos (by have := hg.len; omega)
      obtain ⟨n, hn, he⟩ := h1.vertex (List.mem_append_right _ (by simp)) hg hv
      obtain ⟨k', h2, h3⟩ := hgro.deeper h.glob h1.glob hw hl hn (by rw [he]; exact hlow v hv) hk'
      exact ⟨k', by simp; omega, h3⟩
    obtain ⟨N2, A2, st2, hall, hr2⟩ := ih h1 hdeep1 (fun g' hg' => hctx g' (by simp [hg'])) (by simpa using hund) (k + 1)
    -- the searches for the vertices end
    obtain ⟨N3, hN3⟩ : ∃ N, ∀ v ∈ g, ∀ fuel ≥ N, ∃ r, ∃ k > done.length, St.findC st.qs v.2 fuel 0 = .ok (r, k) := by
      clear hr1 hr2 hall hdeep1 h1 ih hund hund' hctx hsrc hgro
      have hU := hg.U
      clear hg
      induction g with
      | nil => exact ⟨0, by simp⟩
      | cons v g ih =>
        obtain ⟨N, hN⟩ := ih (fun v hv => hlow v (by simp [hv])) (fun v hv => hU v (by simp [hv]))
        obtain ⟨k, hk, q', t, hf, -⟩ := hdeep v.2 (hU v (by simp)) (hlow v (by simp))
        refine ⟨max N k, fun u hu fuel hfu => ?_⟩
        rcases List.mem_cons.1 hu with rfl | hu
        · exact ⟨_, k, hk, hf.findC fuel (le_trans (le_max_right _ _) hfu)⟩
        · exact hN u hu fuel (le_trans (le_max_left _ _) hfu)
    refine ⟨max N1 (max N2 N3), A2, st2, by simpa using hall, fun cfg ho hm fuel hf n => ?_⟩
    have f1 := le_trans (le_max_left _ _) hf
    have f23 := le_trans (le_max_right _ _) hf
    have f2 := le_trans (le_max_left _ _) f23
    have f3 := le_trans (le_max_right _ _) f23
    obtain ⟨c1, hc1⟩ : ∃ c1, St.addPolygonC cfg fuel p xy k st (startLocs g) = .ok (st1, c1) := by
      have h4 := hr1 cfg ho hm fuel f1
      rw [← St.addPolygonC_fst] at h4
      cases h5 : St.addPolygonC cfg fuel p xy k st (startLocs g) with
      | error e => rw [h5] at h4; cases h4
      | ok r => rw [h5] at h4; cases h4; exact ⟨r.2, rfl⟩
    have hge := addPolygonC_ge hg hc1 (by rw [ho]; exact hord _ _) (k := done.length + 1) (by
      intro v hv r k' hr
      obtain ⟨r', k'', h5, h6⟩ := hN3 v hv fuel f3
      rw [hr] at h6; cases h6; exact h5)
    obtain ⟨c2, h6, h7⟩ := hr2 cfg ho hm fuel f2 (n + c1)
    refine ⟨c1 + c2, ?_, ?_⟩
    · have hmap : (elemsOf ((g :: todo).map (List.map Prod.fst))).map some =
          ((g.map Prod.fst).map (fun i => some (.cont i)) ++ [some .newPolygon]) ++
            (elemsOf (todo.map (List.map Prod.fst))).map some := by
        simp [elemsOf, Function.comp_def]
      rw [hmap, runElemsC_append, runElemsC_poly cfg fuel hg.len hsrc st k n hc1]
      simp only [Except.bind]
      rw [h6]
      simp only [List.length_cons, Except.ok.injEq, Prod.mk.injEq, St.BuildLoop.mk.injEq, true_and]
      omega
    · simp only [List.length_cons, List.length_append, List.length_nil] at h7 ⊢
      nlinarith

/-- If every polygon is below those before it, the cost is at least quadratic in their number. -/
theorem trapezoidizeC_ge {gs : List (List (I × Coords K))} (hctx : PolysCtx P p xy gs) (hund : gs.Pairwise (Under P))
    (order : Nat → Nat → List Nat) (mathN : Nat → Nat → Nat) (hord : ∀ k n, (order k n).Perm (List.range n)) :
    ∃ N st, (∀ w, P.U w → (∀ g ∈ gs, ∀ v ∈ g, P.h w < P.h v.2) → ∃ k > gs.length, ∃ q t, FindsN st.qs w 0 q t k) ∧
      ∀ cfg : Cfg, cfg.order = order → cfg.mathN = mathN → ∀ fuel ≥ N, ∃ c,
        trapezoidizeC cfg fuel p xy = .ok (st, c) ∧ gs.length * (gs.length + 1) ≤ 2 * c := by
  obtain ⟨es, hes, hpoly⟩ := hctx.desc.elems
  have h0 : AllIn P p xy ([] : List (List (I × Coords K))) Abs.init (St.init : St I K) :=
    ⟨glob_init, fun i hi => absurd hi (Nat.not_lt_zero _), by simp, fun i hi => absurd hi (Nat.not_lt_zero _)⟩
  obtain ⟨N, A, st, ⟨hall, hdeep⟩, hr⟩ := runPolysC_ge order mathN hord gs h0
    (fun w _ _ => ⟨1, by simp, 0, 0, .sink rfl, by refine ⟨?_, ?_, ?_, ?_⟩ <;> intro d h <;> cases h⟩)
    (fun g hg => ⟨hctx.poly g hg, fun v hv => coords_of_get (hctx.desc.coords g hg v hv)⟩) (by simpa using hund) 0
  refine ⟨N, st, fun w hw hlow => ?_, fun cfg ho hm fuel hf => ?_⟩
  · obtain ⟨k, hk, q, t, h, -⟩ := hdeep w hw (hall.low (by simpa using hlow))
    exact ⟨k, by simpa using hk, q, t, h⟩
  obtain ⟨c, h1, h2⟩ := hr cfg ho hm fuel hf 0
  refine ⟨c, ?_, by simpa using h2⟩
  have h3 := runElemsC_polygons cfg fuel p xy es [] St.init 0 0
  rw [← polygonsOf.eq_1, hpoly, h1] at h3
  rw [trapezoidizeC_eq, hes]
  simp only [List.map_nil, List.nil_append] at h3
  rw [h3]; simp [Except.map]

end Tri
