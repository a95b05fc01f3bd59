import Verif.Proof.CanonRun
import Verif.Proof.Rearrange
import Verif.Proof.Placed
import Verif.Spec.Relate

/-!
# Two inputs with the same edges
-/

set_option linter.unusedSectionVars false

namespace Tri

variable {I J V V' K : Type} [Field K] [LinearOrder K] [IsStrictOrderedRing K] [DecidableEq I] [DecidableEq J]

attribute [local instance] exact

theorem edgeC_comm {a b : Coords K} (h : a ≠ b) : edgeC a b = edgeC b a := by
  unfold edgeC
  rcases below_total h with h1 | h1
  · have h2 : ¬ b.ltB a = true := fun h2 => below_irrefl _ (below_trans h1 (ltB_exact.1 h2))
    rw [if_pos (ltB_exact.2 h1), if_neg h2]
  · have h2 : ¬ a.ltB b = true := fun h2 => below_irrefl _ (below_trans h1 (ltB_exact.1 h2))
    rw [if_pos (ltB_exact.2 h1), if_neg h2]

theorem ValidPolys.edge_ne {gs : List (List (Coords K))} (hv : ValidPolys gs) {e : Coords K × Coords K}
    (he : e ∈ gs.flatMap cycleEdges) : e.1 ≠ e.2 := by
  obtain ⟨g, hg, he⟩ := List.mem_flatMap.1 he
  exact cycleEdges_ne (hv.three g hg) ((List.nodup_flatten.1 hv.distinct).1 g hg) he

theorem SameEdges.sidesC {gs gs' : List (List (Coords K))} (hv' : ValidPolys gs') (h : SameEdges gs gs') {e : Coords K × Coords K}
    (he : e ∈ sidesC gs) : e ∈ sidesC gs' := by
  obtain ⟨⟨a, b⟩, h1, rfl⟩ := List.mem_map.1 he
  rcases (h a b).1 (.inl h1) with h2 | h2
  · exact List.mem_map.2 ⟨_, h2, rfl⟩
  · exact List.mem_map.2 ⟨_, h2, edgeC_comm (hv'.edge_ne h2)⟩

theorem SameEdges.symm {gs gs' : List (List (Coords K))} (h : SameEdges gs gs') : SameEdges gs' gs := fun a b => (h a b).symm

theorem SameEdges.vertices {gs gs' : List (List (Coords K))} (h : SameEdges gs gs') {v : Coords K} (hv : v ∈ gs.flatten) : v ∈ gs'.flatten := by
  rw [← flatMap_fst] at hv
  obtain ⟨⟨a, b⟩, h1, rfl⟩ := List.mem_map.1 hv
  rcases (h a b).1 (.inl h1) with h2 | h2
  · rw [← flatMap_fst]; exact List.mem_map.2 ⟨_, h2, rfl⟩
  · exact (flatMap_snd gs').mem_iff.1 (List.mem_map.2 ⟨_, h2, rfl⟩)

theorem Rearranged.sameEdges {gs gs' : List (List (Coords K))} (h : Rearranged gs gs') : SameEdges gs gs' := by
  obtain ⟨hs, h1, h2⟩ := h
  have back : List.Forall₂ SameCycle gs' hs := by
    refine List.Forall₂.flip (List.Forall₂.imp ?_ h2)
    rintro g g' ⟨a, b, rfl, rfl | rfl⟩
    · exact ⟨b, a, rfl, .inl rfl⟩
    · exact ⟨a.reverse, b.reverse, by simp, .inr (by simp)⟩
  have hm : ∀ e, e ∈ gs.flatMap cycleEdges ↔ e ∈ hs.flatMap cycleEdges := fun e => (h1.flatMap_right cycleEdges).mem_iff
  intro a b
  rw [hm, hm]
  constructor
  · rintro (h | h)
    · exact same_edge back h
    · exact (same_edge back h).symm
  · rintro (h | h)
    · exact same_edge h2 h
    · exact (same_edge h2 h).symm

variable {p : PolyList I V} {xy : V → Coords K} {gs : List (List (I × Coords K))}
  {p' : PolyList J V'} {xy' : V' → Coords K} {gs' : List (List (J × Coords K))}

theorem SideIs.mem {g : List (I × Coords K)} (hg : g ∈ gs) {k : Nat} {e : Coords K × Coords K} (h : SideIs g k e) :
    e ∈ sidesC (gs.map (List.map Prod.snd)) := by
  obtain ⟨a, b, h1, h2, rfl⟩ := h
  refine List.mem_map.2 ⟨(a.2, b.2), List.mem_flatMap.2 ⟨_, List.mem_map.2 ⟨g, hg, rfl⟩, ?_⟩, rfl⟩
  refine List.mem_iff_getElem?.2 ⟨k, cycleEdges_at ?_ ?_⟩
  · rw [List.getElem?_map, h1]; rfl
  · rw [List.length_map, List.getElem?_map, h2]; rfl

theorem SideIs.of_mem {e : Coords K × Coords K} (h : e ∈ sidesC (gs.map (List.map Prod.snd))) : ∃ g ∈ gs, ∃ k, SideIs g k e := by
  obtain ⟨⟨a, b⟩, h1, rfl⟩ := List.mem_map.1 h
  obtain ⟨g', hg', h2⟩ := List.mem_flatMap.1 h1
  obtain ⟨g, hg, rfl⟩ := List.mem_map.1 hg'
  obtain ⟨k, h3, h4⟩ := get_cycleEdges h2
  rw [List.length_map] at h4
  rw [List.getElem?_map, Option.map_eq_some_iff] at h3 h4
  obtain ⟨u, h3, e3⟩ := h3
  obtain ⟨v, h4, e4⟩ := h4
  exact ⟨g, hg, k, u, v, h3, h4, by rw [e3, e4]⟩

/-- Indices for the same vertex. -/
def SamePoint (gs : List (List (I × Coords K))) (gs' : List (List (J × Coords K))) (i : I) (j : J) : Prop :=
  ∃ c, (i, c) ∈ gs.flatten ∧ (j, c) ∈ gs'.flatten

theorem mem_flat_snd {v : I × Coords K} (h : v ∈ gs.flatten) : v.2 ∈ (gs.map (List.map Prod.snd)).flatten := by
  rw [← List.map_flatten]; exact List.mem_map.2 ⟨v, h, rfl⟩

theorem AllIn.sides {P : Plane K} {A : Abs K} {st : St I K} (h : AllIn P p xy gs A st) {e : Coords K × Coords K} :
    e ∈ sidesC (gs.map (List.map Prod.snd)) ↔ ∃ s < A.S, A.sg s = e := by
  constructor
  · intro he
    obtain ⟨g, hg, k, hs⟩ := SideIs.of_mem he
    exact h.has g hg k e hs
  · rintro ⟨s, hs, rfl⟩
    obtain ⟨g, hg, k, hs⟩ := h.segs s hs
    exact hs.mem hg

/-- The vertices of two trapezoidations with the same segments. -/
theorem verts_of {P : Plane K} {A : Abs K} {st : St I K} {A' : Abs K} {st' : St J K} (h : AllIn P p xy gs A st)
    (h' : AllIn P p' xy' gs' A' st') (W : Whole P A) (W' : Whole P A') (hs : SameEdges (gs.map (List.map Prod.snd)) (gs'.map (List.map Prod.snd)))
    (hv' : ValidPolys (gs'.map (List.map Prod.snd))) {n : Nat} (hn : n < A.N) : ∃ n', VN A A' n n' := by
  obtain ⟨g, hg, v, hvg, hc⟩ := h.cs n hn
  have hm := hs.vertices (mem_flat_snd (List.mem_flatten.2 ⟨g, hg, hvg⟩))
  rw [← flatMap_fst] at hm
  obtain ⟨⟨a, b⟩, he, hab⟩ := List.mem_map.1 hm
  simp only at hab
  subst hab
  obtain ⟨s, hsS, hsg⟩ := h'.sides.1 (List.mem_map.2 ⟨_, he, rfl⟩ : edgeC _ b ∈ _)
  have h1 := W'.inv.mxN s hsS
  have h2 := W'.inv.mnN s hsS
  have h3 := W'.mnC s hsS
  by_cases hlt : v.2.ltB b
  · refine ⟨_, hn, h2.1, ?_⟩
    rw [h3, hsg, hc]; simp [edgeC, hlt]
  · refine ⟨_, hn, h1.1, ?_⟩
    rw [h1.2, hsg, hc]; simp [edgeC, hlt]

/-- The trapezoidations of two inputs with the same edges have the same shape. -/
theorem runs_match (hd : Describes p xy gs) (hv : ValidPolys (gs.map (List.map Prod.snd))) (hne : gs ≠ [])
    (hd' : Describes p' xy' gs') (hv' : ValidPolys (gs'.map (List.map Prod.snd)))
    (hs : SameEdges (gs.map (List.map Prod.snd)) (gs'.map (List.map Prod.snd))) (cfg cfg' : Cfg) (hcfg : cfg.Valid) (hcfg' : cfg'.Valid) :
    ∃ (T Nx S : Nat → Nat → Prop) (k : Nat) (st : St I K) (st' : St J K),
      (∀ fuel ≥ k, trapezoidize cfg fuel p xy = .ok st ∧ trapezoidize cfg' fuel p' xy' = .ok st') ∧
      Match T Nx S (SamePoint gs gs') Eq p xy st p' xy' st' := by
  classical
  obtain ⟨w, hw1, hw2⟩ := exists_sky (gs.map (List.map Prod.snd))
  obtain ⟨P, hctx, hU, hE, ε, hε, hh, hX⟩ := exists_polysCtx hd hv (ghosts := [w]) (by
    intro x hx
    rw [List.mem_singleton] at hx; subst hx; exact hw1)
  have hfl : (gs'.map (List.map Prod.snd)).flatten = gs'.flatten.map Prod.snd := by rw [List.map_flatten]
  have hnd : (gs'.flatten.map Prod.snd).Nodup := by rw [← hfl]; exact hv'.distinct
  have hctx' : PolysCtx P p' xy' gs' := by
    refine ⟨hd', fun g hg => ⟨?_, ?_, ?_, ?_, ?_⟩, hnd⟩
    · have := hv'.three _ (List.mem_map.2 ⟨g, hg, rfl⟩)
      simpa using this
    · exact (List.nodup_flatten.1 hv'.distinct).1 _ (List.mem_map.2 ⟨g, hg, rfl⟩)
    · intro v hvg
      exact (hU _).2 (.inl (hs.symm.vertices (mem_flat_snd (List.mem_flatten.2 ⟨g, hg, hvg⟩))))
    · intro v hvg
      exact coords_of_get (hd'.coords g hg v hvg)
    · intro k a b ha hb
      rw [hE]
      exact hs.symm.sidesC hv (SideIs.mem hg ⟨a, b, ha, hb, rfl⟩)
  have hne' : gs' ≠ [] := by
    rintro rfl
    obtain ⟨g, hg⟩ := List.exists_mem_of_ne_nil gs hne
    have h3 := hv.three _ (List.mem_map.2 ⟨g, hg, rfl⟩)
    rcases g with _ | ⟨v, g⟩
    · simp at h3
    · have := hs.vertices (mem_flat_snd (List.mem_flatten.2 ⟨_, hg, List.mem_cons_self⟩))
      simp at this
  obtain ⟨N, A, st, hr, hall⟩ := trapezoidize_run hctx cfg.order cfg.mathN hcfg
  obtain ⟨N', A', st', hr', hall'⟩ := trapezoidize_run hctx' cfg'.order cfg'.mathN hcfg'
  have hwU : P.U w := (hU w).2 (.inr (by simp))
  have hW := hall.whole hctx.poly
  have hW' := hall'.whole hctx'.poly
  have hsky : Sky P A := by
    refine ⟨w, hwU, fun n hn => ?_⟩
    refine (P.h_lt (hall.glob.inv.cU n hn) hwU).1 (.inl ?_)
    obtain ⟨g, hg, v, hv', h⟩ := hall.cs n hn
    rw [h]
    exact hw2 _ (List.mem_flatten.2 ⟨_, List.mem_map.2 ⟨g, hg, rfl⟩, List.mem_map.2 ⟨v, hv', rfl⟩⟩)
  have T : Twin P A A' :=
    { W := hW
      W' := hW'
      sky := hsky
      vs := fun n hn => verts_of hall hall' hW hW' hs hv' hn
      vs' := fun n hn => (verts_of hall' hall hW' hW hs.symm hv hn).imp fun _ h => h.symm
      ss := fun s hs1 => by
        obtain ⟨s', h1, h2⟩ := hall'.sides.1 (hs.sidesC hv' (hall.sides.2 ⟨s, hs1, rfl⟩))
        exact ⟨s', hs1, h1, h2.symm⟩
      ss' := fun s hs1 => by
        obtain ⟨s', h1, h2⟩ := hall.sides.1 (hs.symm.sidesC hv (hall'.sides.2 ⟨s, hs1, rfl⟩))
        exact ⟨s', h1, hs1, h2⟩ }
  obtain ⟨key, lab, sgn, D, hkey⟩ := hall.dfs hctx.poly hsky hne
  obtain ⟨key', lab', sgn', D', hkey'⟩ := hall'.dfs hctx'.poly T.sky' hne'
  have hkm : ∀ n < A.N, key n ∈ gs.flatten := fun n hn => key_mem hd (hr cfg rfl rfl N le_rfl) D.src hkey hn
  have hkm' : ∀ n < A'.N, key' n ∈ gs'.flatten := fun n hn => key_mem hd' (hr' cfg' rfl rfl N' le_rfl) D'.src hkey' hn
  have hRI : ∀ n n', VN A A' n n' → SamePoint gs gs' (key n).1 (key' n').1 := by
    intro n n' h
    refine ⟨A.c n, ?_, ?_⟩
    · rw [← D.keyc n h.lt]; exact hkm n h.lt
    · rw [h.c, ← D'.keyc n' h.lt']; exact hkm' n' h.lt'
  exact ⟨_, _, _, max N N', st, st', fun fuel hf => ⟨hr cfg rfl rfl fuel (le_trans (le_max_left _ _) hf),
    hr' cfg' rfl rfl fuel (le_trans (le_max_right _ _) hf)⟩,
    twin_match T D D' hRI hall.glob.qry hall.glob.link.tsL hall'.glob.qry hall'.glob.link.tsL⟩

section
variable {C D : Type} [Scalar C] [Scalar D] {q : PolyList I V} {xy : V → Coords C} {q' : PolyList J V'} {xy' : V' → Coords D}

/-- Runs over trapezoidations of the same shape hand over the same vertices. -/
theorem Match.runs {T N S : Nat → Nat → Prop} {RI : I → J → Prop} {RC : Coords C → Coords D → Prop} {st : St I C} {st' : St J D}
    (M : Match T N S RI RC q xy st q' xy' st') (hC : RespC RC) {cfg cfg' : Cfg} {k : Nat}
    (hr : ∀ fuel ≥ k, trapezoidize cfg fuel q xy = .ok st ∧ trapezoidize cfg' fuel q' xy' = .ok st') :
    ∃ N, ∀ fuel ≥ N, ∀ w, ∃ cs cs' r, List.Forall₂ (CallRel RI) cs cs' ∧
      (∀ F : FanFormat I, F.winding = w → triangulate cfg fuel q xy F = play F cs r) ∧
      ∀ F : FanFormat J, F.winding = w → triangulate cfg' fuel q' xy' F = play F cs' r := by
  obtain ⟨k', hN⟩ := M.inner hC
  refine ⟨max k k', fun fuel hf w => ?_⟩
  have f1 := le_trans (le_max_left _ _) hf
  have f3 := le_trans (le_max_right _ _) hf
  obtain ⟨h1, h2⟩ := hN fuel f3 w
  have he : (innerTrace w fuel q xy st).res = (innerTrace w fuel q' xy' st').res := by
    generalize (innerTrace w fuel q xy st).res = x at h2
    generalize (innerTrace w fuel q' xy' st').res = y at h2
    rcases x with e | ⟨⟩ <;> rcases y with e' | ⟨⟩
    · exact congrArg _ h2
    · exact h2.elim
    · exact h2.elim
    · rfl
  refine ⟨_, _, (innerTrace w fuel q xy st).res, h1, fun F hF => ?_, fun F hF => ?_⟩
  · subst hF
    rw [triangulate, (hr fuel f1).1]
    simp only [Res.mapErr]
    rw [triangulate_eq_play]
  · subst hF
    rw [triangulate, (hr fuel f1).2]
    simp only [Res.mapErr]
    rw [triangulate_eq_play, he]

end

/-- Two inputs with the same edges hand over the same vertices. -/
theorem run_twin (hd : Describes p xy gs) (hv : ValidPolys (gs.map (List.map Prod.snd))) (hne : gs ≠ [])
    (hd' : Describes p' xy' gs') (hv' : ValidPolys (gs'.map (List.map Prod.snd)))
    (hs : SameEdges (gs.map (List.map Prod.snd)) (gs'.map (List.map Prod.snd))) (cfg cfg' : Cfg) (hcfg : cfg.Valid) (hcfg' : cfg'.Valid) :
    ∃ N, ∀ fuel ≥ N, ∀ w, ∃ cs cs' r, List.Forall₂ (CallRel (SamePoint gs gs')) cs cs' ∧
      (∀ F : FanFormat I, F.winding = w → triangulate cfg fuel p xy F = play F cs r) ∧
      ∀ F : FanFormat J, F.winding = w → triangulate cfg' fuel p' xy' F = play F cs' r := by
  obtain ⟨T, Nx, S, k, st, st', hr, M⟩ := runs_match hd hv hne hd' hv' hs cfg cfg' hcfg hcfg'
  exact M.runs respC_eq hr

/-- A recorded success lists the calls. -/
theorem play_recorder_ok {w : Winding} {cs l : List (Call I)} {r : Res IErr Unit} (h : (play (recorder I w) cs r).2 = .ok l) : cs = l := by
  rcases cs with _ | ⟨⟨x, y, z⟩ | v, cs⟩
  · rcases r with e | ⟨⟩ <;> cases h
  · simp only [play, feedB_recorder, finishB] at h
    rcases r with e | ⟨⟩
    · cases e <;> cases h
    · exact (Except.ok.inj h)
  · rcases r with e | ⟨⟩ <;> cases h

/-- Calls that agree on every index are equal. -/
theorem calls_eq {R : I → I → Prop} (hR : ∀ i j, R i j → i = j) {cs cs' : List (Call I)} (h : List.Forall₂ (CallRel R) cs cs') :
    cs = cs' := by
  induction h with
  | nil => rfl
  | @cons a b _ _ h _ ih =>
    rw [ih]
    congr 1
    cases a <;> cases b
    · rw [hR _ _ h.1, hR _ _ h.2.1, hR _ _ h.2.2]
    · exact h.elim
    · exact h.elim
    · rw [hR _ _ h]

theorem calls_renamed {β : Type} {R : I → J → Prop} {f : I → β} {g : J → β} (hR : ∀ i j, R i j → f i = g j) {cs : List (Call I)} {cs' : List (Call J)}
    (h : List.Forall₂ (CallRel R) cs cs') : cs.map (Call.renamed f) = cs'.map (Call.renamed g) := by
  induction h with
  | nil => rfl
  | @cons a b _ _ h _ ih =>
    rw [List.map_cons, List.map_cons, ih]
    congr 1
    cases a <;> cases b
    · simp only [Call.renamed]; rw [hR _ _ h.1, hR _ _ h.2.1, hR _ _ h.2.2]
    · exact h.elim
    · exact h.elim
    · simp only [Call.renamed]; rw [hR _ _ h]

theorem fanCalls_renamed {β : Type} (f : I → β) (fan : List I) : fanCalls (fan.map f) = (fanCalls fan).map (Call.renamed f) := by
  rcases fan with _ | ⟨a, _ | ⟨b, _ | ⟨c, l⟩⟩⟩ <;> simp [fanCalls, Call.renamed, Function.comp_def]

theorem flatMap_renamed {β : Type} (f : I → β) (fans : List (List I)) :
    (fans.map (List.map f)).flatMap fanCalls = (fans.flatMap fanCalls).map (Call.renamed f) := by
  induction fans with
  | nil => rfl
  | cons a l ih => simp only [List.map_cons, List.flatMap_cons, fanCalls_renamed, ih, List.map_append]

end Tri
