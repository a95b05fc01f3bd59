import Verif.Proof.TouchRun
import Verif.Proof.CanonTop

/-!
# Two inputs with the same edges, some of which touch others
-/

set_option linter.unusedSectionVars false

namespace Tri

variable {I J V V' K : Type} [Field K] [LinearOrder K] [IsStrictOrderedRing K] [DecidableEq I] [DecidableEq J]

attribute [local instance] exact

theorem SameEdges.sidesT {gs gs' : List (List (Coords K))} (hv' : TouchingPolys gs') (h : SameEdges gs gs') {e : Coords K × Coords K}
    (he : e ∈ Tri.sidesC gs) : e ∈ Tri.sidesC gs' := by
  obtain ⟨⟨a, b⟩, h1, rfl⟩ := List.mem_map.1 he
  rcases (h a b).1 (.inl h1) with h2 | h2
  · exact List.mem_map.2 ⟨_, h2, rfl⟩
  · exact List.mem_map.2 ⟨_, h2, edgeC_comm (edges_ne hv'.distinct hv'.three h2)⟩

variable {p : PolyList I V} {xy : V → Coords K} {gs : List (List (I × Coords K))}
  {p' : PolyList J V'} {xy' : V' → Coords K} {gs' : List (List (J × Coords K))}

/-- The vertices of two trapezoidations with the same segments. -/
theorem verts_touch {P : Plane K} {A : Abs K} {st : St I K} {A' : Abs K} {st' : St J K} (h : AllIn P p xy gs A st)
    (h' : AllIn P p' xy' gs' A' st') (_ : Whole P A) (W' : Whole P A') (hs : SameEdges (gs.map (List.map Prod.snd)) (gs'.map (List.map Prod.snd)))
    {n : Nat} (hn : n < A.N) : ∃ n', VN A A' n n' := by
  obtain ⟨g, hg, v, hvg, hc⟩ := h.cs n hn
  have hm := hs.vertices (mem_flat_snd (List.mem_flatten.2 ⟨g, hg, hvg⟩))
  rw [← flatMap_fst] at hm
  obtain ⟨⟨a, b⟩, he, hab⟩ := List.mem_map.1 hm
  simp only at hab
  subst hab
  obtain ⟨s, hsS, hsg⟩ := h'.sides.1 (List.mem_map.2 ⟨_, he, rfl⟩ : edgeC _ b ∈ _)
  have h1 := W'.inv.mxN s hsS
  have h2 := W'.inv.mnN s hsS
  have h3 := W'.mnC s hsS
  by_cases hlt : v.2.ltB b
  · refine ⟨_, hn, h2.1, ?_⟩
    rw [h3, hsg, hc]; simp [edgeC, hlt]
  · refine ⟨_, hn, h1.1, ?_⟩
    rw [h1.2, hsg, hc]; simp [edgeC, hlt]

/-- The trapezoidations of two inputs with the same edges have the same shape. -/
theorem runs_touch (hd : Describes p xy gs) (hv : TouchingPolys (gs.map (List.map Prod.snd))) (hne : gs ≠ [])
    (hd' : Describes p' xy' gs') (hv' : TouchingPolys (gs'.map (List.map Prod.snd)))
    (hs : SameEdges (gs.map (List.map Prod.snd)) (gs'.map (List.map Prod.snd))) (cfg cfg' : Cfg) (hcfg : cfg.Valid) (hcfg' : cfg'.Valid) :
    ∃ (T Nx S : Nat → Nat → Prop) (k : Nat) (st : St I K) (st' : St J K),
      (∀ fuel ≥ k, trapezoidize cfg fuel p xy = .ok st ∧ trapezoidize cfg' fuel p' xy' = .ok st') ∧
      Match T Nx S (SamePoint gs gs') Eq p xy st p' xy' st' := by
  classical
  obtain ⟨w, hw1, hw2⟩ := exists_sky (gs.map (List.map Prod.snd))
  obtain ⟨P, hctx, hU, hE, ε, hε, hh⟩ := exists_touchCtx hd hv (ghosts := [w]) (by
    intro x hx
    rw [List.mem_singleton] at hx; subst hx; exact hw1)
  have hfl : (gs'.map (List.map Prod.snd)).flatten = gs'.flatten.map Prod.snd := by rw [List.map_flatten]
  have hnd : (gs'.flatten.map Prod.snd).Nodup := by rw [← hfl]; exact hv'.distinct
  have hctx' : PolysCtx P p' xy' gs' := by
    refine ⟨hd', fun g hg => ⟨?_, ?_, ?_, ?_, ?_⟩, hnd⟩
    · have := hv'.three _ (List.mem_map.2 ⟨g, hg, rfl⟩)
      simpa using this
    · exact (List.nodup_flatten.1 hv'.distinct).1 _ (List.mem_map.2 ⟨g, hg, rfl⟩)
    · intro v hvg
      exact (hU _).2 (.inl (hs.symm.vertices (mem_flat_snd (List.mem_flatten.2 ⟨g, hg, hvg⟩))))
    · intro v hvg
      exact coords_of_get (hd'.coords g hg v hvg)
    · intro k a b ha hb
      rw [hE]
      exact hs.symm.sidesT hv (SideIs.mem hg ⟨a, b, ha, hb, rfl⟩)
  have hne' : gs' ≠ [] := by
    rintro rfl
    obtain ⟨g, hg⟩ := List.exists_mem_of_ne_nil gs hne
    have h3 := hv.three _ (List.mem_map.2 ⟨g, hg, rfl⟩)
    rcases g with _ | ⟨v, g⟩
    · simp at h3
    · have := hs.vertices (mem_flat_snd (List.mem_flatten.2 ⟨_, hg, List.mem_cons_self⟩))
      simp at this
  obtain ⟨N, A, st, hr, hall⟩ := trapezoidize_run hctx cfg.order cfg.mathN hcfg
  obtain ⟨N', A', st', hr', hall'⟩ := trapezoidize_run hctx' cfg'.order cfg'.mathN hcfg'
  have hwU : P.U w := (hU w).2 (.inr (by simp))
  have hW := hall.whole hctx.poly
  have hW' := hall'.whole hctx'.poly
  have hsky : Sky P A := by
    refine ⟨w, hwU, fun n hn => ?_⟩
    refine (P.h_lt (hall.glob.inv.cU n hn) hwU).1 (.inl ?_)
    obtain ⟨g, hg, v, hv', h⟩ := hall.cs n hn
    rw [h]
    exact hw2 _ (List.mem_flatten.2 ⟨_, List.mem_map.2 ⟨g, hg, rfl⟩, List.mem_map.2 ⟨v, hv', rfl⟩⟩)
  have T : Twin P A A' :=
    { W := hW
      W' := hW'
      sky := hsky
      vs := fun n hn => verts_touch hall hall' hW hW' hs hn
      vs' := fun n hn => (verts_touch hall' hall hW' hW hs.symm hn).imp fun _ h => h.symm
      ss := fun s hs1 => by
        obtain ⟨s', h1, h2⟩ := hall'.sides.1 (hs.sidesT hv' (hall.sides.2 ⟨s, hs1, rfl⟩))
        exact ⟨s', hs1, h1, h2.symm⟩
      ss' := fun s hs1 => by
        obtain ⟨s', h1, h2⟩ := hall.sides.1 (hs.symm.sidesT hv (hall'.sides.2 ⟨s, hs1, rfl⟩))
        exact ⟨s', h1, hs1, h2⟩ }
  obtain ⟨key, lab, sgn, D, hkey⟩ := hall.dfs hctx.poly hsky hne
  obtain ⟨key', lab', sgn', D', hkey'⟩ := hall'.dfs hctx'.poly T.sky' hne'
  have hkm : ∀ n < A.N, key n ∈ gs.flatten := fun n hn => key_mem hd (hr cfg rfl rfl N le_rfl) D.src hkey hn
  have hkm' : ∀ n < A'.N, key' n ∈ gs'.flatten := fun n hn => key_mem hd' (hr' cfg' rfl rfl N' le_rfl) D'.src hkey' hn
  have hRI : ∀ n n', VN A A' n n' → SamePoint gs gs' (key n).1 (key' n').1 := by
    intro n n' h
    refine ⟨A.c n, ?_, ?_⟩
    · rw [← D.keyc n h.lt]; exact hkm n h.lt
    · rw [h.c, ← D'.keyc n' h.lt']; exact hkm' n' h.lt'
  exact ⟨_, _, _, max N N', st, st', fun fuel hf => ⟨hr cfg rfl rfl fuel (le_trans (le_max_left _ _) hf),
    hr' cfg' rfl rfl fuel (le_trans (le_max_right _ _) hf)⟩,
    twin_match T D D' hRI hall.glob.qry hall.glob.link.tsL hall'.glob.qry hall'.glob.link.tsL⟩

/-- Two inputs with the same edges hand over the same vertices. -/
theorem run_twin_touch (hd : Describes p xy gs) (hv : TouchingPolys (gs.map (List.map Prod.snd))) (hne : gs ≠ [])
    (hd' : Describes p' xy' gs') (hv' : TouchingPolys (gs'.map (List.map Prod.snd)))
    (hs : SameEdges (gs.map (List.map Prod.snd)) (gs'.map (List.map Prod.snd))) (cfg cfg' : Cfg) (hcfg : cfg.Valid) (hcfg' : cfg'.Valid) :
    ∃ N, ∀ fuel ≥ N, ∀ w, ∃ cs cs' r, List.Forall₂ (CallRel (SamePoint gs gs')) cs cs' ∧
      (∀ F : FanFormat I, F.winding = w → triangulate cfg fuel p xy F = play F cs r) ∧
      ∀ F : FanFormat J, F.winding = w → triangulate cfg' fuel p' xy' F = play F cs' r := by
  obtain ⟨T, Nx, S, k, st, st', hr, M⟩ := runs_touch hd hv hne hd' hv' hs cfg cfg' hcfg hcfg'
  exact M.runs respC_eq hr

end Tri
