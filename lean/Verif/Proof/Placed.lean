import Verif.Proof.Output

/-!
# The triangles of a run, by vertex index
-/

set_option linter.unusedSectionVars false

namespace Tri

variable {I V K : Type} [Field K] [LinearOrder K] [IsStrictOrderedRing K] [DecidableEq I]

attribute [local instance] exact

/-- The triangles `T` over vertices placed by `pl` fill the polygons `gI`, whose edges are directed by `fwd`. -/
structure MeshI (pl : I → Coords K) (gI : List (List I)) (T : List (I × I × I)) (fwd : I × I → Bool) : Prop where
  pos : ∀ t ∈ T, 0 ≤ orient (pl t.1) (pl t.2.1) (pl t.2.2)
  mem : ∀ t ∈ T, t.1 ∈ gI.flatten ∧ t.2.1 ∈ gI.flatten ∧ t.2.2 ∈ gI.flatten
  dist : ∀ t ∈ T, pl t.1 ≠ pl t.2.1 ∧ pl t.2.1 ≠ pl t.2.2 ∧ pl t.2.2 ≠ pl t.1
  flat : ∀ t ∈ T, orient (pl t.1) (pl t.2.1) (pl t.2.2) = 0 →
    ∃ t', Rot t' t ∧ FlatTri (pl t'.1) (pl t'.2.1) (pl t'.2.2)
  sum : ∀ (G : Type) [AddCommGroup G] (f : I → I → G), (∀ a b, f a b = - f b a) →
    (T.map (tsum f)).sum = esum f ((gI.flatMap cycleEdges).map (turn fwd))
  wind : ∀ q, OffEdges (gI.map (List.map pl)) q →
    (T.map (tsum fun a b => fy q (pl a) (pl b))).sum = 0 ∨ (T.map (tsum fun a b => fy q (pl a) (pl b))).sum = 1
  len : ∀ W : I → Int, (∀ x ∈ (gI.flatMap cycleEdges).map (turn fwd), ∀ y ∈ (gI.flatMap cycleEdges).map (turn fwd),
    x.2 = y.1 → W x.2 = turnR (pl x.1) (pl x.2) (pl y.2)) → (T.length : Int) = gI.flatten.length - 2 * (gI.flatten.map W).sum
  low : ∀ v ∈ gI.flatten, (∀ z ∈ gI.flatten, z ≠ v → below (pl v) (pl z)) → ∃ x ∈ (gI.flatMap cycleEdges).map (turn fwd),
    ∃ y ∈ (gI.flatMap cycleEdges).map (turn fwd), x.2 = v ∧ y.1 = v ∧ 0 < orient (pl x.1) (pl v) (pl y.2)

variable {p : PolyList I V} {xy : V → Coords K} {gs : List (List (I × Coords K))}

theorem place_of (hd : Describes p xy gs) {v : I × Coords K} (hv : v ∈ gs.flatten) : place p xy v.1 = v.2 := by
  obtain ⟨g, hg, hvg⟩ := List.mem_flatten.1 hv
  unfold place
  rw [hd.coords g hg v hvg]; rfl

/-- The coordinates are the places of the indices. -/
theorem placed_map (hd : Describes p xy gs) :
    (gs.map (List.map Prod.fst)).map (List.map (place p xy)) = gs.map (List.map Prod.snd) := by
  rw [List.map_map]
  refine List.map_congr_left fun g hg => ?_
  rw [Function.comp_apply, List.map_map]
  exact List.map_congr_left fun v hv => place_of hd (List.mem_flatten.2 ⟨g, hg, hv⟩)

/-- The polygons with the places of their indices. -/
theorem placed_self (hd : Describes p xy gs) :
    (gs.map (List.map Prod.fst)).map (List.map fun i => (i, place p xy i)) = gs := by
  rw [List.map_map]
  conv_rhs => rw [← List.map_id gs]
  refine List.map_congr_left fun g hg => ?_
  rw [Function.comp_apply, List.map_map]
  conv_rhs => rw [id, ← List.map_id g]
  refine List.map_congr_left fun v hv => ?_
  exact Prod.ext rfl (place_of hd (List.mem_flatten.2 ⟨g, hg, hv⟩))

theorem flatMap_cycleEdges_map {α β : Type} (f : α → β) (gs : List (List α)) :
    (gs.map (List.map f)).flatMap cycleEdges = (gs.flatMap cycleEdges).map (Prod.map f f) := by
  induction gs with
  | nil => rfl
  | cons g gs ih => rw [List.map_cons, List.flatMap_cons, List.flatMap_cons, List.map_append, ih, cycleEdges_map]

/-- The directed edges, with the places of their ends. -/
theorem turned_lift {fwd : (I × Coords K) × (I × Coords K) → Bool} (hd : Describes p xy gs) :
    (gs.flatMap cycleEdges).map (turn fwd) =
      (((gs.map (List.map Prod.fst)).flatMap cycleEdges).map
        (turn fun e => fwd ((e.1, place p xy e.1), (e.2, place p xy e.2)))).map
          (Prod.map (fun i => (i, place p xy i)) fun i => (i, place p xy i)) := by
  conv_lhs => rw [← placed_self hd, flatMap_cycleEdges_map]
  rw [List.map_map, List.map_map]
  refine List.map_congr_left fun e _ => ?_
  simp only [Function.comp_apply, turn, Prod.map]
  by_cases h : fwd ((e.1, place p xy e.1), (e.2, place p xy e.2)) = true
  · simp only [h, if_true]
  · simp only [h, if_false]; rfl

theorem Meshed.toI_len {R : List ((I × Coords K) × (I × Coords K) × (I × Coords K))}
    {fwd : (I × Coords K) × (I × Coords K) → Bool} (hd : Describes p xy gs) (h : Meshed gs R fwd) (W : I → Int)
    (hW : ∀ x ∈ ((gs.map (List.map Prod.fst)).flatMap cycleEdges).map
        (turn fun e => fwd ((e.1, place p xy e.1), (e.2, place p xy e.2))),
      ∀ y ∈ ((gs.map (List.map Prod.fst)).flatMap cycleEdges).map
        (turn fun e => fwd ((e.1, place p xy e.1), (e.2, place p xy e.2))),
      x.2 = y.1 → W x.2 = turnR (place p xy x.1) (place p xy x.2) (place p xy y.2)) :
    (R.length : Int) = (gs.map (List.map Prod.fst)).flatten.length - 2 * ((gs.map (List.map Prod.fst)).flatten.map W).sum := by
  have := h.len (fun v => W v.1) (by
    rw [turned_lift hd]
    intro x hx y hy hxy
    obtain ⟨x', hx', rfl⟩ := List.mem_map.1 hx
    obtain ⟨y', hy', rfl⟩ := List.mem_map.1 hy
    exact hW x' hx' y' hy' (congrArg Prod.fst hxy))
  rw [this, ← List.map_flatten, List.length_map, List.map_map]
  rfl

theorem Meshed.toI_low {R : List ((I × Coords K) × (I × Coords K) × (I × Coords K))}
    {fwd : (I × Coords K) × (I × Coords K) → Bool} (hd : Describes p xy gs) (h : Meshed gs R fwd) :
    ∀ v ∈ (gs.map (List.map Prod.fst)).flatten, (∀ z ∈ (gs.map (List.map Prod.fst)).flatten, z ≠ v →
        below (place p xy v) (place p xy z)) →
      ∃ x ∈ ((gs.map (List.map Prod.fst)).flatMap cycleEdges).map
        (turn fun e => fwd ((e.1, place p xy e.1), (e.2, place p xy e.2))),
      ∃ y ∈ ((gs.map (List.map Prod.fst)).flatMap cycleEdges).map
        (turn fun e => fwd ((e.1, place p xy e.1), (e.2, place p xy e.2))),
      x.2 = v ∧ y.1 = v ∧ 0 < orient (place p xy x.1) (place p xy v) (place p xy y.2) := by
  intro v hv hlow
  rw [← List.map_flatten] at hv
  obtain ⟨v', hv', rfl⟩ := List.mem_map.1 hv
  obtain ⟨x, hx, y, hy, h1, h2, h3⟩ := h.low v' hv' fun z hz hne => by
    have := hlow z.1 (by rw [← List.map_flatten]; exact List.mem_map_of_mem hz) (fun e => hne (by
      have e1 := place_of hd hz
      have e2 := place_of hd hv'
      rw [e] at e1
      exact Prod.ext e (e1.symm.trans e2)))
    rwa [place_of hd hz, place_of hd hv'] at this
  rw [turned_lift hd] at hx hy
  obtain ⟨x', hx', rfl⟩ := List.mem_map.1 hx
  obtain ⟨y', hy', rfl⟩ := List.mem_map.1 hy
  refine ⟨x', hx', y', hy', congrArg Prod.fst h1, congrArg Prod.fst h2, ?_⟩
  rw [place_of hd hv']
  exact h3

theorem Meshed.toI {R : List ((I × Coords K) × (I × Coords K) × (I × Coords K))}
    {fwd : (I × Coords K) × (I × Coords K) → Bool} (hd : Describes p xy gs) (h : Meshed gs R fwd) :
    R = (R.map (mapTri Prod.fst)).map (mapTri fun i => (i, place p xy i)) ∧
    (∀ t ∈ R.map (mapTri Prod.fst), 0 ≤ orient (place p xy t.1) (place p xy t.2.1) (place p xy t.2.2)) ∧
    (∀ t ∈ R.map (mapTri Prod.fst), t.1 ∈ (gs.map (List.map Prod.fst)).flatten ∧
      t.2.1 ∈ (gs.map (List.map Prod.fst)).flatten ∧ t.2.2 ∈ (gs.map (List.map Prod.fst)).flatten) ∧
    ∀ (G : Type) [AddCommGroup G] (f : I → I → G), (∀ a b, f a b = - f b a) →
      ((R.map (mapTri Prod.fst)).map (tsum f)).sum =
        esum f (((gs.map (List.map Prod.fst)).flatMap cycleEdges).map
          (turn fun e => fwd ((e.1, place p xy e.1), (e.2, place p xy e.2)))) := by
  refine ⟨?_, ?_, ?_, ?_⟩
  · rw [List.map_map]
    conv_lhs => rw [← List.map_id R]
    refine List.map_congr_left fun t ht => ?_
    obtain ⟨h1, h2, h3⟩ := h.mem t ht
    simp only [Function.comp_apply, mapTri, place_of hd h1, place_of hd h2, place_of hd h3, id]
  · intro t ht
    obtain ⟨t', ht', rfl⟩ := List.mem_map.1 ht
    obtain ⟨h1, h2, h3⟩ := h.mem t' ht'
    have := h.pos t' ht'
    simp only [mapTri, place_of hd h1, place_of hd h2, place_of hd h3]
    exact this
  · intro t ht
    obtain ⟨t', ht', rfl⟩ := List.mem_map.1 ht
    obtain ⟨h1, h2, h3⟩ := h.mem t' ht'
    rw [← List.map_flatten]
    exact ⟨List.mem_map_of_mem h1, List.mem_map_of_mem h2, List.mem_map_of_mem h3⟩
  · intro G _ f hf
    have h1 := h.sum G (fun a b => f a.1 b.1) (fun a b => hf _ _)
    rw [List.map_map]
    have e1 : (tsum f ∘ mapTri Prod.fst : (I × Coords K) × (I × Coords K) × (I × Coords K) → G) =
        tsum fun a b => f a.1 b.1 := rfl
    rw [e1, h1, flatMap_cycleEdges_map]
    unfold esum
    rw [List.map_map, List.map_map, List.map_map]
    refine congrArg List.sum (List.map_congr_left fun e he => ?_)
    have hm := edge_mem he
    have e2 : (((Prod.map Prod.fst Prod.fst e).1, place p xy (Prod.map Prod.fst Prod.fst e).1),
        ((Prod.map Prod.fst Prod.fst e).2, place p xy (Prod.map Prod.fst Prod.fst e).2)) = e := by
      simp only [Prod.map_fst, Prod.map_snd, place_of hd hm.1, place_of hd hm.2]
    simp only [Function.comp_apply, turn, e2]
    cases fwd e <;> simp

theorem Meshed.toI_dist {R : List ((I × Coords K) × (I × Coords K) × (I × Coords K))}
    {fwd : (I × Coords K) × (I × Coords K) → Bool} (hd : Describes p xy gs) (h : Meshed gs R fwd) :
    ∀ t ∈ R.map (mapTri Prod.fst), place p xy t.1 ≠ place p xy t.2.1 ∧ place p xy t.2.1 ≠ place p xy t.2.2 ∧
      place p xy t.2.2 ≠ place p xy t.1 := by
  intro t ht
  obtain ⟨t', ht', rfl⟩ := List.mem_map.1 ht
  obtain ⟨h1, h2, h3⟩ := h.mem t' ht'
  simp only [mapTri, place_of hd h1, place_of hd h2, place_of hd h3]
  exact h.dist t' ht'

theorem Meshed.toI_flat {R : List ((I × Coords K) × (I × Coords K) × (I × Coords K))}
    {fwd : (I × Coords K) × (I × Coords K) → Bool} (hd : Describes p xy gs) (h : Meshed gs R fwd) :
    ∀ t ∈ R.map (mapTri Prod.fst), orient (place p xy t.1) (place p xy t.2.1) (place p xy t.2.2) = 0 →
      ∃ t', Rot t' t ∧ FlatTri (place p xy t'.1) (place p xy t'.2.1) (place p xy t'.2.2) := by
  intro t ht h0
  obtain ⟨t', ht', rfl⟩ := List.mem_map.1 ht
  obtain ⟨h1, h2, h3⟩ := h.mem t' ht'
  simp only [mapTri, place_of hd h1, place_of hd h2, place_of hd h3] at h0
  obtain ⟨s, hs, hf⟩ := h.flat t' ht' h0
  refine ⟨mapTri Prod.fst s, ?_, ?_⟩
  · rcases hs with rfl | rfl | rfl
    · exact .inl rfl
    · exact .inr (.inl rfl)
    · exact .inr (.inr rfl)
  · have hm : s.1 ∈ gs.flatten ∧ s.2.1 ∈ gs.flatten ∧ s.2.2 ∈ gs.flatten := by
      rcases hs with rfl | rfl | rfl
      · exact ⟨h1, h2, h3⟩
      · exact ⟨h3, h1, h2⟩
      · exact ⟨h2, h3, h1⟩
    simp only [mapTri, place_of hd hm.1, place_of hd hm.2.1, place_of hd hm.2.2]
    exact hf

/-- The run on valid input. -/
theorem run_returns (hd : Describes p xy gs) (hv : ValidPolys (gs.map (List.map Prod.snd))) (hne : gs ≠ []) (cfg : Cfg)
    (hcfg : cfg.Valid) :
    ∃ fans fwd, Returns cfg p xy .counterclockwise fans ∧
      MeshI (place p xy) (gs.map (List.map Prod.fst)) (fans.flatMap fanTriangles) fwd ∧
      ∀ F : FanFormat I, ∃ cs, StartsNew cs ∧ cs ≠ [] ∧ (F.winding = .counterclockwise → cs = fans.flatMap fanCalls) ∧
        ∀ fuel ≥ (p.elems.length + 3) ^ 2, triangulate cfg fuel p xy F = play F cs (.ok ()) := by
  -- what a run gives, for any point
  have key : ∀ q, OffEdges (gs.map (List.map Prod.snd)) q → ∃ fs fwd,
      (∀ F : FanFormat I, ∀ fuel ≥ (p.elems.length + 3) ^ 2, triangulate cfg fuel p xy F = play F (callsR F.winding fs) (.ok ())) ∧
      (∀ f ∈ fs, 2 ≤ f.2.outer.length) ∧ Meshed gs (trisR fs) fwd ∧ callsR .counterclockwise fs ≠ [] ∧
      (∀ w, callsR w fs ≠ []) ∧
      Returns cfg p xy .counterclockwise (fs.map fun f => (fanR .counterclockwise f).map Prod.fst) ∧
      (trisR fs).map (mapTri Prod.fst) = (fs.map fun f => (fanR .counterclockwise f).map Prod.fst).flatMap fanTriangles ∧
      (((trisR fs).map (tsum fun a b : I × Coords K => fy q a.2 b.2)).sum = 0 ∨
        ((trisR fs).map (tsum fun a b : I × Coords K => fy q a.2 b.2)).sum = 1) := by
    intro q hq
    obtain ⟨fs, fwd, hF, htwo, hM, hw⟩ := run_mesh hd hv hne cfg hcfg hq
    have hdist : (gs.flatten.map (·.2)).Nodup := by
      have := hv.distinct
      rwa [← List.map_flatten] at this
    have h3 : ∀ g ∈ gs, 3 ≤ g.length := by
      intro g hg
      have := hv.three _ (List.mem_map.2 ⟨g, hg, rfl⟩)
      simpa using this
    have hlen : ∀ w, ∀ f ∈ fs, 3 ≤ (fanR w f).length := fun w f hf =>
      (fan_length w f.1 f.2.bt f.2.root f.2.outer (htwo f hf)).2
    have hfs : fs ≠ [] := by
      rintro rfl
      obtain ⟨g, hg⟩ := List.exists_mem_of_ne_nil gs hne
      have hl := h3 g hg
      have h0 : 0 < g.length := by omega
      have hm : (g[0], g[(0 + 1) % g.length]'(Nat.mod_lt _ h0)) ∈ gs.flatMap cycleEdges :=
        List.mem_flatMap.2 ⟨g, hg, List.mem_of_getElem? (cycleEdges_at (List.getElem?_eq_getElem h0)
          (List.getElem?_eq_getElem (Nat.mod_lt _ h0)))⟩
      have h1 := hM.sum Int (netFn g[0] (g[(0 + 1) % g.length]'(Nat.mod_lt _ h0))) (netFn_anti _ _)
      have hn : gs.flatten.Nodup := hdist.of_map _
      rw [esum_netFn, net_turn (edges_nodup hn) (fun e he => edges_swap hn h3 he), if_pos hm] at h1
      simp only [trisR, List.map_nil, List.flatMap_nil, List.sum_nil] at h1
      split at h1 <;> omega
    have hcalls : ∀ w, callsR w fs ≠ [] := by
      intro w
      obtain ⟨f, fs', rfl⟩ := List.exists_cons_of_ne_nil hfs
      have := hlen w f (by simp)
      rcases hr : fanR w f with _ | ⟨a, _ | ⟨b, _ | ⟨c, l⟩⟩⟩
      · rw [hr] at this; simp at this
      · rw [hr] at this; simp at this
      · rw [hr] at this; simp at this
      · simp [callsR, hr, fanCalls]
    refine ⟨fs, fwd, hF, htwo, hM, hcalls _, hcalls, ⟨?_, (p.elems.length + 3) ^ 2, fun fuel hf => ?_⟩, ?_, hw⟩
    · intro f hf
      obtain ⟨f', hf', rfl⟩ := List.mem_map.1 hf
      simpa using hlen _ f' hf'
    · rw [hF (recorder I .counterclockwise) fuel hf]
      have hs : StartsNew (callsR Winding.counterclockwise fs) := startsNew_fans _
      show (play (recorder I .counterclockwise) (callsR .counterclockwise fs) (.ok ())).2 = _
      rw [play_recorder _ _ hs]
      have := hcalls .counterclockwise
      change recOutcome (callsR .counterclockwise fs) (.ok ()) = .ok (callsR .counterclockwise fs)
      rcases hc : callsR Winding.counterclockwise fs with _ | ⟨c, cs⟩
      · exact absurd hc this
      · rfl
    · unfold trisR
      rw [List.map_flatMap, List.flatMap_map, List.flatMap_map]
      simp only [fanTriangles_map]
  obtain ⟨w, hw, -⟩ := exists_sky (gs.map (List.map Prod.snd))
  obtain ⟨fs, fwd, hF, htwo, hM, -, hcalls, hret, htri, -⟩ := key w hw
  obtain ⟨-, h1, h2, h3⟩ := hM.toI hd
  refine ⟨_, fun e => fwd ((e.1, place p xy e.1), (e.2, place p xy e.2)), hret, ⟨?_, ?_, htri ▸ hM.toI_dist hd, htri ▸ hM.toI_flat hd, ?_, ?_, ?_, hM.toI_low hd⟩, fun F => ⟨callsR F.winding fs, startsNew_fans _, hcalls _, ?_, fun fuel hf => hF F fuel hf⟩⟩
  · rw [← htri]; exact h1
  · rw [← htri]; exact h2
  · rw [← htri]; exact h3
  · intro q hq
    rw [placed_map hd] at hq
    obtain ⟨fs', fwd', hF', htwo', hM', -, hcalls', hret', htri', hwind⟩ := key q hq
    rw [hret.unique hret', ← htri']
    have e1 := (hM'.toI hd).1
    rw [e1, List.map_map] at hwind
    exact hwind
  · intro W hW
    rw [← htri, List.length_map]
    exact hM.toI_len hd W hW
  · intro h
    rw [h]; rfl

end Tri
