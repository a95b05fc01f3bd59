import Verif.Proof.Nesting

/-!
# How many triangles

The sum over the vertices that gives the number of triangles is, polygon by polygon, the number of turns the
polygon makes; one turn for each, counted positive or negative after its direction.
-/

namespace Tri

variable {I K : Type} [Field K] [LinearOrder K] [IsStrictOrderedRing K]

theorem around_map {α β : Type} [Inhabited α] [Inhabited β] (f : α → β) {g : List α} (h : 0 < g.length) (i : Nat) :
    around (g.map f) i = f (around g i) := by
  have h1 := around_get (g := g.map f) (by simpa using h) i
  rw [List.length_map, List.getElem?_map, around_get h] at h1
  simpa using h1.symm

theorem sum_listRange (F : Nat → Int) : ∀ n, ∑ i ∈ Finset.range n, F i = ((List.range n).map F).sum
  | 0 => rfl
  | n + 1 => by rw [Finset.sum_range_succ, sum_listRange F n, List.range_succ]; simp

theorem sum_around {α : Type} [Inhabited α] (W : α → Int) {g : List α} (h : 0 < g.length) :
    (g.map W).sum = ∑ i ∈ Finset.range g.length, W (around g (i + 1)) := by
  have h1 := sum_shift (F := fun i => W (around g i)) (n := g.length) (fun i => by rw [around_per]) 1
  simp only [Nat.add_comm 1] at h1
  rw [h1, sum_listRange]
  refine congrArg List.sum (List.ext_getElem (by simp) fun i h2 h3 => ?_)
  simp only [List.length_map] at h2
  simp only [List.getElem_map, List.getElem_range, around]
  rw [Nat.mod_eq_of_lt h2]
  simp [h2]

section

variable [DecidableEq I] {pl : I → Coords K} {gI : List (List I)} {T : List (I × I × I)} {fwd : I × I → Bool}

omit [DecidableEq I] in
theorem turn_true {e : I × I} (h : fwd e = true) : turn fwd e = e := by unfold turn; rw [if_pos h]

omit [DecidableEq I] in
theorem turn_false {e : I × I} (h : fwd e = false) : turn fwd e = e.swap := by
  unfold turn; rw [if_neg (by simp [h])]

/-- One arrow ends at a vertex. -/
theorem MeshI.arrow_in (h : MeshI pl gI T fwd) (hv : ValidPolys (gI.map (List.map pl))) {x x' : I × I}
    (hx : x ∈ (gI.flatMap cycleEdges).map (turn fwd)) (hx' : x' ∈ (gI.flatMap cycleEdges).map (turn fwd))
    (hxx : x.2 = x'.2) : x = x' := by
  have hn := valid_nodupI hv
  obtain ⟨e, he, rfl⟩ := List.mem_map.1 hx
  obtain ⟨e', he', rfl⟩ := List.mem_map.1 hx'
  cases h1 : fwd e <;> cases h2 : fwd e'
  · rw [turn_false h1, turn_false h2] at hxx ⊢
    rw [edges_fst hn he he' hxx]
  · rw [turn_false h1, turn_true h2] at hxx
    have := h.next hv he' he hxx.symm
    rw [h1, h2] at this; cases this
  · rw [turn_true h1, turn_false h2] at hxx
    have := h.next hv he he' hxx
    rw [h1, h2] at this; cases this
  · rw [turn_true h1, turn_true h2] at hxx ⊢
    exact edges_snd hn he he' hxx

/-- One arrow begins at a vertex. -/
theorem MeshI.arrow_out (h : MeshI pl gI T fwd) (hv : ValidPolys (gI.map (List.map pl))) {x x' : I × I}
    (hx : x ∈ (gI.flatMap cycleEdges).map (turn fwd)) (hx' : x' ∈ (gI.flatMap cycleEdges).map (turn fwd))
    (hxx : x.1 = x'.1) : x = x' := by
  have hn := valid_nodupI hv
  obtain ⟨e, he, rfl⟩ := List.mem_map.1 hx
  obtain ⟨e', he', rfl⟩ := List.mem_map.1 hx'
  cases h1 : fwd e <;> cases h2 : fwd e'
  · rw [turn_false h1, turn_false h2] at hxx ⊢
    rw [edges_snd hn he he' hxx]
  · rw [turn_false h1, turn_true h2] at hxx
    have := h.next hv he he' hxx
    rw [h1, h2] at this; cases this
  · rw [turn_true h1, turn_false h2] at hxx
    have := h.next hv he' he hxx.symm
    rw [h1, h2] at this; cases this
  · rw [turn_true h1, turn_true h2] at hxx ⊢
    exact edges_fst hn he he' hxx

/-- The turn at each vertex. -/
theorem MeshI.exists_turn (h : MeshI pl gI T fwd) (hv : ValidPolys (gI.map (List.map pl))) :
    ∃ W : I → Int, ∀ x ∈ (gI.flatMap cycleEdges).map (turn fwd), ∀ y ∈ (gI.flatMap cycleEdges).map (turn fwd),
      x.2 = y.1 → W x.2 = turnR (pl x.1) (pl x.2) (pl y.2) := by
  have : ∀ v : I, ∃ w : Int, ∀ x ∈ (gI.flatMap cycleEdges).map (turn fwd), ∀ y ∈ (gI.flatMap cycleEdges).map (turn fwd),
      x.2 = v → y.1 = v → w = turnR (pl x.1) (pl x.2) (pl y.2) := by
    intro v
    by_cases hc : ∃ x ∈ (gI.flatMap cycleEdges).map (turn fwd), ∃ y ∈ (gI.flatMap cycleEdges).map (turn fwd),
        x.2 = v ∧ y.1 = v
    · obtain ⟨x, hx, y, hy, h1, h2⟩ := hc
      refine ⟨turnR (pl x.1) (pl x.2) (pl y.2), fun x' hx' y' hy' h1' h2' => ?_⟩
      rw [h.arrow_in hv hx hx' (h1.trans h1'.symm), h.arrow_out hv hy hy' (h2.trans h2'.symm)]
    · exact ⟨0, fun x hx y hy h1 h2 => (hc ⟨x, hx, y, hy, h1, h2⟩).elim⟩
  choose W hW using this
  exact ⟨W, fun x hx y hy hxy => hW _ x hx y hy rfl hxy.symm⟩

/-- The two arrows at a vertex of a polygon. -/
theorem MeshI.arrows [Inhabited I] (h : MeshI pl gI T fwd) (hv : ValidPolys (gI.map (List.map pl))) {g : List I} (hg : g ∈ gI) (i : Nat) :
    (Tri.dirOf fwd g = true → (around g i, around g (i + 1)) ∈ (gI.flatMap cycleEdges).map (turn fwd)) ∧
    (Tri.dirOf fwd g = false → (around g (i + 1), around g i) ∈ (gI.flatMap cycleEdges).map (turn fwd)) := by
  have h3 := valid_three hv g hg
  have he := around_edge (g := g) (by omega) i
  have hm : (around g i, around g (i + 1)) ∈ gI.flatMap cycleEdges := List.mem_flatMap.2 ⟨g, hg, he⟩
  have hd := h.dirOf hv hg _ he
  refine ⟨fun hb => ?_, fun hb => ?_⟩
  · rw [hb] at hd
    exact List.mem_map.2 ⟨_, hm, turn_true hd⟩
  · rw [hb] at hd
    exact List.mem_map.2 ⟨_, hm, turn_false hd⟩

/-- The turns of one polygon. -/
theorem MeshI.turn_sum (h : MeshI pl gI T fwd) (hv : ValidPolys (gI.map (List.map pl))) {W : I → Int}
    (hW : ∀ x ∈ (gI.flatMap cycleEdges).map (turn fwd), ∀ y ∈ (gI.flatMap cycleEdges).map (turn fwd),
      x.2 = y.1 → W x.2 = turnR (pl x.1) (pl x.2) (pl y.2)) {g : List I} (hg : g ∈ gI) :
    (g.map W).sum = (if Tri.dirOf fwd g then 1 else -1) * turning (g.map pl) := by
  have h3 := valid_three hv g hg
  have hvs : ValidPolys [g.map pl] := hv.sub (List.singleton_sublist.2 (List.mem_map_of_mem hg))
  have h0 : 0 < g.length := by omega
  have : Inhabited I := ⟨g[0]⟩
  rw [sum_around W h0]
  cases hb : Tri.dirOf fwd g
  · simp only [Bool.false_eq_true, if_false]
    unfold turning
    rw [neg_one_mul, ← Finset.sum_neg_distrib, List.length_map]
    refine Finset.sum_congr rfl fun i _ => ?_
    have := hW _ ((h.arrows hv hg (i + 1)).2 hb) _ ((h.arrows hv hg i).2 hb) rfl
    simp only at this
    rw [this, turnR_rev, around_map pl h0, around_map pl h0, around_map pl h0]
  · simp only [if_true, one_mul]
    rw [← turning_right hvs, List.length_map]
    refine Finset.sum_congr rfl fun i _ => ?_
    have := hW _ ((h.arrows hv hg i).1 hb) _ ((h.arrows hv hg (i + 1)).1 hb) rfl
    simp only at this
    rw [this, around_map pl h0, around_map pl h0, around_map pl h0]

omit [DecidableEq I] in
theorem sum_map_flatten (W : I → Int) : ∀ gs : List (List I), (gs.flatten.map W).sum = (gs.map fun g => (g.map W).sum).sum
  | [] => rfl
  | g :: gs => by rw [List.flatten_cons, List.map_append, List.sum_append, sum_map_flatten W gs]; rfl

theorem MeshI.length_turning (h : MeshI pl gI T fwd) (hv : ValidPolys (gI.map (List.map pl))) :
    (T.length : Int) = gI.flatten.length -
      2 * (gI.map fun g => (if Tri.dirOf fwd g then 1 else -1) * turning (g.map pl)).sum := by
  obtain ⟨W, hW⟩ := h.exists_turn hv
  rw [h.len W hW, sum_map_flatten,
    List.map_congr_left (g := fun g => (if Tri.dirOf fwd g then 1 else -1) * turning (g.map pl)) fun g hg => h.turn_sum hv hW hg]

/-- A single polygon makes one turn, to the left in the direction of the arrows. -/
theorem MeshI.turning_single {g : List I} (h : MeshI pl [g] T fwd) (hv : ValidPolys [g.map pl]) :
    turning (g.map pl) = if Tri.dirOf fwd g then 1 else -1 := by
  have hv' : ValidPolys ([g].map (List.map pl)) := hv
  have h3 := valid_three hv' g (by simp)
  have h0 : 0 < g.length := by omega
  have : Inhabited I := ⟨g[0]⟩
  obtain ⟨k, hlow, hne, ht⟩ := turning_valid hv
  rw [ht]
  simp only [around_map pl h0] at hlow hne ⊢
  obtain ⟨x, hx, y, hy, h1, h2, ho⟩ := h.low (around g (k + 1)) (by simpa using around_mem h0 (k + 1)) (by
    intro z hz hzv
    have hz' : z ∈ g := by simpa using hz
    refine hlow _ (List.mem_map_of_mem hz') fun e => hzv ?_
    have hn : (g.map pl).Nodup := by simpa using hv.distinct
    exact List.inj_on_of_nodup_map hn hz' (around_mem h0 _) e)
  have hf := fun i => (h.arrows hv' (g := g) (by simp) i)
  cases hb : Tri.dirOf fwd g
  · rw [h.arrow_in hv' hx ((hf (k + 1)).2 hb) h1, h.arrow_out hv' hy ((hf k).2 hb) h2] at ho
    simp only at ho
    rw [if_neg, if_neg (by simp)]
    have : orient (pl (around g k)) (pl (around g (k + 1))) (pl (around g (k + 2))) =
      - orient (pl (around g (k + 2))) (pl (around g (k + 1))) (pl (around g k)) := by unfold orient; ring
    rw [this]
    have : k + 1 + 1 = k + 2 := rfl
    rw [this] at ho
    linarith
  · rw [h.arrow_in hv' hx ((hf k).1 hb) h1, h.arrow_out hv' hy ((hf (k + 1)).1 hb) h2] at ho
    simp only at ho
    rw [if_pos ho, if_pos rfl]

end

/-- The direction in which a polygon turns, and the side its interior is on. -/
theorem single_turn {g : List (Coords K)} (hv : ValidPolys [g]) {u v : Coords K} (he : (cycleEdges g)[0]? = some (u, v)) :
    ∃ b : Bool, Near (fun t => Inside [g] (leftOf u v t) ↔ b = true) ∧ turning g = if b then 1 else -1 := by
  obtain ⟨pl, gI, T, fwd, hg, hM⟩ := exists_mesh hv (by simp)
  have hv' : ValidPolys (gI.map (List.map pl)) := hg.symm ▸ hv
  obtain ⟨g', rfl⟩ : ∃ g', gI = [g'] := by
    rcases gI with _ | ⟨g', _ | ⟨x, l⟩⟩
    · simp at hg
    · exact ⟨g', rfl⟩
    · simp at hg
  have hg' : g'.map pl = g := by simpa using hg
  rw [← hg', cycleEdges_map, List.getElem?_map] at he
  obtain ⟨e, he1, he2⟩ := Option.map_eq_some_iff.1 he
  have hmem : e ∈ [g'].flatMap cycleEdges := by simpa using List.mem_of_getElem? he1
  refine ⟨dirOf fwd g', ?_, ?_⟩
  · have := hM.side hv' hmem
    rw [hg] at this
    refine this.imp fun t _ k => ?_
    rw [← hM.dirOf hv' (by simp) e (List.mem_of_getElem? he1)]
    have e3 : (u, v) = (pl e.1, pl e.2) := he2.symm
    rw [(Prod.mk.inj e3).1, (Prod.mk.inj e3).2]
    exact k.1
  · rw [← hg']
    exact hM.turning_single hv'

section

variable [DecidableEq I] {pl : I → Coords K} {gI : List (List I)} {T : List (I × I × I)} {fwd : I × I → Bool}

/-- The direction of a polygon, its turn and whether it is a hole. -/
theorem MeshI.turn_hole (h : MeshI pl gI T fwd) (hv : ValidPolys (gI.map (List.map pl))) {i : Nat} {g : List I}
    (hi : gI[i]? = some g) :
    (if Tri.dirOf fwd g then 1 else -1) * turning (g.map pl) =
      (if isHole (gI.map (List.map pl)) i then -1 else 1 : Int) := by
  have hg : g ∈ gI := List.mem_of_getElem? hi
  obtain ⟨a, b, ha, hab⟩ := first_edge (valid_three hv g hg)
  have hi' : (gI.map (List.map pl))[i]? = some (g.map pl) := by rw [List.getElem?_map, hi]; rfl
  have hab' : (cycleEdges (g.map pl))[0]? = some (pl a, pl b) := by
    rw [cycleEdges_map, List.getElem?_map, hab]; rfl
  have hmem : (a, b) ∈ gI.flatMap cycleEdges := List.mem_flatMap.2 ⟨g, hg, List.mem_of_getElem? hab⟩
  have hvs : ValidPolys [g.map pl] := hv.sub (List.singleton_sublist.2 (List.mem_of_getElem? hi'))
  obtain ⟨c, hc1, hc2⟩ := single_turn hvs hab'
  have hole : isHole (gI.map (List.map pl)) i = true ↔ Inside ((gI.map (List.map pl)).eraseIdx i) (pl a) := by
    unfold isHole
    rw [hi']
    simp [ha]
  obtain ⟨t, -, k1, k2, k3⟩ := ((h.side hv hmem).and (hc1.and (near_others hv hi' (List.mem_of_getElem? hab')))).exists
  have k4 := inside_split hi' (leftOf (pl a) (pl b) t)
  rw [k1.1, k2, k3, ← hole, h.dirOf hv hg _ (List.mem_of_getElem? hab)] at k4
  rw [hc2]
  cases hd : Tri.dirOf fwd g <;> cases hh : isHole (gI.map (List.map pl)) i <;> cases c <;> simp [hd, hh] at k4 ⊢

theorem sum_sign (f : Nat → Bool) : ∀ l : List Nat,
    (l.map fun i => if f i then (-1 : Int) else 1).sum = l.length - 2 * (l.countP f : Nat)
  | [] => rfl
  | a :: l => by
    rw [List.map_cons, List.sum_cons, sum_sign f l, List.countP_cons, List.length_cons]
    cases f a <;> simp <;> omega

/-- **The number of triangles.** -/
theorem MeshI.length (h : MeshI pl gI T fwd) (hv : ValidPolys (gI.map (List.map pl))) :
    T.length + 2 * gI.length = gI.flatten.length + 4 * holes (gI.map (List.map pl)) := by
  have h1 := h.length_turning hv
  have h2 : (gI.map fun g => (if Tri.dirOf fwd g then 1 else -1) * turning (g.map pl)) =
      (List.range gI.length).map fun i => if isHole (gI.map (List.map pl)) i then (-1 : Int) else 1 := by
    refine List.ext_getElem (by simp) fun i h3 h4 => ?_
    simp only [List.length_map] at h3
    rw [List.getElem_map, List.getElem_map, List.getElem_range]
    exact h.turn_hole hv (List.getElem?_eq_getElem h3)
  rw [h2, sum_sign, List.length_range] at h1
  unfold holes
  rw [List.length_map]
  omega

end

end Tri
