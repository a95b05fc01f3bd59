import Verif.Proof.Triangles

/-!
# Polygons in another order

What changes, and what does not, if the vertices of a polygon are listed from another start or in the opposite
direction, and if the polygons change places.
-/

namespace Tri

variable {I K : Type} [Field K] [LinearOrder K] [IsStrictOrderedRing K]

theorem cycleEdges_rot_one {α : Type} (x : α) (l : List α) : (cycleEdges (l ++ [x])).Perm (cycleEdges (x :: l)) := by
  rcases l with _ | ⟨y, t⟩
  · exact .refl _
  · have h1 : cycleEdges (y :: t ++ [x]) = (y :: t).zip (t ++ [x]) ++ [(x, y)] := by
      unfold cycleEdges
      rw [show (y :: t ++ [x]).tail ++ (y :: t ++ [x]).head?.toList = (t ++ [x]) ++ [y] by simp,
        List.zip_append (by simp)]
      rfl
    have h2 : cycleEdges (x :: y :: t) = (x, y) :: (y :: t).zip (t ++ [x]) := by
      unfold cycleEdges
      simp
    rw [h1, h2]
    exact List.perm_append_comm

theorem cycleEdges_rot {α : Type} : ∀ a b : List α, (cycleEdges (b ++ a)).Perm (cycleEdges (a ++ b))
  | [], b => by simp
  | x :: a, b => by
    have h1 := cycleEdges_rot a (b ++ [x])
    have h2 := cycleEdges_rot_one x (a ++ b)
    rw [List.append_assoc, ← List.append_assoc a] at h1
    exact h1.trans h2

theorem cycleEdges_rev {α : Type} (l : List α) : (cycleEdges l.reverse).Perm ((cycleEdges l).map Prod.swap) := by
  rcases l with _ | ⟨a, l⟩
  · exact .refl _
  · rw [List.reverse_cons]
    refine (cycleEdges_rot_one a l.reverse).trans ?_
    rw [cycleEdges_eq, cycleEdges_eq, show a :: l.reverse ++ [a] = (a :: l ++ [a]).reverse by simp, pairs_reverse]
    exact List.reverse_perm _

theorem SameCycle.perm {α : Type} {g g' : List α} (h : SameCycle g g') : g'.Perm g := by
  obtain ⟨a, b, rfl, rfl | rfl⟩ := h
  · exact List.perm_append_comm
  · exact (List.reverse_perm _).trans List.perm_append_comm

theorem SameCycle.edges {α : Type} {g g' : List α} (h : SameCycle g g') :
    (cycleEdges g').Perm (cycleEdges g) ∨ (cycleEdges g').Perm ((cycleEdges g).map Prod.swap) := by
  obtain ⟨a, b, rfl, rfl | rfl⟩ := h
  · exact .inl (cycleEdges_rot a b)
  · exact .inr ((cycleEdges_rev _).trans ((cycleEdges_rot a b).map _))

theorem same_perm {α : Type} {hs gs : List (List α)} (h : List.Forall₂ SameCycle hs gs) : gs.flatten.Perm hs.flatten := by
  induction h with
  | nil => exact .refl _
  | cons h1 _ ih => rw [List.flatten_cons, List.flatten_cons]; exact h1.perm.append ih

theorem same_of {α : Type} {hs gs : List (List α)} (h : List.Forall₂ SameCycle hs gs) :
    ∀ g ∈ gs, ∃ g' ∈ hs, SameCycle g' g := by
  induction h with
  | nil => simp
  | cons h1 _ ih =>
    intro g hg
    rcases List.mem_cons.1 hg with rfl | hg
    · exact ⟨_, by simp, h1⟩
    · obtain ⟨g', h3, h4⟩ := ih g hg
      exact ⟨g', by simp [h3], h4⟩

theorem same_edge {α : Type} {hs gs : List (List α)} (h : List.Forall₂ SameCycle hs gs) {e : α × α}
    (he : e ∈ gs.flatMap cycleEdges) : e ∈ hs.flatMap cycleEdges ∨ e.swap ∈ hs.flatMap cycleEdges := by
  induction h with
  | nil => simp at he
  | cons h1 _ ih =>
    rw [List.flatMap_cons] at he ⊢
    rcases List.mem_append.1 he with he | he
    · rcases h1.edges with h2 | h2
      · exact .inl (List.mem_append_left _ (h2.mem_iff.1 he))
      · obtain ⟨e', he', rfl⟩ := List.mem_map.1 (h2.mem_iff.1 he)
        exact .inr (List.mem_append_left _ (by simpa using he'))
    · rcases ih he with h2 | h2
      · exact .inl (List.mem_append_right _ h2)
      · exact .inr (List.mem_append_right _ h2)

theorem same_filter {α : Type} {hs gs : List (List α)} (h : List.Forall₂ SameCycle hs gs) (P : α × α → Bool)
    (hP : ∀ e, P e.swap = P e) : ((gs.flatMap cycleEdges).filter P).length = ((hs.flatMap cycleEdges).filter P).length := by
  induction h with
  | nil => rfl
  | cons h1 _ ih =>
    rw [List.flatMap_cons, List.flatMap_cons, List.filter_append, List.filter_append, List.length_append, List.length_append, ih]
    congr 1
    rcases h1.edges with h2 | h2
    · exact (h2.filter _).length_eq
    · rw [(h2.filter _).length_eq, List.filter_map, List.length_map]
      congr 2
      funext e
      exact hP e

theorem inside_same {hs gs : List (List (Coords K))} (h : List.Forall₂ SameCycle hs gs) (q : Coords K) :
    Inside gs q ↔ Inside hs q := by
  unfold Inside
  rw [same_filter h _ fun e => by simp [crosses_swap]]

theorem ValidPolys.perm {gs hs : List (List (Coords K))} (hv : ValidPolys gs) (h : gs.Perm hs) : ValidPolys hs := by
  have hm : ∀ e ∈ hs.flatMap cycleEdges, e ∈ gs.flatMap cycleEdges := fun e he =>
    (h.flatMap_right cycleEdges).mem_iff.2 he
  exact ⟨fun g hg => hv.three g (h.mem_iff.2 hg), (h.flatten).nodup_iff.1 hv.distinct,
    fun e he f hf => hv.meet e (hm e he) f (hm f hf)⟩

theorem onSeg_swap_iff {e : Coords K × Coords K} {q : Coords K} : OnSeg e.swap q ↔ OnSeg e q := ⟨OnSeg.swap, OnSeg.swap⟩

theorem ValidPolys.same {hs gs : List (List (Coords K))} (hv : ValidPolys hs) (h : List.Forall₂ SameCycle hs gs) :
    ValidPolys gs := by
  have h3 : ∀ g ∈ gs, 3 ≤ g.length := by
    intro g hg
    obtain ⟨g', hg', hS⟩ := same_of h g hg
    rw [hS.perm.length_eq]
    exact hv.three g' hg'
  have hn : gs.flatten.Nodup := (same_perm h).nodup_iff.2 hv.distinct
  refine ⟨h3, hn, fun e he f hf hne q h1 h2 => ?_⟩
  have key : ∀ e' f' : Coords K × Coords K, (e' = e ∨ e' = e.swap) → (f' = f ∨ f' = f.swap) → e' ∈ hs.flatMap cycleEdges →
      f' ∈ hs.flatMap cycleEdges → (q = e.1 ∨ q = e.2) ∧ (q = f.1 ∨ q = f.2) := by
    intro e' f' he' hf' k1 k2
    have hne' : e' ≠ f' := by
      rcases he' with rfl | rfl <;> rcases hf' with rfl | rfl
      · exact hne
      · intro h; rw [h] at he
        exact edges_swap hn h3 hf he
      · intro h; rw [← h] at hf
        exact edges_swap hn h3 he hf
      · intro h; exact hne (Prod.swap_injective h)
    have := hv.meet e' k1 f' k2 hne' q (by rcases he' with rfl | rfl <;> simp [onSeg_swap_iff, h1])
      (by rcases hf' with rfl | rfl <;> simp [onSeg_swap_iff, h2])
    obtain ⟨m1, m2⟩ := this
    refine ⟨?_, ?_⟩
    · rcases he' with rfl | rfl
      · exact m1
      · exact m1.symm
    · rcases hf' with rfl | rfl
      · exact m2
      · exact m2.symm
  rcases same_edge h he with k1 | k1 <;> rcases same_edge h hf with k2 | k2
  · exact key _ _ (.inl rfl) (.inl rfl) k1 k2
  · exact key _ _ (.inl rfl) (.inr rfl) k1 k2
  · exact key _ _ (.inr rfl) (.inl rfl) k1 k2
  · exact key _ _ (.inr rfl) (.inr rfl) k1 k2

theorem ValidPolys.rearranged {gs gs' : List (List (Coords K))} (hv : ValidPolys gs) (h : Rearranged gs gs') :
    ValidPolys gs' := by
  obtain ⟨hs, h1, h2⟩ := h
  exact (hv.perm h1).same h2

theorem inside_rearranged {gs gs' : List (List (Coords K))} (h : Rearranged gs gs') (q : Coords K) :
    Inside gs' q ↔ Inside gs q := by
  obtain ⟨hs, h1, h2⟩ := h
  exact (inside_same h2 q).trans (inside_perm h1 q).symm

theorem shoelace_same {g g' : List (Coords K)} (h : SameCycle g g') : |shoelace g'| = |shoelace g| := by
  unfold shoelace
  rcases h.edges with h1 | h1
  · rw [(h1.map _).sum_eq]
  · rw [(h1.map _).sum_eq, List.map_map, ← abs_neg]
    congr 1
    induction cycleEdges g with
    | nil => simp
    | cons e l ih =>
      rw [List.map_cons, List.map_cons, List.sum_cons, List.sum_cons, neg_add, ih]
      congr 1
      simp only [Function.comp_apply, Prod.fst_swap, Prod.snd_swap]
      ring

/-- The interior of a polygon is on the same side all along. -/
theorem single_side {g : List (Coords K)} (hv : ValidPolys [g]) :
    ∃ b : Bool, ∀ u v, (u, v) ∈ cycleEdges g → Near fun t => Inside [g] (leftOf u v t) ↔ b = true := by
  obtain ⟨pl, gI, T, fwd, hg, hM⟩ := exists_mesh hv (by simp)
  have hv' : ValidPolys (gI.map (List.map pl)) := hg.symm ▸ hv
  obtain ⟨g', rfl⟩ : ∃ g', gI = [g'] := by
    rcases gI with _ | ⟨g', _ | ⟨x, l⟩⟩
    · simp at hg
    · exact ⟨g', rfl⟩
    · simp at hg
  have hg' : g'.map pl = g := by simpa using hg
  refine ⟨dirOf fwd g', fun u v he => ?_⟩
  rw [← hg', cycleEdges_map] at he
  obtain ⟨e, he1, he2⟩ := List.mem_map.1 he
  have hmem : e ∈ [g'].flatMap cycleEdges := by simpa using he1
  have := hM.side hv' hmem
  rw [hg] at this
  refine this.imp fun t _ k => ?_
  rw [← hM.dirOf hv' (by simp) e he1]
  have e3 : (u, v) = (pl e.1, pl e.2) := he2.symm
  rw [(Prod.mk.inj e3).1, (Prod.mk.inj e3).2]
  exact k.1

/-- A hole lies in the interior of the others with all its vertices. -/
theorem isHole_vertex {gs : List (List (Coords K))} (hv : ValidPolys gs) {i : Nat} {g : List (Coords K)} (hi : gs[i]? = some g)
    {u : Coords K} (hu : u ∈ g) : isHole gs i = true ↔ Inside (gs.eraseIdx i) u := by
  have hvs : ValidPolys [g] := hv.sub (List.singleton_sublist.2 (List.mem_of_getElem? hi))
  obtain ⟨b, hb⟩ := single_side hvs
  obtain ⟨pl, gI, T, fwd, hg, hM⟩ := exists_mesh hv (by rintro rfl; simp at hi)
  have hv' : ValidPolys (gI.map (List.map pl)) := hg.symm ▸ hv
  have hi' := hi
  rw [← hg, List.getElem?_map] at hi'
  obtain ⟨g', hg1, hg2⟩ := Option.map_eq_some_iff.1 hi'
  have hg' : g' ∈ gI := List.mem_of_getElem? hg1
  have key : ∀ u v, (u, v) ∈ cycleEdges g → (Inside (gs.eraseIdx i) u ↔ ¬ (b = true ↔ Tri.dirOf fwd g' = true)) := by
    intro u v he
    have he' := he
    rw [← hg2, cycleEdges_map] at he'
    obtain ⟨e, he1, he2⟩ := List.mem_map.1 he'
    have hmem : e ∈ gI.flatMap cycleEdges := List.mem_flatMap.2 ⟨g', hg', he1⟩
    have hs := hM.side hv' hmem
    have e3 : (u, v) = (pl e.1, pl e.2) := he2.symm
    rw [hg, ← (Prod.mk.inj e3).1, ← (Prod.mk.inj e3).2] at hs
    obtain ⟨t, -, k1, k2, k3⟩ := (hs.and ((hb u v he).and (near_others hv hi he))).exists
    have k4 := inside_split hi (leftOf u v t)
    rw [k1.1, k2, k3, hM.dirOf hv' hg' _ he1] at k4
    rw [k4]
    generalize Inside (gs.eraseIdx i) u = X
    by_cases hX : X <;> cases b <;> simp [hX]
  have out : ∀ u ∈ g, Inside (gs.eraseIdx i) u ↔ ¬ (b = true ↔ Tri.dirOf fwd g' = true) := by
    intro u hu
    rw [← cycleEdges_fst g] at hu
    obtain ⟨e, he, rfl⟩ := List.mem_map.1 hu
    exact key e.1 e.2 he
  obtain ⟨a, c, ha, -⟩ := first_edge (hv.three g (List.mem_of_getElem? hi))
  have h1 : isHole gs i = true ↔ Inside (gs.eraseIdx i) a := by
    unfold isHole
    rw [hi]
    simp [ha]
  rw [h1, out u hu, out a (List.mem_of_mem_head? ha)]

/-- A sum over the polygons, each one with the list of the others. -/
def polySum {α G : Type} [AddCommMonoid G] (F : List α → List (List α) → G) (gs : List (List α)) : G :=
  (gs.mapIdx fun i g => F g (gs.eraseIdx i)).sum

theorem polySum_cons {α G : Type} [AddCommMonoid G] (F : List α → List (List α) → G) (a : List α) (l : List (List α)) :
    polySum F (a :: l) = F a l + polySum (fun g r => F g (a :: r)) l := by
  unfold polySum
  rw [List.mapIdx_cons, List.sum_cons]
  rfl

theorem polySum_perm {α G : Type} [AddCommMonoid G] {gs hs : List (List α)} (h : gs.Perm hs) :
    ∀ F : List α → List (List α) → G, (∀ g r r', r.Perm r' → F g r = F g r') → polySum F gs = polySum F hs := by
  induction h with
  | nil => intro F _; rfl
  | cons a h ih =>
    intro F hF
    rw [polySum_cons, polySum_cons, hF _ _ _ h, ih (fun g r => F g (a :: r)) fun g r r' hr => hF _ _ _ (hr.cons a)]
  | swap a b l =>
    intro F hF
    simp only [polySum_cons]
    rw [show (fun (g : List α) r => F g (b :: a :: r)) = fun g r => F g (a :: b :: r) from
      funext fun g => funext fun r => hF _ _ _ (.swap a b r)]
    exact add_left_comm _ _ _
  | trans _ _ ih1 ih2 => intro F hF; rw [ih1 F hF, ih2 F hF]

/-- Whether a polygon would be a hole among others. -/
def holeIn (g : List (Coords K)) (r : List (List (Coords K))) : Bool := match g.head? with
  | some v => decide (Inside r v)
  | none => false

theorem isHole_eq {gs : List (List (Coords K))} {i : Nat} {g : List (Coords K)} (hi : gs[i]? = some g) :
    isHole gs i = holeIn g (gs.eraseIdx i) := by
  unfold isHole holeIn
  rw [hi]
  rfl

theorem holeIn_perm (g : List (Coords K)) {r r' : List (List (Coords K))} (h : r.Perm r') : holeIn g r = holeIn g r' := by
  unfold holeIn
  cases g.head? with
  | none => rfl
  | some v => simp only [inside_perm h v]

theorem regionArea_eq (gs : List (List (Coords K))) :
    regionArea gs = polySum (fun g r => (if holeIn g r then -1 else 1) * |shoelace g|) gs := by
  unfold regionArea polySum
  rw [map_range_getD (fun i g => (if isHole gs i then -1 else 1) * |shoelace g|)]
  refine congrArg List.sum (List.ext_getElem (by simp) fun i h1 h2 => ?_)
  simp only [List.length_mapIdx] at h1
  rw [List.getElem_mapIdx, List.getElem_mapIdx, isHole_eq (List.getElem?_eq_getElem h1)]

theorem countP_sum {α : Type} (f : α → Bool) : ∀ l : List α, l.countP f = (l.map fun a => if f a then 1 else 0).sum
  | [] => rfl
  | a :: l => by
    rw [List.countP_cons, countP_sum f l, List.map_cons, List.sum_cons]
    omega

theorem holes_eq (gs : List (List (Coords K))) : holes gs = polySum (fun g r => if holeIn g r then 1 else 0) gs := by
  unfold holes polySum
  rw [countP_sum, map_range_getD (fun i _ => if isHole gs i then 1 else 0) []]
  refine congrArg List.sum (List.ext_getElem (by simp) fun i h1 h2 => ?_)
  simp only [List.length_mapIdx] at h1
  rw [List.getElem_mapIdx, List.getElem_mapIdx, isHole_eq (List.getElem?_eq_getElem h1)]

theorem forall₂_eraseIdx {α : Type} {R : α → α → Prop} {l l' : List α} (h : List.Forall₂ R l l') :
    ∀ i, List.Forall₂ R (l.eraseIdx i) (l'.eraseIdx i) := by
  induction h with
  | nil => intro i; exact .nil
  | cons h1 h2 ih =>
    intro i
    cases i with
    | zero => exact h2
    | succ i => exact .cons h1 (ih i)

theorem isHole_same {hs gs : List (List (Coords K))} (hv : ValidPolys hs) (h : List.Forall₂ SameCycle hs gs) (i : Nat) :
    isHole gs i = isHole hs i := by
  have hv' := hv.same h
  rcases Nat.lt_or_ge i hs.length with hi | hi
  · have hi' : i < gs.length := h.length_eq ▸ hi
    have hS : SameCycle hs[i] gs[i] := List.forall₂_iff_get.1 h |>.2 i hi hi'
    obtain ⟨a, c, ha, -⟩ := first_edge (hv.three hs[i] (List.getElem_mem hi))
    have ha' := List.mem_of_mem_head? ha
    have h1 := isHole_vertex hv (List.getElem?_eq_getElem hi) ha'
    have h2 := isHole_vertex hv' (List.getElem?_eq_getElem hi') (hS.perm.mem_iff.2 ha')
    rw [inside_same (forall₂_eraseIdx h i), ← h1] at h2
    exact Bool.eq_iff_iff.2 h2
  · have hi' : gs.length ≤ i := h.length_eq ▸ hi
    unfold isHole
    rw [List.getElem?_eq_none hi, List.getElem?_eq_none hi']
    rfl

theorem holes_rearranged {gs gs' : List (List (Coords K))} (hv : ValidPolys gs) (h : Rearranged gs gs') :
    holes gs' = holes gs := by
  obtain ⟨hs, h1, h2⟩ := h
  rw [holes_eq gs, polySum_perm h1 _ fun g r r' hr => by rw [holeIn_perm g hr], ← holes_eq]
  unfold holes
  rw [h2.length_eq]
  exact List.countP_congr fun i _ => by rw [isHole_same (hv.perm h1) h2]

theorem regionArea_rearranged {gs gs' : List (List (Coords K))} (hv : ValidPolys gs) (h : Rearranged gs gs') :
    regionArea gs' = regionArea gs := by
  obtain ⟨hs, h1, h2⟩ := h
  rw [regionArea_eq gs, polySum_perm h1 _ fun g r r' hr => by rw [holeIn_perm g hr], ← regionArea_eq]
  unfold regionArea
  rw [h2.length_eq]
  refine congrArg List.sum (List.map_congr_left fun i hi => ?_)
  rw [isHole_same (hv.perm h1) h2]
  have hi' : i < gs'.length := by simpa using hi
  have hi'' : i < hs.length := h2.length_eq.symm ▸ hi'
  have hS : SameCycle hs[i] gs'[i] := List.forall₂_iff_get.1 h2 |>.2 i hi'' hi'
  rw [show gs'.getD i [] = gs'[i] by simp [hi'], show hs.getD i [] = hs[i] by simp [hi''], shoelace_same hS]

end Tri
