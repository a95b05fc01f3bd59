import Verif.Proof.RunBuild
import Verif.Proof.PlaneOf
import Verif.Proof.ChainSum

/-!
# A valid set of polygons is a plane on which the trapezoidation runs
-/

set_option linter.unusedSectionVars false

namespace Tri

variable {I V K : Type} [Field K] [LinearOrder K] [IsStrictOrderedRing K] [DecidableEq I]

attribute [local instance] exact

theorem cycleEdges_fst {α : Type} (l : List α) : (cycleEdges l).map Prod.fst = l := by
  cases l with
  | nil => rfl
  | cons a l => simp [cycleEdges, List.map_fst_zip]

theorem cycleEdges_snd {α : Type} (l : List α) : ((cycleEdges l).map Prod.snd).Perm l := by
  cases l with
  | nil => exact .nil
  | cons a l =>
    have : (cycleEdges (a :: l)).map Prod.snd = l ++ [a] := by
      simp [cycleEdges, List.map_snd_zip]
    rw [this]
    exact List.perm_append_comm (l₁ := l) (l₂ := [a])

theorem cycleEdges_at {α : Type} {l : List α} {k : Nat} {a b : α} (ha : l[k]? = some a)
    (hb : l[(k + 1) % l.length]? = some b) : (cycleEdges l)[k]? = some (a, b) := by
  have hk := (List.getElem?_eq_some_iff.1 ha).1
  cases l with
  | nil => simp at hk
  | cons c l =>
    simp only [cycleEdges, List.tail_cons, List.head?_cons, Option.toList_some]
    rw [List.getElem?_zip_eq_some]
    refine ⟨ha, ?_⟩
    rw [List.length_cons] at hb hk
    by_cases h : k + 1 = l.length + 1
    · rw [h, Nat.mod_self] at hb
      rw [List.getElem?_append_right (by omega), show k - l.length = 0 by omega]
      exact hb
    · rw [Nat.mod_eq_of_lt (by omega)] at hb
      rw [List.getElem?_append_left (by omega)]
      simpa using hb

theorem get_cycleEdges {α : Type} {l : List α} {e : α × α} (h : e ∈ cycleEdges l) :
    ∃ k : Nat, l[k]? = some e.1 ∧ l[(k + 1) % l.length]? = some e.2 := by
  obtain ⟨k, hk⟩ := List.mem_iff_getElem?.1 h
  have hl : k < l.length := by
    have := (List.getElem?_eq_some_iff.1 hk).1
    cases l with
    | nil => simp [cycleEdges] at this
    | cons c l => simpa [cycleEdges] using this
  have hm : (k + 1) % l.length < l.length := Nat.mod_lt _ (by omega)
  have := cycleEdges_at (List.getElem?_eq_getElem hl) (List.getElem?_eq_getElem hm)
  rw [hk] at this
  cases this
  exact ⟨k, List.getElem?_eq_getElem hl, List.getElem?_eq_getElem hm⟩

theorem OnSeg.swap {a b q : Coords K} (h : OnSeg (a, b) q) : OnSeg (b, a) q := by
  obtain ⟨t, h0, h1, hx, hy⟩ := h
  refine ⟨1 - t, by linarith, by linarith, ?_, ?_⟩
  · simp only at hx ⊢; rw [hx]; ring
  · simp only at hy ⊢; rw [hy]; ring

theorem edgeC_cases (a b : Coords K) : edgeC a b = (a, b) ∨ edgeC a b = (b, a) := by
  unfold edgeC; split <;> simp

theorem onSeg_edgeC {a b q : Coords K} : OnSeg (edgeC a b) q ↔ OnSeg (a, b) q := by
  rcases edgeC_cases a b with h | h <;> rw [h]
  exact ⟨OnSeg.swap, OnSeg.swap⟩

theorem ends_edgeC {a b q : Coords K} : (q = (edgeC a b).1 ∨ q = (edgeC a b).2) ↔ (q = a ∨ q = b) := by
  rcases edgeC_cases a b with h | h <;> rw [h]
  exact or_comm

theorem below_edgeC {a b : Coords K} (h : a ≠ b) : below (edgeC a b).1 (edgeC a b).2 := by
  unfold edgeC
  split
  · rename_i h'; exact ltB_exact.1 h'
  · rename_i h'
    exact (below_total h).resolve_left fun h2 => h' (ltB_exact.2 h2)

/-- All sides, sorted. -/
def sidesC (gs : List (List (Coords K))) : List (Coords K × Coords K) :=
  (gs.flatMap cycleEdges).map fun e => edgeC e.1 e.2

theorem flatMap_fst (gs : List (List (Coords K))) : (gs.flatMap cycleEdges).map Prod.fst = gs.flatten := by
  induction gs with
  | nil => rfl
  | cons g gs ih => simp [List.flatMap_cons, List.map_append, cycleEdges_fst, ih]

theorem flatMap_snd (gs : List (List (Coords K))) : ((gs.flatMap cycleEdges).map Prod.snd).Perm gs.flatten := by
  induction gs with
  | nil => exact .nil
  | cons g gs ih =>
    simp only [List.flatMap_cons, List.map_append, List.flatten_cons]
    exact (cycleEdges_snd g).append ih

theorem cycleEdges_ne {g : List (Coords K)} (h3 : 3 ≤ g.length) (hn : g.Nodup) {e : Coords K × Coords K}
    (he : e ∈ cycleEdges g) : e.1 ≠ e.2 := by
  obtain ⟨k, h1, h2⟩ := get_cycleEdges he
  intro h
  rw [h] at h1
  have hk := (List.getElem?_eq_some_iff.1 h1).1
  have hk2 := (List.getElem?_eq_some_iff.1 h2).1
  have := (List.getElem?_inj hk hn).1 (h1.trans h2.symm)
  rcases Nat.lt_or_ge (k + 1) g.length with h' | h'
  · rw [Nat.mod_eq_of_lt h'] at this; omega
  · rw [show k + 1 = g.length by omega, Nat.mod_self] at this; omega

/-- A valid set of polygons, with further points off its edges. -/
theorem ValidPolys.drawn {gs : List (List (Coords K))} (h : ValidPolys gs) {ghosts : List (Coords K)}
    (hgh : ∀ q ∈ ghosts, ∀ e ∈ gs.flatMap cycleEdges, ¬ OnSeg e q) : Drawn (gs.flatten ++ ghosts) (sidesC gs) := by
  have hn1 : ((gs.flatMap cycleEdges).map Prod.fst).Nodup := by rw [flatMap_fst]; exact h.distinct
  have hn2 : ((gs.flatMap cycleEdges).map Prod.snd).Nodup := (flatMap_snd gs).nodup_iff.2 h.distinct
  have m1 : ∀ {e}, e ∈ gs.flatMap cycleEdges → e.1 ∈ gs.flatten := fun {e} he => by
    rw [← flatMap_fst]; exact List.mem_map.2 ⟨e, he, rfl⟩
  have m2 : ∀ {e}, e ∈ gs.flatMap cycleEdges → e.2 ∈ gs.flatten := fun {e} he =>
    (flatMap_snd gs).mem_iff.1 (List.mem_map.2 ⟨e, he, rfl⟩)
  have un : ∀ e ∈ sidesC gs, ∃ a b, (a, b) ∈ gs.flatMap cycleEdges ∧ e = edgeC a b := by
    intro e he
    obtain ⟨⟨a, b⟩, h1, rfl⟩ := List.mem_map.1 he
    exact ⟨a, b, h1, rfl⟩
  have uf : ∀ {a b c : Coords K}, (a, b) ∈ gs.flatMap cycleEdges → (a, c) ∈ gs.flatMap cycleEdges → b = c :=
    fun h1 h2 => congrArg Prod.snd (List.inj_on_of_nodup_map hn1 h1 h2 rfl)
  have us : ∀ {a b c : Coords K}, (a, c) ∈ gs.flatMap cycleEdges → (b, c) ∈ gs.flatMap cycleEdges → a = b :=
    fun h1 h2 => congrArg Prod.fst (List.inj_on_of_nodup_map hn2 h1 h2 rfl)
  have mt : ∀ {a b c d q : Coords K}, (a, b) ∈ gs.flatMap cycleEdges → (c, d) ∈ gs.flatMap cycleEdges →
      edgeC a b ≠ edgeC c d → OnSeg (a, b) q → OnSeg (c, d) q → (q = a ∨ q = b) ∧ (q = c ∨ q = d) := by
    intro a b c d q h1 h2 hne o1 o2
    refine h.meet _ h1 _ h2 ?_ q o1 o2
    intro he
    cases he
    exact hne rfl
  refine ⟨?_, ?_, ?_, ?_, ?_, ?_⟩
  · intro e he
    obtain ⟨a, b, hab, rfl⟩ := un e he
    apply below_edgeC
    obtain ⟨g, hg, hg2⟩ := List.mem_flatMap.1 hab
    exact cycleEdges_ne (h.three g hg) (List.nodup_flatten.1 h.distinct |>.1 g hg) hg2
  · intro e he
    obtain ⟨a, b, hab, rfl⟩ := un e he
    apply List.mem_append_left
    rcases edgeC_cases a b with h' | h' <;> rw [h']
    · exact m1 hab
    · exact m2 hab
  · intro e he
    obtain ⟨a, b, hab, rfl⟩ := un e he
    apply List.mem_append_left
    rcases edgeC_cases a b with h' | h' <;> rw [h']
    · exact m2 hab
    · exact m1 hab
  · intro e he f hf hne q o1 o2
    obtain ⟨a, b, hab, rfl⟩ := un e he
    obtain ⟨c, d, hcd, rfl⟩ := un f hf
    rw [onSeg_edgeC] at o1 o2
    rw [ends_edgeC, ends_edgeC]
    exact mt hab hcd hne o1 o2
  · intro v hv e he o
    obtain ⟨a, b, hab, rfl⟩ := un e he
    rw [onSeg_edgeC] at o
    rw [ends_edgeC]
    rcases List.mem_append.1 hv with hv | hv
    · rw [← flatMap_fst] at hv
      obtain ⟨⟨v', d⟩, hd, rfl⟩ := List.mem_map.1 hv
      by_cases heq : edgeC a b = edgeC v' d
      · rw [← ends_edgeC, heq, ends_edgeC]; exact .inl rfl
      · exact (mt hab hd heq o ⟨0, le_rfl, zero_le_one, by simp, by simp⟩).1
    · exact absurd o (hgh v hv _ hab)
  · intro e he f hf g hg v h1 h2 h3
    obtain ⟨a, b, hab, rfl⟩ := un e he
    obtain ⟨c, d, hcd, rfl⟩ := un f hf
    obtain ⟨x, y, hxy, rfl⟩ := un g hg
    rw [ends_edgeC] at h1 h2 h3
    have k1 : ∀ {a b c : Coords K}, (a, b) ∈ gs.flatMap cycleEdges → (a, c) ∈ gs.flatMap cycleEdges →
        edgeC a b = edgeC a c := fun h1 h2 => by rw [uf h1 h2]
    have k2 : ∀ {a b c : Coords K}, (a, c) ∈ gs.flatMap cycleEdges → (b, c) ∈ gs.flatMap cycleEdges →
        edgeC a c = edgeC b c := fun h1 h2 => by rw [us h1 h2]
    rcases h1 with rfl | rfl <;> rcases h2 with rfl | rfl <;> rcases h3 with rfl | rfl
    · exact .inl (k1 hab hcd)
    · exact .inl (k1 hab hcd)
    · exact .inr (.inr (k1 hab hxy))
    · exact .inr (.inl (k2 hcd hxy))
    · exact .inr (.inl (k1 hcd hxy))
    · exact .inr (.inr (k2 hab hxy))
    · exact .inl (k2 hab hcd)
    · exact .inl (k2 hab hcd)

/-- The input in the plane. -/
theorem exists_polysCtx {p : PolyList I V} {xy : V → Coords K} {gs : List (List (I × Coords K))}
    (hd : Describes p xy gs) (hv : ValidPolys (gs.map (List.map Prod.snd))) {ghosts : List (Coords K)}
    (hgh : ∀ q ∈ ghosts, ∀ e ∈ (gs.map (List.map Prod.snd)).flatMap cycleEdges, ¬ OnSeg e q) :
    ∃ P : Plane K, PolysCtx P p xy gs ∧ (∀ v, P.U v ↔ v ∈ (gs.map (List.map Prod.snd)).flatten ∨ v ∈ ghosts) ∧
      (∀ e, P.E e ↔ e ∈ sidesC (gs.map (List.map Prod.snd))) ∧
      ∃ ε > 0, P.h = ht ε ∧ P.X = fun e v => Xh ε e (ht ε v) := by
  obtain ⟨P, hU, hE, hε⟩ := exists_plane (hv.drawn hgh)
  have hfl : (gs.map (List.map Prod.snd)).flatten = gs.flatten.map Prod.snd := by rw [List.map_flatten]
  have hnd : (gs.flatten.map Prod.snd).Nodup := by rw [← hfl]; exact hv.distinct
  refine ⟨P, ⟨hd, fun g hg => ⟨?_, ?_, ?_, ?_, ?_⟩, hnd⟩, fun v => by rw [hU, List.mem_append], hE, hε⟩
  · have := hv.three _ (List.mem_map.2 ⟨g, hg, rfl⟩)
    simpa using this
  · exact (List.nodup_flatten.1 hv.distinct).1 _ (List.mem_map.2 ⟨g, hg, rfl⟩)
  · intro v hvg
    rw [hU, hfl]
    exact List.mem_append_left _ (List.mem_map.2 ⟨v, List.mem_flatten.2 ⟨g, hg, hvg⟩, rfl⟩)
  · intro v hvg
    exact coords_of_get (hd.coords g hg v hvg)
  · intro k a b ha hb
    rw [hE]
    refine List.mem_map.2 ⟨(a.2, b.2), List.mem_flatMap.2 ⟨_, List.mem_map.2 ⟨g, hg, rfl⟩, ?_⟩, rfl⟩
    refine List.mem_iff_getElem?.2 ⟨k, cycleEdges_at ?_ ?_⟩
    · rw [List.getElem?_map, ha]; rfl
    · rw [List.length_map, List.getElem?_map, hb]; rfl

end Tri
