import Verif.Proof.Emit
import Verif.Proof.Source

/-!
# The boundary of the triangles and the edges of the polygons
-/

set_option linter.unusedSectionVars false

namespace Tri

variable {I V K : Type}

/-! ## Edges of polygons -/

theorem flatMap_fst' {α : Type} (gs : List (List α)) : (gs.flatMap cycleEdges).map Prod.fst = gs.flatten := by
  induction gs with
  | nil => rfl
  | cons g gs ih => simp [List.flatMap_cons, List.map_append, cycleEdges_fst, ih]

theorem flatMap_snd' {α : Type} (gs : List (List α)) : ((gs.flatMap cycleEdges).map Prod.snd).Perm gs.flatten := by
  induction gs with
  | nil => exact .nil
  | cons g gs ih =>
    simp only [List.flatMap_cons, List.map_append, List.flatten_cons]
    exact (cycleEdges_snd g).append ih

theorem edges_nodup {α : Type} {gs : List (List α)} (hn : gs.flatten.Nodup) : (gs.flatMap cycleEdges).Nodup := by
  rw [← flatMap_fst'] at hn
  exact hn.of_map _

theorem edges_fst {α : Type} {gs : List (List α)} (hn : gs.flatten.Nodup) {e e' : α × α} (he : e ∈ gs.flatMap cycleEdges)
    (he' : e' ∈ gs.flatMap cycleEdges) (h : e.1 = e'.1) : e = e' := by
  rw [← flatMap_fst'] at hn
  exact List.inj_on_of_nodup_map hn he he' h

/-- No edge is used in both directions. -/
theorem edges_swap {α : Type} {gs : List (List α)} (hn : gs.flatten.Nodup) (h3 : ∀ g ∈ gs, 3 ≤ g.length) {e : α × α}
    (he : e ∈ gs.flatMap cycleEdges) : e.swap ∉ gs.flatMap cycleEdges := by
  intro hs
  obtain ⟨g, hg, heg⟩ := List.mem_flatMap.1 he
  obtain ⟨k, h1, h2⟩ := get_cycleEdges heg
  have hl := h3 g hg
  have hm : ((k + 1) % g.length + 1) % g.length < g.length := Nat.mod_lt _ (by omega)
  have h4 : (e.2, g[((k + 1) % g.length + 1) % g.length]) ∈ gs.flatMap cycleEdges :=
    List.mem_flatMap.2 ⟨g, hg, List.mem_of_getElem? (cycleEdges_at h2 (List.getElem?_eq_getElem hm))⟩
  have h5 := edges_fst hn hs h4 rfl
  have h6 : e.1 = g[((k + 1) % g.length + 1) % g.length] := congrArg Prod.snd h5
  have hgn : g.Nodup := (List.nodup_flatten.1 hn).1 g hg
  have hk := (List.getElem?_eq_some_iff.1 h1).1
  have h7 : k = ((k + 1) % g.length + 1) % g.length :=
    (List.getElem?_inj hk hgn).1 (h1.trans (by rw [h6, List.getElem?_eq_getElem hm]))
  rcases Nat.lt_or_ge (k + 1) g.length with h' | h'
  · rw [Nat.mod_eq_of_lt h'] at h7
    rcases Nat.lt_or_ge (k + 1 + 1) g.length with h'' | h''
    · rw [Nat.mod_eq_of_lt h''] at h7; omega
    · rw [show k + 1 + 1 = g.length by omega, Nat.mod_self] at h7; omega
  · rw [show k + 1 = g.length by omega, Nat.mod_self, Nat.mod_eq_of_lt (by omega)] at h7; omega

theorem edges_ne {α : Type} {gs : List (List α)} (hn : gs.flatten.Nodup) (h3 : ∀ g ∈ gs, 3 ≤ g.length) {e : α × α}
    (he : e ∈ gs.flatMap cycleEdges) : e.1 ≠ e.2 := by
  intro h
  have : e.swap = e := by rcases e with ⟨a, b⟩; simp only at h; subst h; rfl
  exact edges_swap hn h3 he (by rw [this]; exact he)

/-- `e` or its reverse. -/
def turn {α : Type} (fwd : α × α → Bool) (e : α × α) : α × α := if fwd e then e else e.swap

/-- The counts over turned edges. -/
theorem net_turn {α : Type} [DecidableEq α] {E : List (α × α)} (hn : E.Nodup) (hs : ∀ e ∈ E, e.swap ∉ E)
    (fwd : α × α → Bool) (u v : α) :
    net (E.map (turn fwd)) u v =
      if (u, v) ∈ E then (if fwd (u, v) then 1 else -1) else if (v, u) ∈ E then (if fwd (v, u) then -1 else 1) else 0 := by
  have hcount : ∀ E : List (α × α), E.Nodup → (∀ e ∈ E, e.swap ∉ E) → ∀ x y : α, (E.map (turn fwd)).count (x, y) =
      if ((x, y) ∈ E ∧ fwd (x, y)) ∨ ((y, x) ∈ E ∧ ¬ fwd (y, x)) then 1 else 0 := by
    intro E hn hs x y
    induction E with
    | nil => simp
    | cons e E ih =>
      have hn' := List.nodup_cons.1 hn
      rw [List.map_cons, List.count_cons, ih hn'.2 fun e' h' h'' => hs e' (by simp [h']) (by simp [h''])]
      have hse := hs e (by simp)
      have e1 : (turn fwd e == (x, y)) = decide ((e = (x, y) ∧ fwd (x, y)) ∨ (e = (y, x) ∧ ¬ fwd (y, x))) := by
        rw [Bool.eq_iff_iff]
        simp only [beq_iff_eq, decide_eq_true_eq]
        unfold turn
        split
        · rename_i h
          constructor
          · rintro rfl; exact .inl ⟨rfl, h⟩
          · rintro (⟨rfl, -⟩ | ⟨rfl, h'⟩)
            · rfl
            · exact absurd h h'
        · rename_i h
          constructor
          · intro h'
            have : e = (y, x) := by rcases e with ⟨a, b⟩; cases h'; rfl
            subst this
            exact .inr ⟨rfl, h⟩
          · rintro (⟨rfl, h'⟩ | ⟨rfl, -⟩)
            · exact absurd h' h
            · rfl
      rw [e1]
      by_cases h1 : e = (x, y)
      · subst h1
        have k1 : (x, y) ∉ E := hn'.1
        have k2 : (y, x) ∉ (x, y) :: E := hse
        have k3 : (y, x) ∉ E := fun h => k2 (by simp [h])
        have k4 : (x, y) ≠ (y, x) := fun h => k2 (by rw [← h]; simp)
        simp [k1, k3, k4, k4.symm]
      · by_cases h2 : e = (y, x)
        · subst h2
          have k1 : (y, x) ∉ E := hn'.1
          have k2 : (x, y) ∉ (y, x) :: E := hse
          have k3 : (x, y) ∉ E := fun h => k2 (by simp [h])
          simp [k1, k3, h1, Ne.symm h1]
        · simp [h1, h2, Ne.symm h1, Ne.symm h2]
  unfold net
  rw [hcount E hn hs, hcount E hn hs]
  by_cases h1 : (u, v) ∈ E
  · have h2 : (v, u) ∉ E := hs _ h1
    simp only [h1, h2, true_and, false_and, or_false, false_or, if_true]
    cases fwd (u, v) <;> simp
  · by_cases h2 : (v, u) ∈ E
    · simp only [h1, h2, true_and, false_and, false_or, or_false, if_true, if_false]
      cases fwd (v, u) <;> simp
    · simp [h1, h2]

/-! ## The vertices of the trapezoidation -/

variable [Field K] [LinearOrder K] [IsStrictOrderedRing K]

attribute [local instance] exact

variable {P : Plane K} {p : PolyList I V} {xy : V → Coords K} {A : Abs K} {st : St I K} {key : Nat → I × Coords K}
  {lab sgn : Nat → Bool} {gs : List (List (I × Coords K))}

theorem mem_polygonsFrom' {es : List (Elem I)} {i : I} (cur : List I) (h : i ∈ cur ∨ .cont i ∈ es) :
    i ∈ (polygonsFrom cur es).flatten := by
  induction es generalizing cur with
  | nil =>
    simp only [List.not_mem_nil, or_false] at h
    have : cur ≠ [] := by rintro rfl; cases h
    simp [polygonsFrom, this, h]
  | cons e es ih =>
    cases e with
    | cont j =>
      simp only [polygonsFrom]
      refine ih _ ?_
      rcases h with h | h
      · exact .inl (by simp [h])
      · rcases List.mem_cons.1 h with h | h
        · cases h; exact .inl (by simp)
        · exact .inr h
    | newPolygon =>
      simp only [polygonsFrom]
      split
      · rename_i hc
        subst hc
        refine ih _ (.inr ?_)
        rcases h with h | h
        · cases h
        · rcases List.mem_cons.1 h with h | h
          · cases h
          · exact h
      · rcases h with h | h
        · simp [h]
        · rcases List.mem_cons.1 h with h | h
          · cases h
          · rw [List.flatten_cons]
            exact List.mem_append_right _ (ih _ (.inr h))

/-- The vertices of the trapezoidation are vertices of the polygons. -/
theorem key_mem [DecidableEq I] (hd : Describes p xy gs) {cfg : Cfg} {fuel : Nat} (hr : trapezoidize cfg fuel p xy = .ok st)
    (hsrc : ∀ n < A.N, p.coords (ε := IErr) xy (key n).1 = .ok (key n).2)
    (hkey : ∀ n < A.N, ∃ nx, st.ns[n]? = some nx ∧ key n = nx.key) {n : Nat} (hn : n < A.N) : key n ∈ gs.flatten := by
  have hs := trapezoidize_safe (A := fun v => some (.cont v.1) ∈ p.elems) cfg fuel p xy (fun i c hi _ => hi)
  rw [hr] at hs
  obtain ⟨nx, h1, h2⟩ := hkey n hn
  have h3 := (hs.ns nx (List.mem_of_getElem? h1)).src
  obtain ⟨es, he1, he2⟩ := hd.elems
  rw [he1] at h3
  have h4 : Elem.cont (key n).1 ∈ es := by
    obtain ⟨e, he, h⟩ := List.mem_map.1 h3
    cases h
    rw [h2]; exact he
  have h5 := mem_polygonsFrom' [] (.inr h4)
  change (key n).1 ∈ (polygonsOf es).flatten at h5
  rw [he2, ← List.map_flatten] at h5
  obtain ⟨v, hv, hv1⟩ := List.mem_map.1 h5
  obtain ⟨g, hg, hvg⟩ := List.mem_flatten.1 hv
  have h6 := coords_of_get (ε := IErr) (hd.coords g hg v hvg)
  rw [hv1, hsrc n hn] at h6
  have : v = key n := Prod.ext hv1 (Except.ok.inj h6).symm
  rw [← this]; exact hv

/-- The ends of a pair by height. -/
def sortP (e : (I × Coords K) × (I × Coords K)) : (I × Coords K) × (I × Coords K) :=
  if e.1.2.ltB e.2.2 then e else e.swap

theorem sortP_cases (e : (I × Coords K) × (I × Coords K)) : sortP e = e ∨ sortP e = e.swap := by
  unfold sortP; split <;> simp

theorem sortP_snd (e : (I × Coords K) × (I × Coords K)) : ((sortP e).1.2, (sortP e).2.2) = edgeC e.1.2 e.2.2 := by
  unfold sortP edgeC
  split <;> rfl

/-- The ends of segment `s`. -/
def loHi (A : Abs K) (key : Nat → I × Coords K) (s : Nat) : (I × Coords K) × (I × Coords K) :=
  (key (A.mn s), key (A.mx s))

theorem loHi_snd (hW : Whole P A) (hkc : ∀ n < A.N, (key n).2 = A.c n) {s : Nat} (hs : s < A.S) :
    ((loHi A key s).1.2, (loHi A key s).2.2) = A.sg s := by
  have hI := hW.inv
  simp only [loHi, hkc _ (hI.mnN s hs).1, hkc _ (hI.mxN s hs).1, hW.mnC s hs, (hI.mxN s hs).2]

/-- The segments are the edges of the polygons. -/
theorem AllIn.edges_perm (h : AllIn P p xy gs A st) (hW : Whole P A) (hkc : ∀ n < A.N, (key n).2 = A.c n)
    (hkm : ∀ n < A.N, key n ∈ gs.flatten) (hdist : (gs.flatten.map (·.2)).Nodup) (h3 : ∀ g ∈ gs, 3 ≤ g.length) :
    ((List.range A.S).map (loHi A key)).Perm ((gs.flatMap cycleEdges).map sortP) := by
  have hI := hW.inv
  have hn : gs.flatten.Nodup := hdist.of_map _
  have hinj : ∀ a ∈ gs.flatten, ∀ b ∈ gs.flatten, a.2 = b.2 → a = b := fun a ha b hb hab =>
    List.inj_on_of_nodup_map hdist ha hb hab
  have hE : ∀ e ∈ gs.flatMap cycleEdges, e.1 ∈ gs.flatten ∧ e.2 ∈ gs.flatten := by
    intro e he
    refine ⟨?_, ?_⟩
    · rw [← flatMap_fst']; exact List.mem_map.2 ⟨e, he, rfl⟩
    · exact (flatMap_snd' gs).mem_iff.1 (List.mem_map.2 ⟨e, he, rfl⟩)
  have hmatch : ∀ s < A.S, ∀ e ∈ gs.flatMap cycleEdges, A.sg s = edgeC e.1.2 e.2.2 → loHi A key s = sortP e := by
    intro s hs e he h1
    rw [← loHi_snd hW hkc hs, ← sortP_snd] at h1
    have h2 := Prod.mk.inj h1
    have hm := hE e he
    have m1 : (loHi A key s).1 ∈ gs.flatten := hkm _ (hI.mnN s hs).1
    have m2 : (loHi A key s).2 ∈ gs.flatten := hkm _ (hI.mxN s hs).1
    have m3 : (sortP e).1 ∈ gs.flatten ∧ (sortP e).2 ∈ gs.flatten := by
      rcases sortP_cases e with h | h <;> rw [h]
      · exact hm
      · exact ⟨hm.2, hm.1⟩
    exact Prod.ext (hinj _ m1 _ m3.1 h2.1) (hinj _ m2 _ m3.2 h2.2)
  refine (List.perm_ext_iff_of_nodup ?_ ?_).2 fun e => ?_
  · refine List.Nodup.map_on ?_ List.nodup_range
    intro a ha b hb hab
    rw [List.mem_range] at ha hb
    refine hI.sinj a ha b hb ?_
    rw [← loHi_snd hW hkc ha, ← loHi_snd hW hkc hb, hab]
  · refine List.Nodup.map_on ?_ (edges_nodup hn)
    intro a ha b hb hab
    have key' : a = b ∨ a = b.swap := by
      rcases sortP_cases a with h1 | h1 <;> rcases sortP_cases b with h2 | h2 <;> rw [h1, h2] at hab
      · exact .inl hab
      · exact .inr hab
      · right; rw [← hab, Prod.swap_swap]
      · left; rw [← Prod.swap_swap a, hab, Prod.swap_swap]
    rcases key' with h1 | h1
    · exact h1
    · exact absurd (h1 ▸ ha) (edges_swap hn h3 hb)
  · constructor
    · intro he
      obtain ⟨s, hs, rfl⟩ := List.mem_map.1 he
      rw [List.mem_range] at hs
      obtain ⟨g, hg, k, a, b, ha, hb, hab⟩ := h.segs s hs
      have hm : (a, b) ∈ gs.flatMap cycleEdges :=
        List.mem_flatMap.2 ⟨g, hg, List.mem_of_getElem? (cycleEdges_at ha hb)⟩
      exact List.mem_map.2 ⟨(a, b), hm, (hmatch s hs _ hm hab).symm⟩
    · intro he
      obtain ⟨e', he', rfl⟩ := List.mem_map.1 he
      obtain ⟨g, hg, heg⟩ := List.mem_flatMap.1 he'
      obtain ⟨k, h1, h2⟩ := get_cycleEdges heg
      obtain ⟨s, hs, hsg⟩ := h.has g hg k _ ⟨_, _, h1, h2, rfl⟩
      exact List.mem_map.2 ⟨s, List.mem_range.2 hs, hmatch s hs _ he' hsg⟩

/-- The directed segments are the edges of the polygons, some of them turned. -/
theorem AllIn.dir_perm (h : AllIn P p xy gs A st) (hW : Whole P A) (hkc : ∀ n < A.N, (key n).2 = A.c n)
    (hkm : ∀ n < A.N, key n ∈ gs.flatten) (hdist : (gs.flatten.map (·.2)).Nodup) (h3 : ∀ g ∈ gs, 3 ≤ g.length) :
    ∃ fwd, ((List.range A.S).map (dirE A key sgn)).Perm ((gs.flatMap cycleEdges).map (turn fwd)) := by
  classical
  have hI := hW.inv
  have hp := h.edges_perm hW hkc hkm hdist h3
  let dirP : (I × Coords K) × (I × Coords K) → (I × Coords K) × (I × Coords K) := fun e =>
    if ∃ s < A.S, loHi A key s = e ∧ sgn s = true then e.swap else e
  have h1 : (List.range A.S).map (dirE A key sgn) = ((List.range A.S).map (loHi A key)).map dirP := by
    rw [List.map_map]
    refine List.map_congr_left fun s hs => ?_
    rw [List.mem_range] at hs
    simp only [Function.comp_apply, dirP, dirE]
    cases hsg : sgn s
    · have hno : ¬ ∃ s' < A.S, loHi A key s' = loHi A key s ∧ sgn s' = true := by
        rintro ⟨s', hs', he, ht⟩
        have : s' = s := hI.sinj s' hs' s hs (by rw [← loHi_snd hW hkc hs', ← loHi_snd hW hkc hs, he])
        rw [this, hsg] at ht; cases ht
      simp only [hno, if_false]; rfl
    · have hyes : ∃ s' < A.S, loHi A key s' = loHi A key s ∧ sgn s' = true := ⟨s, hs, rfl, hsg⟩
      simp only [hyes, if_true]; rfl
  refine ⟨fun e => decide (dirP (sortP e) = e), ?_⟩
  rw [h1]
  refine (hp.map dirP).trans ?_
  rw [List.map_map]
  refine List.Perm.of_eq (List.map_congr_left fun e he => ?_)
  simp only [Function.comp_apply, turn, decide_eq_true_eq]
  split
  · assumption
  · rename_i hne
    have hc : dirP (sortP e) = e ∨ dirP (sortP e) = e.swap := by
      simp only [dirP]
      rcases sortP_cases e with h1 | h1 <;> rw [h1] <;> split <;> simp
    exact hc.resolve_left hne

end Tri
