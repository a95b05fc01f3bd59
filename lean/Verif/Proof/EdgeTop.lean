import Verif.Proof.CanonTop
import Verif.Proof.EdgeSim

/-!
# Two inputs with the same edges, with coordinates whose answers are right for edges
-/

set_option linter.unusedSectionVars false

namespace Tri

section
variable {I J V V' C C' D : Type} [Scalar C] [Scalar C'] [Scalar D]

theorem topTrapezoid_e {RI : I → J → Prop} {RC : Coords C → Coords D → Prop} {st : St I C} {st' : St J D} (hst : StRel RI RC st st')
    (fuel qi : Nat) : topTrapezoid st.qs fuel qi = topTrapezoid st'.qs fuel qi := by
  induction fuel generalizing qi with
  | zero => rfl
  | succ k ih =>
    unfold topTrapezoid
    have h := RelR.getP (ε := IErr) hst.qs qi
    generalize getP st.qs qi = x at h
    generalize getP st'.qs qi = y at h
    rcases x with e | q <;> rcases y with e' | q'
    · exact congrArg Except.error h
    · exact h.elim
    · exact h.elim
    · rcases q with ⟨l, r, _ | _⟩ | _ <;> rcases q' with ⟨l', r', _ | _⟩ | _
      · exact rfl
      · exact h.2.2.elim
      · exact h.elim
      · exact h.2.2.elim
      · obtain ⟨-, rfl, -⟩ := h
        exact ih r
      · exact h.elim
      · exact h.elim
      · exact h.elim
      · exact congrArg Except.ok h

/-- The place of an index. -/
def PolyList.at_ (p : PolyList I V) (xy : V → Coords C) (i : I) : Option (Coords C) := (p.getVertex i).map xy

variable {p : PolyList I V} {xy : V → Coords C} {xf : V → Coords D} {p' : PolyList J V'} {xy' : V' → Coords C} {xf' : V' → Coords D}

theorem coords_at {ε : Type} {i : I} {c : Coords C} (h : p.at_ xy i = some c) : (p.coords xy i : Res ε (Coords C)) = .ok c := by
  obtain ⟨v, h1, rfl⟩ := Option.map_eq_some_iff.1 h
  simp only [PolyList.coords, h1]

theorem Match.map {T N S : Nat → Nat → Prop} {RI : I → J → Prop} {st : St I C} {st' : St J C} {sf : St I D} {sf' : St J D}
    (M : Match T N S RI Eq p xy st p' xy' st') {X : I → Option (Coords C)} {X' : J → Option (Coords C)} {E : I → I → Prop}
    {E' : J → J → Prop} {vis : List I} {vis' : List J} (h : StE X (p.at_ xf) E vis st sf) (h' : StE X' (p'.at_ xf') E' vis' st' sf')
    (hRI : ∀ i j, RI i j → p.at_ xf i = p'.at_ xf' j) : Match T N S RI Eq p xf sf p' xf' sf' where
  t_iff := M.t_iff
  n_iff := M.n_iff
  ts hi := by
    rw [← h.ts, ← h'.ts]; exact M.ts hi
  ss {i i'} hi := by
    have h0 := M.ss hi
    have h1 := RelR.getP (ε := IErr) h.ss i
    have h2 := RelR.getP (ε := IErr) h'.ss i'
    generalize getP st.ss i = a at h0 h1
    generalize getP st'.ss i' = a' at h0 h2
    generalize getP sf.ss i = b at h1
    generalize getP sf'.ss i' = b' at h2
    rcases a with a | a <;> rcases a' with a' | a' <;> rcases b with b | b <;> rcases b' with b' | b' <;>
      first | exact h0.elim | exact h1.elim | exact h2.elim | skip
    · exact h1.symm.trans (h0.trans h2)
    · exact ⟨by rw [← h1.niMin, ← h2.niMin]; exact h0.mn, by rw [← h1.niMax, ← h2.niMax]; exact h0.mx⟩
  ns {i i'} hi := by
    have h0 := M.ns hi
    have h1 := RelR.getP (ε := IErr) h.ns.rel i
    have h2 := RelR.getP (ε := IErr) h'.ns.rel i'
    generalize getP st.ns i = a at h0 h1
    generalize getP st'.ns i' = a' at h0 h2
    generalize getP sf.ns i = b at h1
    generalize getP sf'.ns i' = b' at h2
    rcases a with a | a <;> rcases a' with a' | a' <;> rcases b with b | b <;> rcases b' with b' | b' <;>
      first | exact h0.elim | exact h1.elim | exact h2.elim | skip
    · exact h1.symm.trans (h0.trans h2)
    · have e1 : p.at_ xf b.vi = some b.c := by rw [← h1.vi]; exact h1.at_.2
      have e2 : p'.at_ xf' b'.vi = some b'.c := by rw [← h2.vi]; exact h2.at_.2
      have hv : RI b.vi b'.vi := by rw [← h1.vi, ← h2.vi]; exact h0.vi
      have hc : b.c = b'.c := by
        have := hRI _ _ hv
        rw [e1, e2] at this
        exact Option.some.inj this
      refine ⟨hv, hc, ?_, ?_⟩
      · have f1 : a.finalType = b.finalType := by
          unfold Nexus.finalType; rw [h1.up, h1.down, h1.divs]
        have f2 : a'.finalType = b'.finalType := by
          unfold Nexus.finalType; rw [h2.up, h2.down, h2.divs]
        rw [← f1, ← f2]
        exact h0.ft
      · rw [coords_at e1, coords_at e2]
        exact hc
  top := by
    obtain ⟨a, a', k, h1, h2⟩ := M.top
    exact ⟨a, a', k, h1, fun fuel hf => by rw [← topTrapezoid_e h.stRel, ← topTrapezoid_e h'.stRel]; exact h2 fuel hf⟩

end

section
variable {I J V V' K D : Type} [Field K] [LinearOrder K] [IsStrictOrderedRing K] [DecidableEq I] [DecidableEq J] [Scalar D]

attribute [local instance] exact

variable {p : PolyList I V} {xy : V → Coords K} {gs : List (List (I × Coords K))} {xf : V → Coords D}
  {p' : PolyList J V'} {xy' : V' → Coords K} {gs' : List (List (J × Coords K))} {xf' : V' → Coords D}

/-- The answers for this edge are the same. -/
def EdgeUp (gs : List (List (I × Coords K))) (X : I → Option (Coords K)) (i j : I) : Prop :=
  ((i, j) ∈ (gs.map (List.map Prod.fst)).flatMap cycleEdges ∨ (j, i) ∈ (gs.map (List.map Prod.fst)).flatMap cycleEdges) ∧
    ∀ a b, X i = some a → X j = some b → a.partialCmp b = some .lt

/-- The trapezoidation has the same shape as the one with exact arithmetic. -/
theorem trapezoidize_edges (hd : Describes p xy gs) (hv : ValidPolys (gs.map (List.map Prod.snd)))
    (hs : SameEdgeAnswers (gs.map (List.map Prod.fst)) (p.at_ xy) (p.at_ xf)) (cfg : Cfg) (fuel : Nat) :
    RelR (fun st st' => ∃ vis, StE (p.at_ xy) (p.at_ xf) (EdgeUp gs (p.at_ xy)) vis st st') (trapezoidize cfg fuel p xy)
      (trapezoidize cfg fuel p xf) := by
  obtain ⟨es, h1, h2⟩ := hd.elems
  have hE : RespE (p.at_ xy) (p.at_ xf) (EdgeUp gs (p.at_ xy)) := by
    refine ⟨fun h1 h2 h3 h4 => hs.cmp _ _ _ _ _ _ h1 h3 h2 h4, fun h h1 h2 h3 h4 h5 h6 => ?_⟩
    exact hs.side _ _ _ _ _ _ _ _ _ h.1 h1 h3 h5 h2 h4 h6 (h.2 _ _ h1 h3)
  have hp : St.PolyE (p.at_ xy) (p.at_ xf) p xy p xf := by
    intro i ε
    unfold PolyList.coords
    unfold AtI PolyList.at_
    cases p.getVertex i
    · exact rfl
    · exact ⟨rfl, rfl⟩
  refine trapezoidize_e hE cfg fuel hp es h1 h1 fun g hg => ?_
  rw [h2] at hg
  obtain ⟨g0, hg0, rfl⟩ := List.mem_map.1 hg
  intro k i j hi hj a b ha hb
  rw [List.length_map] at hj
  rw [List.getElem?_map, Option.map_eq_some_iff] at hi hj
  obtain ⟨u, hu, rfl⟩ := hi
  obtain ⟨v, hv2, rfl⟩ := hj
  have hmem : (u.1, v.1) ∈ (gs.map (List.map Prod.fst)).flatMap cycleEdges := by
    refine List.mem_flatMap.2 ⟨_, List.mem_map.2 ⟨g0, hg0, rfl⟩, List.mem_iff_getElem?.2 ⟨k, cycleEdges_at ?_ ?_⟩⟩
    · rw [List.getElem?_map, hu]; rfl
    · rw [List.length_map, List.getElem?_map, hv2]; rfl
  have eu := hd.coords g0 hg0 u (List.mem_of_getElem? hu)
  have ev := hd.coords g0 hg0 v (List.mem_of_getElem? hv2)
  have ea : a = u.2 := Option.some.inj (ha.symm.trans eu)
  have eb : b = v.2 := Option.some.inj (hb.symm.trans ev)
  subst ea eb
  have hne : u.2 ≠ v.2 := by
    refine hv.edge_ne (e := (u.2, v.2)) ?_
    refine List.mem_flatMap.2 ⟨_, List.mem_map.2 ⟨g0, hg0, rfl⟩, List.mem_iff_getElem?.2 ⟨k, cycleEdges_at ?_ ?_⟩⟩
    · rw [List.getElem?_map, hu]; rfl
    · rw [List.length_map, List.getElem?_map, hv2]; rfl
  have up : ∀ {i j : I} {x y : Coords K}, ((i, j) ∈ (gs.map (List.map Prod.fst)).flatMap cycleEdges ∨
      (j, i) ∈ (gs.map (List.map Prod.fst)).flatMap cycleEdges) → p.at_ xy i = some x → p.at_ xy j = some y → below x y →
      EdgeUp gs (p.at_ xy) i j := by
    intro i j x y h h1 h2 h3
    refine ⟨h, fun a b ha hb => ?_⟩
    rw [h1] at ha
    rw [h2] at hb
    cases ha; cases hb
    have := ltB_exact.2 h3
    unfold Coords.ltB at this
    exact eq_of_beq this
  constructor
  · rintro (h | h)
    · exact up (.inl hmem) ha hb (ltB_exact.1 h)
    · exact up (.inl hmem) ha hb (gtB_exact.1 h)
  · intro h
    refine up (.inr hmem) hb ha ?_
    rcases below_total hne with h3 | h3
    · rcases h with h | h
      · rw [ltB_exact.2 h3] at h; cases h
      · rw [gtB_exact.2 h3] at h; cases h
    · exact h3

theorem RelR.ok_left {α β ε : Type} {R : α → β → Prop} {a : α} {y : Res ε β} (h : RelR R (.ok a) y) : ∃ b, y = .ok b ∧ R a b := by
  rcases y with e | b
  · exact h.elim
  · exact ⟨b, rfl, h⟩

/-- Two inputs with the same edges hand over the same vertices. -/
theorem edge_runs (hd : Describes p xy gs) (hv : ValidPolys (gs.map (List.map Prod.snd))) (hne : gs ≠ [])
    (hd' : Describes p' xy' gs') (hv' : ValidPolys (gs'.map (List.map Prod.snd)))
    (hs : SameEdges (gs.map (List.map Prod.snd)) (gs'.map (List.map Prod.snd)))
    (ha : SameEdgeAnswers (gs.map (List.map Prod.fst)) (p.at_ xy) (p.at_ xf))
    (ha' : SameEdgeAnswers (gs'.map (List.map Prod.fst)) (p'.at_ xy') (p'.at_ xf'))
    (hx : ∀ i j, SamePoint gs gs' i j → p.at_ xf i = p'.at_ xf' j)
    (cfg cfg' : Cfg) (hcfg : cfg.Valid) (hcfg' : cfg'.Valid) :
    ∃ N, ∀ fuel ≥ N, ∀ w, ∃ cs cs' r, List.Forall₂ (CallRel (SamePoint gs gs')) cs cs' ∧
      (∀ F : FanFormat I, F.winding = w → triangulate cfg fuel p xf F = play F cs r) ∧
      ∀ F : FanFormat J, F.winding = w → triangulate cfg' fuel p' xf' F = play F cs' r := by
  obtain ⟨T, Nx, S, k, st, st', hr, M⟩ := runs_match hd hv hne hd' hv' hs cfg cfg' hcfg hcfg'
  have h1 := fun fuel => trapezoidize_edges hd hv ha cfg fuel
  have h2 := fun fuel => trapezoidize_edges hd' hv' ha' cfg' fuel
  obtain ⟨sf, e1, vis, r1⟩ := RelR.ok_left ((hr k le_rfl).1 ▸ h1 k)
  obtain ⟨sf', e2, vis', r2⟩ := RelR.ok_left ((hr k le_rfl).2 ▸ h2 k)
  refine (M.map r1 r2 hx).runs respC_eq (k := k) fun fuel hf => ⟨?_, ?_⟩
  · exact ((trapezoidize_fle cfg p xf hf).resolve_left (by rw [e1]; simp)).trans e1
  · exact ((trapezoidize_fle cfg' p' xf' hf).resolve_left (by rw [e2]; simp)).trans e2

end

section
variable {I J : Type}

theorem extends_split {R : I → J → Prop} {l : List I} {cs : List (Call J)} (h : List.Forall₂ (CallRel R) (l.map .extend) cs) :
    ∃ l', List.Forall₂ R l l' ∧ cs = l'.map .extend := by
  induction l generalizing cs with
  | nil => cases h; exact ⟨[], .nil, rfl⟩
  | cons a l ih =>
    rw [List.map_cons] at h
    cases h with
    | @cons _ c _ cs h1 h2 =>
      obtain ⟨l', h3, rfl⟩ := ih h2
      cases c with
      | newFan => exact h1.elim
      | extend b => exact ⟨b :: l', .cons h1 h3, rfl⟩

theorem append_split {α β : Type} {R : α → β → Prop} {l m : List α} {n : List β} (h : List.Forall₂ R (l ++ m) n) :
    ∃ n1 n2, List.Forall₂ R l n1 ∧ List.Forall₂ R m n2 ∧ n = n1 ++ n2 := by
  induction l generalizing n with
  | nil => exact ⟨[], n, .nil, h, rfl⟩
  | cons a l ih =>
    rw [List.cons_append] at h
    cases h with
    | cons h1 h2 =>
      obtain ⟨n1, n2, h3, h4, rfl⟩ := ih h2
      exact ⟨_ :: n1, n2, .cons h1 h3, h4, rfl⟩

/-- Related calls come from related fans. -/
theorem calls_split_rel {R : I → J → Prop} {fans : List (List I)} (h3 : ∀ f ∈ fans, 3 ≤ f.length) {cs : List (Call J)}
    (h : List.Forall₂ (CallRel R) (fans.flatMap fanCalls) cs) :
    ∃ fans', List.Forall₂ (List.Forall₂ R) fans fans' ∧ cs = fans'.flatMap fanCalls := by
  induction fans generalizing cs with
  | nil => cases h; exact ⟨[], .nil, rfl⟩
  | cons f fans ih =>
    rw [List.flatMap_cons] at h
    have hl := h3 f List.mem_cons_self
    obtain ⟨f', fans', hf, hfs, rfl⟩ : ∃ f' fans', List.Forall₂ R f f' ∧ List.Forall₂ (List.Forall₂ R) fans fans' ∧
        cs = fanCalls f' ++ fans'.flatMap fanCalls := by
      rcases f with _ | ⟨a, _ | ⟨b, _ | ⟨c, l⟩⟩⟩
      · simp at hl
      · simp at hl
      · simp at hl
      · simp only [fanCalls, List.cons_append] at h
        cases h with
        | @cons _ k _ cs h1 h2 =>
          cases k with
          | extend => exact h1.elim
          | newFan x y z =>
            obtain ⟨c1, c2, g1, g2, rfl⟩ := append_split h2
            obtain ⟨l', h4, rfl⟩ := extends_split g1
            obtain ⟨fans', h6, rfl⟩ := ih (fun f hf => h3 f (List.mem_cons_of_mem _ hf)) g2
            refine ⟨x :: y :: z :: l', fans', .cons h1.1 (.cons h1.2.1 (.cons h1.2.2 h4)), h6, ?_⟩
            simp only [fanCalls, List.cons_append]
    exact ⟨f' :: fans', .cons hf hfs, rfl⟩

theorem map_eq_of_forall₂ {α β γ : Type} {R : α → β → Prop} {f : α → γ} {g : β → γ} (hR : ∀ a b, R a b → f a = g b) {l : List α} {l' : List β}
    (h : List.Forall₂ R l l') : l.map f = l'.map g := by
  induction h with
  | nil => rfl
  | cons h _ ih => rw [List.map_cons, List.map_cons, hR _ _ h, ih]

/-- What the recorder reports after calls that come from fans. -/
theorem play_recorder_fans {w : Winding} {cs l : List (Call I)} {r : Res IErr Unit} (h : (play (recorder I w) cs r).2 = .ok l) :
    r = .ok () ∧ ∃ a b c t, cs = .newFan a b c :: t := by
  rcases cs with _ | ⟨⟨x, y, z⟩ | v, cs⟩
  · rcases r with e | ⟨⟩ <;> cases h
  · refine ⟨?_, x, y, z, cs, rfl⟩
    simp only [play, feedB_recorder, finishB] at h
    rcases r with e | ⟨⟩
    · cases e <;> cases h
    · rfl
  · rcases r with e | ⟨⟩ <;> cases h

theorem play_recorder_new {w : Winding} {a b c : I} {t : List (Call I)} :
    (play (recorder I w) (.newFan a b c :: t) (.ok ())).2 = .ok (.newFan a b c :: t) := by
  simp only [play, feedB_recorder, finishB]
  rfl

end

end Tri
