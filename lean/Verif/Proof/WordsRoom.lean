import Verif.Proof.Words
import Verif.Proof.Ways
import Mathlib.Tactic.Ring

/-!
# A machine with enough room gives the same result
-/

set_option linter.unusedSectionVars false

namespace Tri

open Machine St

variable {ε α β I V C : Type} {A : I × Coords C → Prop}

/-- Room for the trapezoidation of `N` vertices. -/
structure Room (M : Machine) (cfg : Cfg) (N : Nat) : Prop where
  valid : M.Valid
  ns : N ≤ M.ns
  ss : N ≤ M.ss
  ts : 2 * N + 1 ≤ M.ts
  qs : N ^ 2 + 4 * N + 1 ≤ M.qs
  vls : N ≤ M.vls
  us : N ≤ M.us
  visits : cfg.debug = true → 2 * N + 1 ≤ M.bits

theorem bind_eq {E : Fault ε → Prop} {P : α → Prop} {x y : Res ε α} {f g : α → Res ε β} (h : x = y) (hy : Ens E P y)
    (hf : ∀ a, P a → f a = g a) : x >>= f = y >>= g := by
  subst h
  cases x with
  | error e => rfl
  | ok a => exact hf a hy

theorem bind_same {x : Res ε α} {f g : α → Res ε β} (hf : ∀ a, x = .ok a → f a = g a) : x >>= f = x >>= g := by
  cases x with
  | error e => rfl
  | ok a => exact hf a rfl

theorem ok_bind_eq {a : α} {f : α → Res ε β} {y : Res ε β} (h : f a = y) : (Except.ok a : Res ε α) >>= f = y := h

theorem push_eq {room : Nat} {xs : List α} {x : α} {f : List α → Res ε β} {y : Res ε β} (h : xs.length < room)
    (hf : f (xs ++ [x]) = y) : Machine.push room xs x >>= f = y := by
  unfold Machine.push
  rw [if_pos h]
  exact hf

theorem new_eq {M : Machine} {debug : Bool} {i : Nat} {f : Nat → Res ε β} {y : Res ε β} (hi : i + 1 < 2 ^ M.bits)
    (h : f i = y) : M.new debug i >>= f = y := by rw [new_ok hi]; exact h

theorem add_eq' {M : Machine} {debug : Bool} {a b : Nat} {f : Nat → Res ε β} {y : Res ε β}
    (hi : a + b < 2 ^ M.bits) (h : f (a + b) = y) : M.add debug a b >>= f = y := by rw [add_ok hi]; exact h

theorem modP_eq {xs : List α} {i : Nat} {u : α → α} {f g : List α → Res ε β}
    (hf : ∀ ys : List α, ys.length = xs.length → f ys = g ys) : modP xs i u >>= f = modP xs i u >>= g :=
  bind_same fun ys h => hf ys <| by
    unfold modP at h
    split at h
    · cases h; simp
    · cases h

/-- The check of the query nodes counts less than two to the power of their depth. -/
theorem checkQuery_room {M : Machine} (debug : Bool) {st : St I C} {D : Nat} {δ : Nat → Nat} (h1 : ∀ i, δ i ≤ D)
    (h2 : ∀ (i l r : Nat) (b : Branch C), st.qs[i]? = some (.branch l r b) → δ i < δ l ∧ δ i < δ r) (hb : D + 1 ≤ M.bits) (fuel qi : Nat) :
    (∃ n, st.checkQueryW M debug fuel qi = .ok n ∧ n + 1 ≤ 2 ^ (D - δ qi + 1) ∧ st.checkQuery fuel qi = .ok ()) ∨
      ∃ e, st.checkQueryW M debug fuel qi = .error e ∧ st.checkQuery fuel qi = .error e := by
  have hle : ∀ k ≤ D, 2 ^ (k + 1) ≤ 2 ^ M.bits := fun k hk => Nat.pow_le_pow_right (by omega) (by omega)
  induction fuel generalizing qi with
  | zero => exact .inr ⟨_, rfl, rfl⟩
  | succ fuel ih =>
    unfold checkQueryW checkQuery
    rcases hq : (getU st.qs qi : Res IErr _) with e | q
    · exact .inr ⟨_, rfl, rfl⟩
    · cases q with
      | branch l r b =>
        have hq' : st.qs[qi]? = some (.branch l r b) := by
          unfold getU at hq; split at hq <;> cases hq; assumption
        obtain ⟨d1, d2⟩ := h2 _ _ _ _ hq'
        have e1 := h1 l
        have e2 := h1 r
        simp only [bind, Except.bind]
        rcases ih l with ⟨a, h, ha, h'⟩ | ⟨e, h, h'⟩
        · rw [h, h']
          simp only
          rcases ih r with ⟨c, h, hc, h'⟩ | ⟨e, h, h'⟩
          · rw [h, h']
            have l1 : 2 ^ (D - δ l + 1) ≤ 2 ^ (D - δ qi) := Nat.pow_le_pow_right (by omega) (by omega)
            have l2 : 2 ^ (D - δ r + 1) ≤ 2 ^ (D - δ qi) := Nat.pow_le_pow_right (by omega) (by omega)
            have l3 : 2 ^ (D - δ qi + 1) = 2 * 2 ^ (D - δ qi) := by rw [Nat.pow_succ]; omega
            have l4 := hle (D - δ qi) (by omega)
            simp only [add_ok (M := M) (debug := debug) (ε := IErr) (show a + c < 2 ^ M.bits by omega),
              add_ok (M := M) (debug := debug) (ε := IErr) (show a + c + 1 < 2 ^ M.bits by omega)]
            exact .inl ⟨_, rfl, by omega, trivial⟩
          · rw [h, h']; exact .inr ⟨_, rfl, rfl⟩
        · rw [h, h']; exact .inr ⟨_, rfl, rfl⟩
      | sink t =>
        simp only [bind, Except.bind]
        rcases (getU st.ts t : Res IErr _) with e | q
        · exact .inr ⟨_, rfl, rfl⟩
        · have l4 := hle 0 (by omega)
          simp only [add_ok (M := M) (debug := debug) (ε := IErr) (show 0 + 1 < 2 ^ M.bits by omega)]
          have : 2 ^ 1 ≤ 2 ^ (D - δ qi + 1) := Nat.pow_le_pow_right (by omega) (by omega)
          exact .inl ⟨_, rfl, by omega, trivial⟩

theorem debugCheck_room {M : Machine} {N : Nat} {cfg : Cfg} (hM : Room M cfg N) {st : St I C} {D : Nat} (hd : Deep D st.qs) (hD : D ≤ 2 * N)
    (fuel : Nat) : st.debugCheckW M cfg fuel = st.debugCheck cfg fuel := by
  obtain ⟨δ, h1, h2⟩ := hd
  unfold debugCheckW debugCheck checkConsistency
  split
  · rename_i hdb
    have := hM.visits hdb
    refine bind_same fun _ _ => bind_same fun _ _ => ?_
    rcases checkQuery_room (M := M) cfg.debug h1 h2 (by omega) fuel 0 with ⟨n, h, -, h'⟩ | ⟨e, h, h'⟩ <;> rw [h, h'] <;> rfl
  · rfl

theorem addVertexAt_room {M : Machine} (hM : M.Valid) (debug : Bool) {st : St I C} (h1 : st.ns.length < M.ns)
    (h2 : st.ts.length < M.ts) (h3 : st.qs.length + 1 < M.qs) (vi : I) (c : Coords C)
    (qp ti : Nat) : st.addVertexAtW M debug vi c qp ti = st.addVertexAt vi c qp ti := by
  have f1 := hM.fits (by simp) h1.le
  have f2 := hM.fits (by simp) h2.le
  have f3 := hM.fits (by simp) h3.le
  unfold addVertexAtW addVertexAt
  refine new_eq (by omega) <| new_eq (by omega) <| add_eq' (by omega) <| new_eq (by omega) <| new_eq (by omega) <| push_eq h1 ?_
  refine bind_same fun qL _ => modP_eq fun qs hqs => modP_eq fun ts hts => ?_
  refine push_eq (by omega) <| push_eq (by simp; omega) <| bind_same fun t _ => bind_same fun ns _ => ?_
  refine push_eq (by simp; omega) ?_
  rw [List.append_assoc]
  rfl

variable [Scalar C] [DecidableEq I]

theorem addSegmentStart_room {M : Machine} (hM : M.Valid) (debug : Bool) {st : St I C} (h1 : st.ss.length < M.ss)
    (h2 : st.ts.length < M.ts) (h3 : st.qs.length + 1 < M.qs) (a b : Nat) (c d : Coords C) :
    st.addSegmentStartW M debug a b c d = st.addSegmentStart a b c d := by
  have f1 := hM.fits (by simp) h1.le
  have f2 := hM.fits (by simp) h2.le
  have f3 := hM.fits (by simp) h3.le
  unfold addSegmentStartW addSegmentStart
  refine new_eq (by omega) <| push_eq h1 <| bind_same fun n _ => bind_same fun ti _ => bind_same fun t _ => ?_
  refine new_eq (by omega) <| new_eq (by omega) <| add_eq' (by omega) <| new_eq (by omega) ?_
  refine bind_same fun qL _ => modP_eq fun qs hqs => modP_eq fun ts hts => ?_
  refine push_eq (by omega) <| push_eq (by simp; omega) <| bind_same fun t _ => ?_
  refine push_eq (by simp; omega) ?_
  rw [List.append_assoc]
  rfl

theorem addSegmentStep_room {M : Machine} (hM : M.Valid) (debug : Bool) (si : Nat) (s : Segment C) {l : SegLoop I C}
    (h3 : l.st.qs.length < M.qs) : addSegmentStepW M debug si s l = addSegmentStep si s l := by
  have f3 := hM.fits (by simp) h3.le
  unfold addSegmentStepW addSegmentStep
  refine bind_same fun n _ => bind_same fun ti _ => bind_same fun t _ => ?_
  cases hd : t.down with
  | none => rfl
  | some ni =>
    refine bind_same fun tl _ => bind_same fun tr _ => ?_
    split
    · refine new_eq (by omega) <| bind_same fun q _ => modP_eq fun qs hqs => modP_eq fun ts hts => push_eq (by omega) rfl
    · split
      · refine new_eq (by omega) <| bind_same fun q _ => modP_eq fun qs hqs => modP_eq fun ts hts => push_eq (by omega) rfl
      · rfl

theorem addSegmentLoop_room {M : Machine} (hM : M.Valid) (debug : Bool) {st0 : St I C}
    {ρ : Nat → Nat} {s : Segment C} (hs : SegOK st0.ns.length s) {niMax : Nat} (fuel : Nat)
    {l : St.SegLoop I C} (hi : SegInv A st0 s l) (h : SegRank ρ st0 niMax l)
    (hq : st0.qs.length + st0.ns.length + 1 < M.qs) :
    addSegmentLoopW M debug st0.ss.length s fuel l = addSegmentLoop st0.ss.length s fuel l := by
  induction fuel generalizing l with
  | zero => rfl
  | succ k ih =>
    unfold addSegmentLoopW addSegmentLoop
    split
    · rfl
    · have := h.pot
      refine bind_eq (addSegmentStep_room hM debug _ _ (by omega))
        ((addSegmentStep_ranked (E := fun _ => True) (fun _ => trivial) hs hi h).with (addSegmentStep_safe hi)) fun l' hl' => ?_
      exact ih hl'.2 hl'.1.1

theorem addSegmentLoop_rank {st0 : St I C} {ρ : Nat → Nat} {s : Segment C} (hs : SegOK st0.ns.length s) {niMax : Nat} (fuel : Nat)
    {l : St.SegLoop I C} (hi : SegInv A st0 s l) (h : SegRank ρ st0 niMax l) :
    Ens (fun _ => True) (SegRank ρ st0 niMax) (St.addSegmentLoop st0.ss.length s fuel l) := by
  induction fuel generalizing l with
  | zero => trivial
  | succ k ih =>
    unfold St.addSegmentLoop
    refine Ens.ite (fun he => h) fun _ => ?_
    refine Ens.bind ((addSegmentStep_ranked (fun _ => trivial) hs hi h).with (addSegmentStep_safe hi)) fun l' hl' => ?_
    exact ih hl'.2 hl'.1.1

theorem addSegment_room {M : Machine} {N : Nat} {cfg : Cfg} (hM : Room M cfg N) {st : St I C}
    (hwf : WF A st) (h : Tidy N st) (hN : st.ns.length ≤ N) (hS : st.ss.length < N) (fuel : Nat)
    {niMin niMax : Nat} (hmin : niMin < st.ns.length) (hmax : niMax < st.ns.length)
    (cMin cMax : Coords C) :
    st.addSegmentW M cfg fuel niMin niMax cMin cMax = st.addSegment cfg fuel niMin niMax cMin cMax := by
  obtain ⟨⟨ρ, hρ, hr⟩, ho, hsz, hdp⟩ := h
  have hq : st.qs.length + st.ns.length + 2 ≤ M.qs := by
    have h1 : (st.ss.length + 1) * (N + 2) ≤ N * (N + 2) := Nat.mul_le_mul_right _ hS
    have h2 : (st.ss.length + 1) * (N + 2) = st.ss.length * (N + 2) + (N + 2) := Nat.succ_mul _ _
    have h3 : N ^ 2 + 4 * N + 1 = 1 + 2 * N + N * (N + 2) := by ring
    have := hM.qs
    omega
  have hts : st.ts.length < M.ts := by
    have := hM.ts
    have := hwf.size
    omega
  unfold addSegmentW addSegment
  refine bind_eq (addSegmentStart_room hM.valid _ (by have := hM.ss; omega) hts (by omega) _ _ _ _)
    ((addSegmentStart_ranked (E := fun _ => True) (fun _ => trivial) hwf hρ hr ho hmin hmax cMin cMax).with
    (addSegmentStart_safe hwf hmin hmax cMin cMax)) ?_
  rintro l ⟨hl, hi⟩
  refine bind_eq (addSegmentLoop_room hM.valid _ ⟨hmin, hmax⟩ fuel hi hl (by omega)) (addSegmentLoop_rank ⟨hmin, hmax⟩ fuel hi hl) ?_
  intro l hl
  refine bind_same fun ns _ => ?_
  simp only [debugCheck_room hM (st := { l.st with ns := ns }) (hdp.step hwf.qs hl.lev) (by omega)]

theorem Limited.post {P : α → Prop} {x y : Res ε α} (h : Limited P x y) (e : x = y) (a : α) (ha : y = .ok a) : P a := by
  subst e
  rcases h with h | ⟨-, h⟩
  · rw [h] at ha; cases ha
  · exact h a ha

theorem addVertexAt_size (st : St I C) (vi : I) (c : Coords C) (qp ti : Nat) :
    Ens (fun _ => True) (fun st' : St I C => st'.ns.length = st.ns.length + 1 ∧ st'.ss = st.ss) (st.addVertexAt vi c qp ti) := by
  have any : ∀ {α : Type} (x : Res IErr α), Ens (fun _ => True) (fun _ => True) x := fun x => by cases x <;> trivial
  unfold St.addVertexAt
  refine Ens.bind (any _) fun qLeft _ => Ens.bind (any _) fun qs _ => Ens.bind (any _) fun ts _ => Ens.bind (any _) fun t _ => ?_
  refine Ens.bind (P := fun ns => ns.length = st.ns.length + 1) ?_ fun ns hns => ⟨hns, rfl⟩
  rcases hr : replaceAt _ _ _ _ with e | ns
  · trivial
  · exact ((replaceAt_near _ _ _ _).post rfl ns hr).trans (by simp)

theorem addVertexVL_room {M : Machine} {N : Nat} {cfg : Cfg} (hM : Room M cfg N) {st : St I C}
    (h : WF A st) (ht : Tidy N st) (fuel : Nat) (p : PolyList I V)
    (xy : V → Coords C) {vls : List (VLoc I C)}
    (hn : st.ns.length + (pend vls).length ≤ N) (hs : st.ss.length ≤ N) {i : Nat} {c : Coords C} {vi : I}
    {q : Nat} (hi : vls[i]? = some (.pending c vi q)) :
    St.addVertexVLW M cfg fuel p xy st vls i vi q = St.addVertexVL cfg fuel p xy st vls i vi q := by
  have hpos : 1 ≤ (pend vls).length := by
    have := (pend_set_none (b := .inserted c 0) hi rfl rfl).length_eq
    simp only [List.length_cons] at this
    omega
  have hq : st.qs.length + 1 < M.qs := by
    have h1 : st.ss.length * (N + 2) ≤ N * (N + 2) := Nat.mul_le_mul_right _ hs
    have h3 : N ^ 2 + 4 * N + 1 = 1 + 2 * N + N * (N + 2) := by ring
    have := hM.qs
    have := ht.size
    omega
  have hts : st.ts.length < M.ts := by
    have := hM.ts
    have := h.size
    omega
  unfold St.addVertexVLW St.addVertexVL
  refine congrArg (· >>= _) ?_
  unfold addVertexW addVertex
  refine bind_same fun c _ => bind_same fun r hr => ?_
  obtain ⟨qp, ti⟩ := r
  have hsk : st.qs[qp]? = some (.sink ti) := by
    have := find_sink st.qs c fuel q
    rw [hr] at this
    exact this
  refine bind_eq (addVertexAt_room hM.valid _ (by have := hM.ns; omega) hts hq vi c qp ti)
    ((addVertexAt_ranked (E := fun _ => True) (fun _ => trivial) h ht vi c hsk).with (addVertexAt_size st vi c qp ti)) ?_
  rintro st' ⟨ht', hn', hs'⟩
  simp only [debugCheck_room hM ht'.deep (by rw [hn', hs']; omega)]

theorem addEnds_room {M : Machine} {N : Nat} {cfg : Cfg} (hM : Room M cfg N) {st : St I C}
    (h : WF A st) (ht : Tidy N st) {fuel : Nat}
    (hf : enough N ≤ fuel) (p : PolyList I V)
    (xy : V → Coords C) {vs : List (I × Coords C)} (hvs : ∀ v ∈ vs, Src A p xy v)
    {vls : List (VLoc I C)} (hvl : VlsOK st.keys st.qs.length vs vls)
    (hn : st.ns.length + (pend vls).length ≤ N) (hs : st.ss.length ≤ N)
    (hlen : 2 ≤ vs.length) (hvN : vs.length ≤ N) {si : Nat} (hsi : si < vs.length) :
    St.addEndsW M cfg fuel p xy st vls si = St.addEnds cfg fuel p xy st vls si := by
  have hb := hM.valid.fits (room := M.vls) (n := si) (by simp) (by have := hM.vls; omega)
  unfold St.addEndsW St.addEnds
  refine add_eq' (by omega) ?_
  simp only
  have hsi' : si < vls.length := by rw [hvl.len]; exact hsi
  have hsj' : (si + 1) % vls.length < vls.length := Nat.mod_lt _ (by omega)
  have hne : si ≠ (si + 1) % vls.length := ne_succ_mod (by rw [hvl.len]; exact hlen) hsi'
  generalize (si + 1) % vls.length = sj at hne hsj' ⊢
  refine bind_eq (E := fun _ => True) rfl (Ens.getP_lt hsi') fun vl0 h0 => ?_
  refine bind_eq (E := fun _ => True) rfl (Ens.getP_lt hsj') fun vl1 h1 => ?_
  have one : ∀ i c0 i0 q0, vls[i]? = some (.pending c0 i0 q0) →
      St.addVertexVLW M cfg fuel p xy st vls i i0 q0 = St.addVertexVL cfg fuel p xy st vls i i0 q0 :=
    fun i c0 i0 q0 hi => addVertexVL_room hM h ht fuel p xy hn hs hi
  have two : ∀ i j c0 i0 q0 c1 i1 q1, i ≠ j →
      vls[i]? = some (.pending c0 i0 q0) →
      vls[j]? = some (.pending c1 i1 q1) → ∀ f : Nat → Nat → Nat × Nat × Nat,
      (do
        let (st, vls, ni0) ← St.addVertexVLW M cfg fuel p xy st vls i i0 q0
        let (st, vls, ni1) ← St.addVertexVLW M cfg fuel p xy st vls j i1 q1
        .ok (st, vls, f ni0 ni1) : Res IErr _) = (do
        let (st, vls, ni0) ← St.addVertexVL cfg fuel p xy st vls i i0 q0
        let (st, vls, ni1) ← St.addVertexVL cfg fuel p xy st vls j i1 q1
        .ok (st, vls, f ni0 ni1)) := by
    intro i j c0 i0 q0 c1 i1 q1 hij hi hj f
    refine bind_eq (one i c0 i0 q0 hi) ((addVertexVL_ranked (E := fun _ => True) (fun _ => trivial) h ht cfg (fun _ => trivial)
      hf p xy hvs hvl hn hs hi).with (addVertexVL_safe h cfg fuel p xy hvs hvl hi)) ?_
    rintro ⟨sta, vlsa, na⟩ ⟨hta, hga, hka, hva⟩
    simp only at hta hga hka hva ⊢
    have hj2 : vlsa[j]? = some (.pending c1 i1 q1) := by
      rw [hva, List.getElem?_set]; simp [hij, hj]
    rw [addVertexVL_room hM hga.wf hta fuel p xy (by rw [hga.size]; exact hn) (by rw [hga.ss]; exact hs) hj2]
  rcases vl0 with ⟨c0, i0, q0⟩ | ⟨c0, ni0⟩ <;> rcases vl1 with ⟨c1, i1, q1⟩ | ⟨c1, ni1⟩
  · simp only
    split
    · exact two si sj c0 i0 q0 c1 i1 q1 hne h0 h1 fun a b => (a, b, 2)
    · exact two sj si c1 i1 q1 c0 i0 q0 (Ne.symm hne) h1 h0 fun a b => (b, a, 2)
  · simp only [one _ _ _ _ h0]
  · simp only [one _ _ _ _ h1]
  · rfl

theorem addNthSegment_room {M : Machine} {N : Nat} {cfg : Cfg} (hM : Room M cfg N) {st : St I C}
    (h : WF A st) (ht : Tidy N st) {fuel : Nat}
    (hf : enough N ≤ fuel) (p : PolyList I V)
    (xy : V → Coords C) {vs : List (I × Coords C)} (hvs : ∀ v ∈ vs, Src A p xy v)
    {vls : List (VLoc I C)} (hvl : VlsOK st.keys st.qs.length vs vls)
    (hn : st.ns.length + (pend vls).length ≤ N) (hs : st.ss.length < N)
    (hlen : 2 ≤ vs.length) (hvN : vs.length ≤ N) {si : Nat} (hsi : si < vs.length) :
    St.addNthSegmentW M cfg fuel p xy st vls si = St.addNthSegment cfg fuel p xy st vls si := by
  unfold St.addNthSegmentW St.addNthSegment
  refine bind_eq (addEnds_room hM h ht hf p xy hvs hvl hn hs.le hlen hvN hsi)
    ((addEnds_ranked (E := fun _ => True) (fun _ => trivial) h ht cfg (fun _ => trivial) hf p xy hvs hvl hn (by omega) hlen hsi).with
    (addEnds_safe h cfg fuel p xy hvs hvl hlen si)) ?_
  rintro ⟨st', vls', ni0, ni1, added⟩ ⟨ht', hg, hk0, hk1, -, hi0, hi1, hp⟩
  simp only at ht' hg hk0 hk1 hi0 hi1 hp ⊢
  have hsj : (si + 1) % vs.length < vs.length := Nat.mod_lt _ (by omega)
  obtain ⟨v0, hv0⟩ : ∃ v, vs[si]? = some v := ⟨_, List.getElem?_eq_getElem hsi⟩
  obtain ⟨v1, hv1⟩ : ∃ v, vs[(si + 1) % vs.length]? = some v := ⟨_, List.getElem?_eq_getElem hsj⟩
  rw [hv0] at hk0
  rw [hv1] at hk1
  have hl0 := lt_of_get hk0
  have hl1 := lt_of_get hk1
  rw [keys_length] at hl0 hl1
  have hsz := hg.size
  have hsg : ∀ a b, a < st'.ns.length → b < st'.ns.length → ∀ c d,
      st'.addSegmentW M cfg fuel a b c d = st'.addSegment cfg fuel a b c d := fun a b ha hb c d =>
    addSegment_room hM hg.wf ht' (by omega) (by rw [hg.ss]; exact hs) fuel ha hb c d
  simp only [hsg _ _ hl0 hl1, hsg _ _ hl1 hl0]

theorem relocLoop_room {M : Machine} (hM : M.Valid) (debug : Bool) (fuel : Nat) (st : St I C) (k : Nat) {r : Reloc I C}
    (hv : r.vls.length ≤ M.vls) (ht : r.target ≤ M.vls) :
    relocLoopW M debug fuel st k r = relocLoop fuel st k r := by
  induction k generalizing r with
  | zero => rfl
  | succ k ih =>
    have h1 := hM.fits (by simp) ht
    have e : relocStepW M debug fuel st r = relocStep fuel st r := add_eq' (by omega) rfl
    unfold relocLoopW relocLoop
    split
    · rfl
    · rw [e]
      refine bind_same fun r' hr' => ?_
      have := (relocStep_near hM debug fuel st hv ht).post e r' hr'
      exact ih (this.1.trans_le hv) this.2

theorem polyStep_room {M : Machine} {N : Nat} {cfg : Cfg} (hM : Room M cfg N)
    {fuel : Nat} (hf : enough N ≤ fuel) (p : PolyList I V) (xy : V → Coords C)
    {vs : List (I × Coords C)} (hvs : ∀ v ∈ vs, Src A p xy v) (hlen : 2 ≤ vs.length) {st0 : St I C}
    {done : List Nat} {l : St.PolyLoop I C} (h : PolyInv A vs st0 done l) (ht : Tidy N l.st)
    (hn : st0.ns.length + vs.length ≤ N) (hs : st0.ss.length + done.length < N)
    {si : Nat} {rest : List Nat} (hp : PolyFits M vs.length (si :: rest) l) :
    St.polyStepW M cfg fuel p xy l si = St.polyStep cfg fuel p xy l si := by
  have hsi := hp.rest si (by simp)
  have hc := hp.count
  simp only [List.length_cons] at hc
  have hvN : vs.length ≤ M.vls := by have := hM.vls; omega
  have hb := hM.valid.fits (by simp) hvN
  have hsz : l.st.ns.length + (pend l.vls).length = st0.ns.length + vs.length := by
    have := h.perm.length_eq
    simpa [List.length_append, keys_length] using this
  have hss : l.st.ss.length = st0.ss.length + done.length := by
    obtain ⟨segs, h1, h2⟩ := h.ss
    rw [h1, List.length_append, h2.length_eq]
  have e := addNthSegment_room hM h.wf ht hf p xy hvs h.ok (by omega) (by omega) hlen (by omega) hsi
  unfold St.polyStepW St.polyStep
  rw [e]
  refine bind_same fun r hr => bind_same fun pd _ => ?_
  have hv : r.2.1.length = vs.length :=
    ((addNthSegment_near hM.valid cfg fuel p xy hp.st l.vls (by omega)).post e r hr).2.trans hp.vls
  split
  · have e2 : relocateW M cfg.debug fuel r.1 r.2.1 si pd = relocate fuel r.1 r.2.1 si pd :=
      new_eq (by have := hM.valid.big; omega) (relocLoop_room hM.valid _ _ _ _ (hv.trans_le hvN) (by simp only; omega))
    rw [e2]
    exact bind_same fun vls _ => add_eq' (by omega) rfl
  · rfl

theorem addPolygon_room {M : Machine} {N : Nat} {cfg : Cfg} (hM : Room M cfg N) {st : St I C}
    (h : WF A st) (ht : Tidy N st) (hfit : InRoom M st)
    (hcfg : cfg.Valid) {fuel : Nat}
    (hf : enough N ≤ fuel) (p : PolyList I V) (xy : V → Coords C) (k : Nat)
    {vs : List (I × Coords C)} (hvs : ∀ v ∈ vs, Src A p xy v) (hlen : 2 ≤ vs.length)
    (hn : st.ns.length + vs.length ≤ N) (hs : st.ss.length + vs.length ≤ N) :
    St.addPolygonW M cfg fuel p xy k st (startLocs vs) = St.addPolygon cfg fuel p xy k st (startLocs vs) := by
  have hol : (cfg.order k vs.length).length = vs.length := by
    rw [(hcfg k vs.length).length_eq, List.length_range]
  have hl : (startLocs vs).length = vs.length := by simp [startLocs]
  have hvN : vs.length ≤ M.vls := by have := hM.vls; omega
  unfold St.addPolygonW St.addPolygon
  rw [hl]
  have h0 : PolyInv A vs st [] ⟨st, startLocs vs, vs.length, 0, 1, cfg.mathN vs.length 1⟩ := by
    refine ⟨h, ⟨hl, ?_⟩, List.prefix_refl _, ?_, by simp, ?_, ⟨[], by simp, .nil⟩⟩
    · intro i v vl h1 h2
      simp only [startLocs, List.getElem?_map, h1, Option.map_some, Option.some.injEq] at h2
      subst h2
      exact ⟨rfl, h.root⟩
    · show (st.keys ++ pend (startLocs vs)).Perm _
      rw [pend_startLocs]
    · show _ = (pend (startLocs vs)).length
      rw [pend_startLocs]
  have hcap : (Machine.capacity M.us vs.length : Res IErr Unit) = .ok () := if_pos (by have := hM.us; omega)
  simp only [hcap]
  refine ok_bind_eq <| bind_eq (E := fun _ => True) (P := fun _ => True) ?_ (Ens.any _) fun _ _ => rfl
  have key : ∀ (rest : List Nat) (l : St.PolyLoop I C), Tidy N l.st → PolyFits M vs.length rest l →
      (∃ done, cfg.order k vs.length = done ++ rest ∧ PolyInv A vs st done l) →
      rest.foldlM (St.polyStepW M cfg fuel p xy) l = rest.foldlM (St.polyStep cfg fuel p xy) l := by
    intro rest
    induction rest with
    | nil => intro l _ _ _; rfl
    | cons a rest ih =>
      rintro l ht hfl ⟨done, hd, hi⟩
      have ha : a < vs.length := hfl.rest a (by simp)
      have hdl : done.length < vs.length := by
        rw [hd] at hol
        simp only [List.length_append, List.length_cons] at hol
        omega
      have e := polyStep_room hM hf p xy hvs hlen hi ht hn (by omega) hfl
      rw [List.foldlM_cons, List.foldlM_cons]
      refine bind_eq e ((polyStep_ranked (E := fun _ => True) (fun _ => trivial) cfg (fun _ => trivial) hf p xy hvs hlen hi ht hn
        (by omega) ha).with (polyStep_safe cfg fuel p xy hvs hlen hi a)).withEq fun l' hl' => ?_
      exact ih l' hl'.2.1 ((polyStep_near hM.valid cfg fuel p xy hvN hfl).post e l' hl'.1) ⟨done ++ [a], by simp [hd], hl'.2.2⟩
  refine key _ _ ht ⟨hfit, hl, ?_, ?_⟩ ⟨[], rfl, h0⟩
  · simp only
    omega
  · exact fun i hi => List.mem_range.1 ((hcfg k vs.length).subset hi)

theorem buildStep_room {M : Machine} (cfg : Cfg) (hcfg : cfg.Valid) {fuel : Nat} (p : PolyList I V)
    (xy : V → Coords C) (hM : Room M cfg (conts p.elems)) (hf : enough (conts p.elems) ≤ fuel) {e : Option (Elem I)}
    {rest : List (Option (Elem I))}
    {l : St.BuildLoop I C} (h : BuildRank p xy (e :: rest) l) (hfit : InRoom M l.st) :
    St.buildStepW M cfg fuel p xy l e = St.buildStep cfg fuel p xy l e := by
  have hns := h.ns
  have hss := h.ss
  rcases e with _ | ⟨i⟩ | _
  · rfl
  · have hc : conts (some (.cont i) :: rest) = conts rest + 1 := by simp [conts]
    rw [hc] at hns
    have := hM.vls
    have := hM.valid.big
    exact bind_same fun c _ => new_eq (by omega) <| push_eq (by omega) rfl
  · obtain ⟨⟨hwf, vs, hvs, hsrc⟩, ht, -, -, -⟩ := h
    have hc : conts (some .newPolygon :: rest) = conts rest := by simp [conts]
    rw [hc] at hns hss
    have hlv : l.vLookup.length = vs.length := by rw [hvs]; simp [startLocs]
    simp only [buildStepW, buildStep]
    split
    · split
      · rfl
      · rw [hvs, addPolygon_room hM hwf ht hfit hcfg hf p xy l.k hsrc (by omega) (by omega) (by omega)]
    · rfl

/-- The hint of a vertex count does not make any reserved vector too long. -/
structure HintFits (M : Machine) (n : Nat) : Prop where
  qs : n * 4 ≤ M.qs
  ts : n * 2 + 1 ≤ M.ts
  ns : n ≤ M.ns
  ss : n ≤ M.ss
  vls : n ≤ M.vls

theorem new_room {M : Machine} (hM : M.Valid) (debug : Bool) {n : Nat} (h : HintFits M n) (hq : 0 < M.qs) :
    (newW M debug n : Res ε (St I C)) = .ok St.init := by
  have f1 := hM.fits (by simp) h.qs
  have f2 := hM.fits (by simp) h.ts
  have hb := hM.big
  have ht := h.ts
  unfold newW
  rw [mul_ok (by omega), mul_ok (by omega)]
  have hc : ∀ {room n : Nat}, n ≤ room → (Machine.capacity room n : Res ε Unit) = .ok () := fun h => if_pos h
  simp only [bind, Except.bind, hc h.qs, hc h.ns, hc h.ss, hc h.vls, new_ok (i := 0) (M := M) (by omega),
    add_ok (M := M) (a := n * 2) (b := 1) (by omega), hc h.ts]
  simp [Machine.push, hq, show 0 < M.ts by omega, St.init]

theorem trapezoidize_room {M : Machine} (cfg : Cfg) (hcfg : cfg.Valid) {fuel : Nat} (p : PolyList I V)
    (xy : V → Coords C) (hM : Room M cfg (conts p.elems)) (hv : HintFits M p.vertexCount) (hf : enough (conts p.elems) ≤ fuel) :
    trapezoidizeW M cfg fuel p xy = trapezoidize cfg fuel p xy := by
  have hq := hM.qs
  have hts := hM.ts
  unfold trapezoidizeW trapezoidize build
  rw [new_room hM.valid _ hv (by omega)]
  refine ok_bind_eq <| bind_eq (E := fun _ => True) (P := fun _ => True) ?_ (Ens.any _) fun _ _ => rfl
  have key : ∀ (rest : List (Option (Elem I))) (l : St.BuildLoop I C), BuildRank p xy rest l → InRoom M l.st ∧ l.vLookup.length ≤ M.vls →
      rest.foldlM (St.buildStepW M cfg fuel p xy) l = rest.foldlM (St.buildStep cfg fuel p xy) l := by
    intro rest
    induction rest with
    | nil => intro l _ _; rfl
    | cons a rest ih =>
      intro l h hfit
      have e := buildStep_room cfg hcfg p xy hM hf h hfit.1
      rw [List.foldlM_cons, List.foldlM_cons]
      refine bind_eq e (buildStep_ranked cfg hcfg p xy hf h).withEq fun l' hl' => ?_
      exact ih l' hl'.2 ((buildStep_near hM.valid cfg hcfg fuel p xy hfit.1 hfit.2 a).post e l' hl'.1)
  refine key _ _ ?_ ⟨⟨Nat.zero_le _, Nat.zero_le _, ?_, ?_⟩, Nat.zero_le _⟩
  · refine ⟨⟨WF.init, [], rfl, by simp⟩, Tidy.init _, ?_, ?_, ?_⟩
    · simp [St.init, conts]
    · simp [St.init, conts]
    · intro e he
      rcases List.mem_append.1 he with h | h
      · exact .inr h
      · exact .inl (List.mem_singleton.1 h)
  · simp [St.init]; omega
  · simp [St.init]; omega

end Tri
