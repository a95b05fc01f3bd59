import Verif.Proof.Count
import Verif.Proof.Ending
import Verif.Proof.Cover

/-!
# What the whole run on valid input hands over
-/

set_option linter.unusedSectionVars false

namespace Tri

variable {I V K : Type} [Field K] [LinearOrder K] [IsStrictOrderedRing K]

attribute [local instance] exact

/-! ## Reading fans off calls -/

theorem map_extend_split {l l' : List I} {X Y : List (Call I)} (hX : StartsNew X) (hY : StartsNew Y)
    (h : l.map Call.extend ++ X = l'.map Call.extend ++ Y) : l = l' ∧ X = Y := by
  induction l generalizing l' with
  | nil =>
    cases l' with
    | nil => exact ⟨rfl, h⟩
    | cons a l' => exact absurd h (hX _ _)
  | cons a l ih =>
    cases l' with
    | nil => exact absurd h.symm (hY _ _)
    | cons b l' =>
      simp only [List.map_cons, List.cons_append, List.cons.injEq, Call.extend.injEq] at h
      obtain ⟨h1, h2⟩ := ih h.2
      exact ⟨by rw [h.1, h1], h2⟩

theorem startsNew_fans (fans : List (List I)) : StartsNew (fans.flatMap fanCalls) := by
  induction fans with
  | nil => exact StartsNew.nil
  | cons f fans ih =>
    rw [List.flatMap_cons]
    refine StartsNew.append ?_ ih
    rcases f with _ | ⟨a, _ | ⟨b, _ | ⟨c, l⟩⟩⟩
    · exact StartsNew.nil
    · exact StartsNew.nil
    · exact StartsNew.nil
    · intro v l' h; cases h

/-- The calls determine the fans. -/
theorem fanCalls_inj {fans fans' : List (List I)} (h3 : ∀ f ∈ fans, 3 ≤ f.length) (h3' : ∀ f ∈ fans', 3 ≤ f.length)
    (h : fans.flatMap fanCalls = fans'.flatMap fanCalls) : fans = fans' := by
  have split : ∀ f : List I, 3 ≤ f.length → ∃ a b c l, f = a :: b :: c :: l := by
    intro f hf
    rcases f with _ | ⟨a, _ | ⟨b, _ | ⟨c, l⟩⟩⟩
    · simp at hf
    · simp at hf
    · simp at hf
    · exact ⟨a, b, c, l, rfl⟩
  induction fans generalizing fans' with
  | nil =>
    cases fans' with
    | nil => rfl
    | cons f' fans' =>
      obtain ⟨a, b, c, l, rfl⟩ := split f' (h3' _ (by simp))
      simp [fanCalls] at h
  | cons f fans ih =>
    obtain ⟨a, b, c, l, rfl⟩ := split f (h3 _ (by simp))
    cases fans' with
    | nil => simp [fanCalls] at h
    | cons f' fans' =>
      obtain ⟨a', b', c', l', rfl⟩ := split f' (h3' _ (by simp))
      simp only [List.flatMap_cons, fanCalls, List.cons_append, List.cons.injEq, Call.newFan.injEq] at h
      obtain ⟨h1, h2⟩ := map_extend_split (startsNew_fans fans) (startsNew_fans fans') h.2
      rw [ih (fun f hf => h3 f (by simp [hf])) (fun f hf => h3' f (by simp [hf])) h2, h1, h.1.1, h.1.2.1, h.1.2.2]

/-- A run hands over one list of fans. -/
theorem Returns.unique {C : Type} [Scalar C] [DecidableEq I] {cfg : Cfg} {p : PolyList I V} {xy : V → Coords C} {w : Winding}
    {fans fans' : List (List I)} (h : Returns cfg p xy w fans) (h' : Returns cfg p xy w fans') : fans = fans' := by
  obtain ⟨h3, N, hN⟩ := h
  obtain ⟨h3', N', hN'⟩ := h'
  have e1 := hN (max N N') (le_max_left _ _)
  have e2 := hN' (max N N') (le_max_right _ _)
  rw [e1] at e2
  exact fanCalls_inj h3 h3' (Except.ok.inj e2)

/-! ## Formats that do not fail -/

theorem feedB_infallible {F : FanFormat I} (hF : F.Infallible) (cs : List (Call I)) (b : F.B) :
    (feedB F cs b).2 = .ok () := by
  induction cs generalizing b with
  | nil => rfl
  | cons c cs ih =>
    cases c with
    | newFan x y z =>
      have h := hF.newFan b x y z
      rcases hr : F.newFan b x y z with ⟨b', r⟩
      rw [hr] at h
      simp only at h
      subst h
      simp only [feedB, hr]
      exact ih b'
    | extend v =>
      have h := hF.extendFan b v
      rcases hr : F.extendFan b v with ⟨b', r⟩
      rw [hr] at h
      simp only at h
      subst h
      simp only [feedB, hr]
      exact ih b'

theorem play_infallible {F : FanFormat I} (hF : F.Infallible) {cs : List (Call I)} (hcs : StartsNew cs) (hne : cs ≠ []) :
    ∃ o, (play F cs (.ok ())).2 = .ok o := by
  rcases cs with _ | ⟨c, cs⟩
  · exact absurd rfl hne
  · cases c with
    | extend v => exact absurd rfl (hcs v cs)
    | newFan x y z =>
      obtain ⟨s, hs⟩ := hF.start x y z
      have h := feedB_infallible hF cs s
      rcases hr : feedB F cs s with ⟨b, r⟩
      rw [hr] at h
      simp only at h
      subst h
      obtain ⟨o, ho⟩ := hF.build b
      refine ⟨o, ?_⟩
      simp only [play, hs, hr, liftInner, finishB]
      rcases hb : F.build b with ⟨w, r⟩
      rw [hb] at ho
      simp only at ho
      subst ho
      rfl

/-- If the run itself succeeds, then only the format's own operations can make it fail. -/
theorem play_blames (F : FanFormat I) {cs : List (Call I)} (hcs : StartsNew cs) (hne : cs ≠ []) :
    (∃ o, (play F cs (.ok ())).2 = .ok o) ∨ ∃ e, (play F cs (.ok ())).2 = .error (liftBuilderErr e) := by
  have hfin : ∀ (b : F.B) (e : Fault F.E), (finishB F b (.error (liftBuilderErr e))).2 = .error (liftBuilderErr e) := by
    intro b e
    cases e <;> rfl
  rcases cs with _ | ⟨c, cs⟩
  · exact absurd rfl hne
  · cases c with
    | extend v => exact absurd rfl (hcs v cs)
    | newFan x y z =>
      simp only [play]
      rcases F.start x y z with ⟨e, w⟩ | b
      · exact .inr ⟨e, rfl⟩
      · rcases hr : feedB F cs b with ⟨b', e | u⟩
        · exact .inr ⟨e, by simp only [hr]; exact hfin b' e⟩
        · simp only [hr, liftInner, finishB]
          rcases F.build b' with ⟨w, e | o⟩
          · exact .inr ⟨e, rfl⟩
          · exact .inl ⟨o, rfl⟩

/-! ## The run -/

/-- The points off the edges of the polygons. -/
def OffEdges (gs : List (List (Coords K))) (q : Coords K) : Prop := ∀ e ∈ gs.flatMap cycleEdges, ¬ OnSeg e q

theorem exists_above (l : List (Coords K)) : ∃ y : K, ∀ v ∈ l, v.y < y := by
  induction l with
  | nil => exact ⟨0, by simp⟩
  | cons a l ih =>
    obtain ⟨y, hy⟩ := ih
    refine ⟨max y (a.y + 1), fun v hv => ?_⟩
    rcases List.mem_cons.1 hv with rfl | hv
    · exact lt_of_lt_of_le (by linarith) (le_max_right _ _)
    · exact lt_of_lt_of_le (hy v hv) (le_max_left _ _)

theorem onSeg_le {a b q : Coords K} {y : K} (ha : a.y < y) (hb : b.y < y) (h : OnSeg (a, b) q) : q.y < y := by
  obtain ⟨t, h0, h1, -, hy⟩ := h
  simp only at hy
  have e : q.y = (1 - t) * a.y + t * b.y := by rw [hy]; ring
  rcases eq_or_lt_of_le h0 with h | h
  · rw [e, ← h]; simpa using ha
  · have := mul_lt_mul_of_pos_left hb h
    have := mul_le_mul_of_nonneg_left ha.le (sub_nonneg.2 h1)
    rw [e]; nlinarith

theorem edge_mem {α : Type} {gs : List (List α)} {e : α × α} (he : e ∈ gs.flatMap cycleEdges) :
    e.1 ∈ gs.flatten ∧ e.2 ∈ gs.flatten := by
  refine ⟨?_, ?_⟩
  · rw [← flatMap_fst']; exact List.mem_map.2 ⟨e, he, rfl⟩
  · exact (flatMap_snd' gs).mem_iff.1 (List.mem_map.2 ⟨e, he, rfl⟩)

/-- There is a point above all polygons. -/
theorem exists_sky (gs : List (List (Coords K))) : ∃ w, OffEdges gs w ∧ ∀ v ∈ gs.flatten, v.y < w.y := by
  obtain ⟨y, hy⟩ := exists_above gs.flatten
  refine ⟨⟨0, y⟩, fun e he ho => ?_, hy⟩
  have h := edge_mem he
  have := onSeg_le (hy _ h.1) (hy _ h.2) ho
  exact lt_irrefl _ this

variable {P : Plane K} {p : PolyList I V} {xy : V → Coords K} {A : Abs K} {st : St I K} {key : Nat → I × Coords K}
  {lab sgn : Nat → Bool} {gs : List (List (I × Coords K))}

/-- The crossings of the directed segments. -/
theorem dir_level (hW : Whole P A) {ε : K} (hh : P.h = ht ε) (hX : P.X = fun e v => Xh ε e (ht ε v))
    (hkc : ∀ n < A.N, (key n).2 = A.c n) {q : Coords K} (hq : P.U q) [DecidablePred (CrossL P A q)] :
    esum (fun a b : I × Coords K => fy q a.2 b.2) ((List.range A.S).map (dirE A key sgn)) =
      (((List.range A.S).filter fun s => CrossL P A q s).map fun s => sig (sgn s)).sum := by
  have hI := hW.inv
  have hterm : ∀ s < A.S, fy q (dirE A key sgn s).1.2 (dirE A key sgn s).2.2 = if CrossL P A q s then sig (sgn s) else 0 := by
    intro s hs
    have hE := hI.sE s hs
    have hlt := P.E_lt hE
    have hb : below (A.sg s).1 (A.sg s).2 := (P.h_lt (P.lo_U hE) (P.hi_U hE)).2 hlt
    have h1 : UpLeft q (A.sg s).1 (A.sg s).2 ↔ CrossL P A q s := by
      rw [upLeft_iff hb, P.h_lt (P.lo_U hE) hq, P.h_lt hq (P.hi_U hE)]
      rw [hh] at hlt
      have := orient_Xh_neg hlt q
      unfold CrossL
      rw [this, hX]
    have h2 : ¬ UpLeft q (A.sg s).2 (A.sg s).1 := not_upLeft_rev hb
    have k1 : (key (A.mx s)).2 = (A.sg s).2 := by rw [hkc _ (hI.mxN s hs).1, (hI.mxN s hs).2]
    have k2 : (key (A.mn s)).2 = (A.sg s).1 := by rw [hkc _ (hI.mnN s hs).1, hW.mnC s hs]
    unfold dirE
    cases hsg : sgn s
    · simp only [Bool.false_eq_true, if_false, k1, k2, fy, h1, h2, sig]
      split <;> simp
    · simp only [if_true, k1, k2, fy, h1, h2, sig]
      split <;> simp
  have hgen : ∀ l : List Nat, (∀ s ∈ l, s < A.S) →
      esum (fun a b : I × Coords K => fy q a.2 b.2) (l.map (dirE A key sgn)) =
        ((l.filter fun s => CrossL P A q s).map fun s => sig (sgn s)).sum := by
    intro l hl
    induction l with
    | nil => rfl
    | cons s l ih =>
      have e1 : esum (fun a b : I × Coords K => fy q a.2 b.2) ((s :: l).map (dirE A key sgn)) =
          fy q (dirE A key sgn s).1.2 (dirE A key sgn s).2.2 +
            esum (fun a b : I × Coords K => fy q a.2 b.2) (l.map (dirE A key sgn)) := by simp [esum]
      rw [e1, ih fun x hx => hl x (by simp [hx]), hterm s (hl s (by simp)), List.filter_cons]
      by_cases h : CrossL P A q s <;> simp [h]
  exact hgen _ fun s hs => List.mem_range.1 hs

variable [DecidableEq I]

/-- What the triangles `R` of the counterclockwise fans of a run have in common. -/
structure Meshed (gs : List (List (I × Coords K))) (R : List ((I × Coords K) × (I × Coords K) × (I × Coords K)))
    (fwd : (I × Coords K) × (I × Coords K) → Bool) : Prop where
  pos : ∀ t ∈ R, 0 ≤ orientT t
  mem : ∀ t ∈ R, t.1 ∈ gs.flatten ∧ t.2.1 ∈ gs.flatten ∧ t.2.2 ∈ gs.flatten
  dist : ∀ t ∈ R, t.1.2 ≠ t.2.1.2 ∧ t.2.1.2 ≠ t.2.2.2 ∧ t.2.2.2 ≠ t.1.2
  flat : ∀ t ∈ R, orientT t = 0 → ∃ t', Rot t' t ∧ FlatTri t'.1.2 t'.2.1.2 t'.2.2.2
  sum : ∀ (G : Type) [AddCommGroup G] (f : I × Coords K → I × Coords K → G), (∀ a b, f a b = - f b a) →
    (R.map (tsum f)).sum = esum f ((gs.flatMap cycleEdges).map (turn fwd))
  len : ∀ W : I × Coords K → Int, (∀ x ∈ (gs.flatMap cycleEdges).map (turn fwd), ∀ y ∈ (gs.flatMap cycleEdges).map (turn fwd),
    x.2 = y.1 → W x.2 = turnR x.1.2 x.2.2 y.2.2) → (R.length : Int) = gs.flatten.length - 2 * (gs.flatten.map W).sum
  low : ∀ v ∈ gs.flatten, (∀ z ∈ gs.flatten, z ≠ v → below v.2 z.2) → ∃ x ∈ (gs.flatMap cycleEdges).map (turn fwd),
    ∃ y ∈ (gs.flatMap cycleEdges).map (turn fwd), x.2 = v ∧ y.1 = v ∧ 0 < orient x.1.2 v.2 y.2.2

theorem keys_perm (h : AllIn P p xy gs A st) (hW : Whole P A) (hkc : ∀ n < A.N, (key n).2 = A.c n)
    (hkm : ∀ n < A.N, key n ∈ gs.flatten) (hdist : (gs.flatten.map (·.2)).Nodup) (h3 : ∀ g ∈ gs, 3 ≤ g.length) :
    ((List.range A.N).map key).Perm gs.flatten := by
  have hI := hW.inv
  have hinj : ∀ n < A.N, ∀ m < A.N, key n = key m → n = m := fun n hn m hm e =>
    hI.cinj n hn m hm (by rw [← hkc n hn, ← hkc m hm, e])
  refine (List.perm_ext_iff_of_nodup ?_ (hdist.of_map _)).2 fun v => ⟨fun hv => ?_, fun hv => ?_⟩
  · exact List.Nodup.map_on (fun n hn m hm e => hinj n (List.mem_range.1 hn) m (List.mem_range.1 hm) e) List.nodup_range
  · obtain ⟨n, hn, rfl⟩ := List.mem_map.1 hv
    exact hkm n (List.mem_range.1 hn)
  · have hp := h.edges_perm hW hkc hkm hdist h3
    rw [← flatMap_fst'] at hv
    obtain ⟨e, he, rfl⟩ := List.mem_map.1 hv
    obtain ⟨s, hs, hse⟩ := List.mem_map.1 (hp.mem_iff.2 (List.mem_map.2 ⟨e, he, rfl⟩))
    have hs' := List.mem_range.1 hs
    rcases sortP_cases e with k | k
    · rw [k] at hse
      exact List.mem_map.2 ⟨A.mn s, List.mem_range.2 (hI.mnN s hs').1, by rw [← hse]; rfl⟩
    · rw [k] at hse
      have : e = (loHi A key s).swap := by rw [hse, Prod.swap_swap]
      exact List.mem_map.2 ⟨A.mx s, List.mem_range.2 (hI.mxN s hs').1, by rw [this]; rfl⟩

theorem esum_perm {α G : Type} [AddCommGroup G] (f : α → α → G) {es es' : List (α × α)} (h : es.Perm es') :
    esum f es = esum f es' := (h.map _).sum_eq

theorem fresh_of_off (hall : AllIn P p xy gs A st) {q : Coords K} (hq : OffEdges (gs.map (List.map Prod.snd)) q) :
    A.Fresh q := by
  intro n hn he
  obtain ⟨g, hg, v, hv', h⟩ := hall.cs n hn
  have hm : q ∈ (gs.map (List.map Prod.snd)).flatten := by
    rw [← he, h]
    exact List.mem_flatten.2 ⟨_, List.mem_map.2 ⟨g, hg, rfl⟩, List.mem_map.2 ⟨v, hv', rfl⟩⟩
  rw [← flatMap_fst] at hm
  obtain ⟨e, he1, he2⟩ := List.mem_map.1 hm
  exact hq e he1 ⟨0, le_rfl, zero_le_one, by simp [← he2], by simp [← he2]⟩

/-- The run, together with a point to look at. -/
theorem run_mesh (hd : Describes p xy gs) (hv : ValidPolys (gs.map (List.map Prod.snd))) (hne : gs ≠ []) (cfg : Cfg)
    (hcfg : cfg.Valid) {q : Coords K} (hq : OffEdges (gs.map (List.map Prod.snd)) q) :
    ∃ fs fwd, (∀ F : FanFormat I, ∀ fuel ≥ (p.elems.length + 3) ^ 2,
        triangulate cfg fuel p xy F = play F (callsR F.winding fs) (.ok ())) ∧
      (∀ f ∈ fs, 2 ≤ f.2.outer.length) ∧ Meshed gs (trisR fs) fwd ∧
      (((trisR fs).map (tsum fun a b : I × Coords K => fy q a.2 b.2)).sum = 0 ∨
        ((trisR fs).map (tsum fun a b : I × Coords K => fy q a.2 b.2)).sum = 1) := by
  classical
  obtain ⟨w, hw1, hw2⟩ := exists_sky (gs.map (List.map Prod.snd))
  obtain ⟨P, hctx, hU, hE, ε, hε, hh, hX⟩ := exists_polysCtx hd hv (ghosts := [q, w]) (by
    intro x hx
    rcases List.mem_cons.1 hx with rfl | hx
    · exact hq
    · rw [List.mem_singleton] at hx; subst hx; exact hw1)
  obtain ⟨N, A, st, hr, hall⟩ := trapezoidize_run hctx cfg.order cfg.mathN hcfg
  have hG := hall.glob
  have hI := hG.inv
  have hqU : P.U q := (hU q).2 (.inr (by simp))
  have hwU : P.U w := (hU w).2 (.inr (by simp))
  have hsky : Sky P A := by
    refine ⟨w, hwU, fun n hn => ?_⟩
    refine (P.h_lt (hI.cU n hn) hwU).1 (.inl ?_)
    obtain ⟨g, hg, v, hv', h⟩ := hall.cs n hn
    rw [h]
    exact hw2 _ (List.mem_flatten.2 ⟨_, List.mem_map.2 ⟨g, hg, rfl⟩, List.mem_map.2 ⟨v, hv', rfl⟩⟩)
  obtain ⟨key, lab, sgn, D, hkey⟩ := hall.dfs hctx.poly hsky hne
  have htsL : st.ts.length = A.M := hG.link.tsL
  obtain ⟨fs, n, hinner, hem, hcount, hsum⟩ := D.mesh hh hX hG.qry htsL
  have hkm : ∀ n < A.N, key n ∈ gs.flatten := fun n hn => key_mem hd (hr cfg rfl rfl N le_rfl) D.src hkey hn
  have hdist : (gs.flatten.map (·.2)).Nodup := by
    have := hv.distinct
    rwa [← List.map_flatten] at this
  have h3 : ∀ g ∈ gs, 3 ≤ g.length := by
    intro g hg
    have := hv.three _ (List.mem_map.2 ⟨g, hg, rfl⟩)
    simpa using this
  obtain ⟨fwd, hfwd⟩ := hall.dir_perm (sgn := sgn) D.whole D.keyc hkm hdist h3
  refine ⟨fs, fwd, fun F fuel hf => ?_, hem.two, ⟨hem.pos, ?_, hem.dist, hem.flat, ?_, ?_, ?_⟩, ?_⟩
  · obtain ⟨h1, h1', h1'', h1'''⟩ := trapezoidize_early cfg hcfg p xy (fun fuel hf => hr cfg rfl rfl fuel hf) fuel hf
    have h2 := hinner F.winding fuel h1' (by rwa [htsL] at h1'') (by rwa [hG.link.nsL] at h1''')
    rw [triangulate, h1]
    simp only [Res.mapErr]
    rw [triangulate_eq_play, h2]
  · intro t ht
    have hsub : ∀ x ∈ (List.range A.N).map key, x ∈ gs.flatten := by
      intro x hx
      obtain ⟨n, hn, rfl⟩ := List.mem_map.1 hx
      exact hkm n (List.mem_range.1 hn)
    obtain ⟨a, b, c⟩ := hem.mem t ht
    exact ⟨hsub _ a, hsub _ b, hsub _ c⟩
  · intro G _ f hf
    rw [hsum G f hf, esum_perm f hfwd]
  · intro W hWt
    have hkp := keys_perm hall D.whole D.keyc hkm hdist h3
    have hN : A.N = gs.flatten.length := by simpa using hkp.length_eq
    have hS : A.S = gs.flatten.length := by
      have h1 := hfwd.length_eq
      have h2 := congrArg List.length (flatMap_fst' gs)
      simp only [List.length_map, List.length_range] at h1 h2
      omega
    have hd1 : ∀ s < A.S, dirE A key sgn s ∈ (gs.flatMap cycleEdges).map (turn fwd) := fun s hs =>
      hfwd.mem_iff.1 (List.mem_map.2 ⟨s, List.mem_range.2 hs, rfl⟩)
    have hv1 : ∀ n ∈ List.range A.N, (((A.downs n).filter lab).length : Int) = 1 - W (key n) := by
      intro n hn
      obtain ⟨s, hs, s', hs', e1, e2, e3, -⟩ := D.vertex hh hX (List.mem_range.1 hn)
      have := hWt _ (hd1 s hs) _ (hd1 s' hs') (by rw [e1, e2])
      rw [e3, ← e1, this, e1]
    have hsub : ∀ l : List Nat, (l.map fun n => 1 - W (key n)).sum = (l.length : Int) - ((l.map key).map W).sum := by
      intro l
      induction l with
      | nil => rfl
      | cons a l ih =>
        simp only [List.map_cons, List.sum_cons, ih, List.length_cons]; push_cast; omega
    rw [hem.len, hcount, D.inside_count, sum_map_congr hv1, hsub, (hkp.map W).sum_eq, List.length_range, hN, hS]
    ring
  · intro v hv hlow
    have hkp := keys_perm hall D.whole D.keyc hkm hdist h3
    obtain ⟨n, hn, rfl⟩ := List.mem_map.1 (hkp.mem_iff.2 hv)
    have hn' := List.mem_range.1 hn
    have hd1 : ∀ s < A.S, dirE A key sgn s ∈ (gs.flatMap cycleEdges).map (turn fwd) := fun s hs =>
      hfwd.mem_iff.1 (List.mem_map.2 ⟨s, List.mem_range.2 hs, rfl⟩)
    obtain ⟨s, hs, s', hs', e1, e2, -, e3⟩ := D.vertex hh hX hn'
    refine ⟨_, hd1 s hs, _, hd1 s' hs', e1, e2, e3 fun m hm hlt => ?_⟩
    have hne : key m ≠ key n := by
      intro e
      have : A.c m = A.c n := by rw [← D.keyc m hm, ← D.keyc n hn', e]
      rw [this] at hlt
      exact lt_irrefl _ hlt
    have := hlow (key m) (hkm m hm) hne
    rw [D.keyc m hm, D.keyc n hn', P.h_lt (hI.cU n hn') (hI.cU m hm)] at this
    exact lt_asymm this hlt
  · rw [hsum Int _ (fun a b => fy_anti q a.2 b.2), dir_level D.whole hh hX D.keyc hqU]
    have hfr := fresh_of_off hall hq
    obtain ⟨s, i, hfind, hreg⟩ := hG.root q hqU hfr
    obtain ⟨t, ht1, ht2⟩ := hG.qry.snk' s i hfind.end_sink
    rw [level_sum D.whole D.sky D.labs D.sgns hqU hfr (hG.link.lt_M ht1) hreg]
    cases lab i <;> simp [ind]

end Tri
