import Verif.Proof.Sim2
import Verif.Proof.Build
import Verif.Proof.Logged
import Verif.Spec.Relate

/-!
# Two related runs
-/

set_option linter.unusedSectionVars false

namespace Tri

variable {I J V W C D : Type} [Scalar C] [Scalar D]

theorem CallRel.startsNew {RI : I → J → Prop} {cs : List (Call I)} {cs' : List (Call J)}
    (h : List.Forall₂ (CallRel RI) cs cs') (hs : StartsNew cs) : StartsNew cs' := by
  intro v l hl
  subst hl
  cases h with
  | cons h1 h2 =>
    rename_i c _
    cases c with
    | newFan => exact h1
    | extend u => exact hs u _ rfl

/-- Related inputs either fail alike in `trapezoidize`, or play related calls with the same end. -/
theorem triangulate_rel [DecidableEq I] [DecidableEq J] {RI : I → J → Prop}
    {RC : Coords C → Coords D → Prop} (hC : RespC RC) (hI : RespI RI) (cfg : Cfg) (fuel : Nat)
    {p : PolyList I V} {xy : V → Coords C} {p' : PolyList J W} {xy' : W → Coords D}
    (hp : PolyRel RI RC p xy p' xy') (he : List.Forall₂ (ElemRel RI) p.elems p'.elems) (w : Winding) :
    (∃ e : Fault TrapErr,
      (∀ F : FanFormat I, triangulate cfg fuel p xy F = (F.unused, .error (trapFault e))) ∧
      (∀ F : FanFormat J, triangulate cfg fuel p' xy' F = (F.unused, .error (trapFault e)))) ∨
    (∃ cs cs' r, List.Forall₂ (CallRel RI) cs cs' ∧
      (∀ F : FanFormat I, F.winding = w → triangulate cfg fuel p xy F = play F cs r) ∧
      (∀ F : FanFormat J, F.winding = w → triangulate cfg fuel p' xy' F = play F cs' r)) := by
  have ht := trapezoidize_rel hC hI cfg fuel hp he
  rcases h : trapezoidize cfg fuel p xy with e | st <;>
    rcases h' : trapezoidize cfg fuel p' xy' with e' | st' <;> rw [h, h'] at ht
  · cases ht
    refine .inl ⟨e, fun F => ?_, fun F => ?_⟩
    · rw [triangulate, h]; cases e <;> rfl
    · rw [triangulate, h']; cases e <;> rfl
  · exact ht.elim
  · exact ht.elim
  · right
    have hi := innerTrace_rel hC w fuel hp (st := st) (st' := st') ht
    refine ⟨_, _, (innerTrace w fuel p xy st).res, hi.1, ?_, ?_⟩
    · rintro F rfl
      rw [triangulate, h]
      exact triangulate_eq_play fuel p xy st F
    · rintro F rfl
      have hr : (innerTrace F.winding fuel p xy st).res = (innerTrace F.winding fuel p' xy' st').res := by
        have := hi.2
        cases h1 : (innerTrace F.winding fuel p xy st).res <;>
          cases h2 : (innerTrace F.winding fuel p' xy' st').res <;> rw [h1, h2] at this
        · exact congrArg _ this
        · exact this.elim
        · exact this.elim
      rw [triangulate, h', hr]
      exact triangulate_eq_play fuel p' xy' st' F

theorem callRel_eq {RI : I → J → Prop} {h : I → J} (hRI : ∀ i j, RI i j → j = h i) {cs : List (Call I)}
    {cs' : List (Call J)} (hcs : List.Forall₂ (CallRel RI) cs cs') : cs' = cs.map (Call.renamed h) := by
  induction hcs with
  | nil => rfl
  | cons h1 h2 ih =>
    rename_i c c' l l'
    rw [List.map_cons, ← ih]
    congr 1
    cases c <;> cases c'
    · rw [hRI _ _ h1.1, hRI _ _ h1.2.1, hRI _ _ h1.2.2]; rfl
    · exact h1.elim
    · exact h1.elim
    · rw [hRI _ _ h1]; rfl

theorem feedB_renamed (h : I → J) (F : FanFormat J) (cs : List (Call I)) (b : F.B) :
    feedB (F.renamed h) cs b = feedB F (cs.map (Call.renamed h)) b := by
  induction cs generalizing b with
  | nil => rfl
  | cons c cs ih =>
    cases c with
    | newFan x y z =>
      simp only [feedB, List.map_cons, Call.renamed]
      rcases F.newFan b (h x) (h y) (h z) with ⟨b', e | u⟩
      · rfl
      · exact ih b'
    | extend v =>
      simp only [feedB, List.map_cons, Call.renamed]
      rcases F.extendFan b (h v) with ⟨b', e | u⟩
      · rfl
      · exact ih b'

theorem play_renamed (h : I → J) (F : FanFormat J) (cs : List (Call I)) (r : Res IErr Unit) :
    play (F.renamed h) cs r = play F (cs.map (Call.renamed h)) r := by
  have hfin : ∀ b x, finishB (F.renamed h) b x = finishB F b x := by
    intro b x
    rcases x with (_ | _ | _ | _) | u
    · rfl
    · rfl
    · rfl
    · rfl
    · simp only [finishB]
      rcases F.build b with ⟨w, e | o⟩ <;> rfl
  cases cs with
  | nil => cases r <;> rfl
  | cons c cs =>
    cases c with
    | newFan x y z =>
      simp only [play, List.map_cons, Call.renamed]
      cases F.start (h x) (h y) (h z) with
      | error e => rfl
      | ok b =>
        simp only
        rw [feedB_renamed]
        rcases feedB F (cs.map (Call.renamed h)) b with ⟨b', e | u⟩
        · exact hfin _ _
        · exact hfin _ _
    | extend v => cases r <;> rfl

/-- Equality is a relation between equal questions. -/
theorem respC_eq : RespC (fun a b : Coords C => a = b) where
  cmp := by rintro a _ b _ rfl rfl; rfl
  left := by rintro a _ b _ c _ rfl rfl rfl; rfl
  eqX := by rintro a _ b _ rfl rfl; rfl
  eqY := by rintro a _ b _ rfl rfl; rfl

/-- Renaming indices in both directions. -/
theorem triangulate_indexWith [DecidableEq I] [DecidableEq J] (cfg : Cfg) (fuel : Nat) (p : PolyList I V)
    (xy : V → Coords C) (f : I → Option J) (g : J → Option I) (h : I → J)
    (hfg : ∀ i, some (.cont i) ∈ p.elems → f i = some (h i) ∧ g (h i) = some i) (F : FanFormat J) :
    triangulate cfg fuel (p.indexWith f g) xy F = triangulate cfg fuel p xy (F.renamed h) := by
  have key := triangulate_rel (RI := fun i j => f i = some j ∧ j = h i ∧ g j = some i)
    (RC := fun a b => a = b) respC_eq ?_ cfg fuel (p := p) (xy := xy) (p' := p.indexWith f g) (xy' := xy)
    ?_ ?_ F.winding
  · rcases key with ⟨e, h1, h2⟩ | ⟨cs, cs', r, hcs, h1, h2⟩
    · rw [h1, h2]
    · have hcs' := callRel_eq (h := h) (fun i j hij => hij.2.1) hcs
      rw [h1 (F.renamed h) rfl, h2 F rfl, hcs']
      exact (play_renamed h F cs r).symm
  · rintro i j i' j' ⟨h1, -, h2⟩ ⟨h3, -, h4⟩
    constructor
    · rintro rfl
      rw [h1] at h3
      exact Option.some.inj h3
    · rintro rfl
      rw [h2] at h4
      exact Option.some.inj h4
  · refine ⟨?_⟩
    rintro i j ⟨-, -, hg⟩ ε
    unfold PolyList.coords PolyList.indexWith
    simp only [hg, Option.bind_some]
    cases p.getVertex i with
    | none => exact rfl
    | some v => exact rfl
  · unfold PolyList.indexWith
    simp only
    generalize p.elems = es at hfg
    induction es with
    | nil => exact .nil
    | cons e es ih =>
      refine .cons ?_ (ih fun i hi => hfg i (by simp [hi]))
      rcases e with _ | i | _
      · exact trivial
      · obtain ⟨h1, h2⟩ := hfg i (by simp)
        simp only [h1, Option.map_some]
        exact ⟨h1, rfl, h2⟩
      · exact trivial

theorem triangulate_indexWith_recorder [DecidableEq I] [DecidableEq J] (cfg : Cfg) (fuel : Nat)
    (p : PolyList I V) (xy : V → Coords C) (f : I → Option J) (g : J → Option I) (h : I → J)
    (hfg : ∀ i, some (.cont i) ∈ p.elems → f i = some (h i) ∧ g (h i) = some i) (w : Winding) :
    triangulate cfg fuel (p.indexWith f g) xy (recorder J w) =
      ((triangulate cfg fuel p xy (recorder I w)).1.map (Call.renamed h),
        (triangulate cfg fuel p xy (recorder I w)).2.map (List.map (Call.renamed h))) := by
  rw [triangulate_indexWith cfg fuel p xy f g h hfg]
  have hI := triangulate_cases cfg fuel p xy w
  rcases hI with ⟨e, hI⟩ | ⟨cs, r, -, hI⟩
  · rw [hI, hI]; rfl
  · rw [hI _ rfl, hI _ rfl, play_renamed]
    cases cs with
    | nil => cases r <;> rfl
    | cons c cs =>
      cases c with
      | extend v => cases r <;> rfl
      | newFan x y z =>
        simp only [play, List.map_cons, Call.renamed, feedB_recorder]
        rcases r with (_ | _ | _ | _) | _ <;> simp [liftInner, liftInternal, finishB, Call.renamed, Except.map]

/-- Only the answers to the questions matter. -/
theorem triangulate_answers [DecidableEq I] (cfg : Cfg) (fuel : Nat) (p : PolyList I V)
    (xy : V → Coords C) (p' : PolyList I W) (xy' : W → Coords D) (he : p'.elems = p.elems)
    (ha : SameAnswers (fun i => (p.getVertex i).map xy) (fun i => (p'.getVertex i).map xy'))
    (F : FanFormat I) : triangulate cfg fuel p' xy' F = triangulate cfg fuel p xy F := by
  have key := triangulate_rel (RI := fun i j => i = j)
    (RC := fun (a : Coords C) (b : Coords D) => ∃ i, (p.getVertex i).map xy = some a ∧
      (p'.getVertex i).map xy' = some b) ?_ ?_ cfg fuel (p := p) (xy := xy) (p' := p') (xy' := xy')
    ?_ ?_ F.winding
  · rcases key with ⟨e, h1, h2⟩ | ⟨cs, cs', r, hcs, h1, h2⟩
    · rw [h1, h2]
    · rw [h1 F rfl, h2 F rfl, callRel_eq (h := id) (fun i j hij => hij.symm) hcs]
      congr 1
      rw [List.map_congr_left (g := id)]
      · simp
      · intro c _; cases c <;> rfl
  · constructor
    · rintro a a' b b' ⟨i, h1, h2⟩ ⟨j, h3, h4⟩
      exact ha.cmp _ _ _ _ _ _ h1 h3 h2 h4
    · rintro a a' b b' c c' ⟨i, h1, h2⟩ ⟨j, h3, h4⟩ ⟨k, h5, h6⟩
      exact ha.side _ _ _ _ _ _ _ _ _ h1 h3 h5 h2 h4 h6
    · rintro a a' b b' ⟨i, h1, h2⟩ ⟨j, h3, h4⟩
      exact ha.eqX _ _ _ _ _ _ h1 h3 h2 h4
    · rintro a a' b b' ⟨i, h1, h2⟩ ⟨j, h3, h4⟩
      exact ha.eqY _ _ _ _ _ _ h1 h3 h2 h4
  · rintro i _ j _ rfl rfl
    exact Iff.rfl
  · refine ⟨?_⟩
    rintro i _ rfl ε
    have hd := ha.defined i
    unfold PolyList.coords
    cases h1 : p.getVertex i <;> cases h2 : p'.getVertex i <;> rw [h1, h2] at hd
    · exact rfl
    · cases hd
    · cases hd
    · exact ⟨i, by rw [h1]; rfl, by rw [h2]; rfl⟩
  · rw [he]
    refine List.forall₂_same.2 fun e _ => ?_
    rcases e with _ | i | _
    · exact trivial
    · exact rfl
    · exact trivial

/-- The conversion of elements in `indexWith`. -/
def cvt (f : I → Option J) : Option (Elem I) → Option (Elem J)
  | none => none
  | some .newPolygon => some .newPolygon
  | some (.cont i) => (f i).map .cont

/-- An index that cannot be converted stops `trapezoidize`. -/
theorem trapezoidize_unconvertible [DecidableEq I] [DecidableEq J] (cfg : Cfg) (fuel : Nat)
    (p : PolyList I V) (xy : V → Coords C) (f : I → Option J) (g : J → Option I) (gs : List (List I))
    (cur : List I) (i : I) (rest : List (Option (Elem I)))
    (hp : p.elems = (elemsOf gs).map some ++ cur.map (fun i => some (.cont i)) ++ some (.cont i) :: rest)
    (hi : f i = none ∨ ∃ j, f i = some j ∧ g j = none) :
    trapezoidize cfg fuel (p.indexWith f g) xy =
      match trapezoidize cfg fuel ((p.withElems ((elemsOf gs).map some)).indexWith f g) xy with
      | .ok _ => .error .panic
      | .error e => .error e := by
  have hel : ∀ es : List (Option (Elem I)), (p.withElems es).indexWith f g =
      (p.indexWith f g).withElems (es.map (cvt f)) := by
    intro es
    unfold PolyList.indexWith PolyList.withElems
    simp only
    congr 1
  have hp' : p.indexWith f g = (p.indexWith f g).withElems (p.elems.map (cvt f)) := hel p.elems
  rw [hp', hel, trapezoidize_withElems, trapezoidize_withElems, hp]
  simp only [List.map_append, List.append_assoc, List.map_cons, List.cons_append]
  rw [runElems_append, runElems_append]
  generalize hl0 : (⟨St.init, [], 0⟩ : St.BuildLoop J C) = l0
  rcases h1 : runElems cfg fuel (p.indexWith f g) xy (((elemsOf gs).map some).map (cvt f)) l0 with e | l1
  · rfl
  have hv : l1.vLookup = [] := by
    cases hgs : gs.reverse with
    | nil =>
      rw [List.reverse_eq_nil_iff] at hgs
      subst hgs hl0
      cases h1
      rfl
    | cons g' gs' =>
      obtain rfl : gs = gs'.reverse ++ [g'] := by
        rw [← List.reverse_reverse gs, hgs, List.reverse_cons]
      have : elemsOf (gs'.reverse ++ [g']) = (elemsOf gs'.reverse ++ g'.map .cont) ++ [.newPolygon] := by
        simp [elemsOf]
      rw [this, List.map_append, List.map_append] at h1
      exact runElems_group_vLookup h1
  have hnil : runElems cfg fuel (p.indexWith f g) xy [some .newPolygon] l1 = .ok l1 := by
    obtain ⟨st, vl, k⟩ := l1
    simp only at hv
    subst hv
    rfl
  simp only [Except.bind, hnil, Except.map]
  clear h1 hnil hv hl0 l0 hp hp'
  suffices h : runElems cfg fuel (p.indexWith f g) xy ((cur.map fun i => some (.cont i)).map (cvt f) ++
      (cvt f (some (.cont i)) :: (rest.map (cvt f) ++ [some .newPolygon]))) l1 = .error .panic by
    rw [h]
  induction cur generalizing l1 with
  | nil =>
    simp only [List.map_nil, List.nil_append]
    rw [runElems_cons]
    rcases hi with hi | ⟨j, hi, hj⟩
    · simp only [cvt, hi]; rfl
    · simp only [cvt, hi, Option.map_some, St.buildStep, PolyList.coords, PolyList.indexWith, hj,
        Option.bind_none]
      rfl
  | cons c cur ih =>
    simp only [List.map_cons, List.cons_append]
    rw [runElems_cons]
    cases hc : f c with
    | none => simp only [cvt, hc]; rfl
    | some j =>
      simp only [cvt, hc, Option.map_some, St.buildStep, PolyList.coords]
      cases (p.indexWith f g).getVertex j with
      | none => rfl
      | some v => exact ih _

end Tri
