import Verif.Proof.Fork
import Verif.Proof.Settle

/-!
# The descent visits no trapezoid twice
-/

set_option linter.unusedSectionVars false

namespace Tri

variable {I V C : Type} {A : I × Coords C → Prop}

/-- The descent may go from trapezoid `a` to trapezoid `c`. -/
def Leads (st : St I C) (a c : Nat) : Prop :=
  ∃ (t : Trapezoid) (d : Nat) (n : Nexus I C) (ft : FinalType), st.ts[a]? = some t ∧ t.down = some d ∧ st.ns[d]? = some n ∧
    n.finalType = .ok ft ∧
    match ft with
    | .V _ _ ur dn => a = ur ∧ c = dn
    | .I ul ur dl dr => (a = ul ∧ c = dl) ∨ (a = ur ∧ c = dr)
    | .A _ dl dc dr => c = dl ∨ c = dc ∨ c = dr

theorem finalType_below {n : Nexus I C} (hdo : DOrd n) {ft : FinalType} (h : n.finalType = .ok ft) :
    match ft with
    | .V _ _ _ dn => dn ∈ n.iterTrapezoids .desc
    | .I _ _ dl dr => n.iterTrapezoids .desc = [dl, dr]
    | .A _ dl dc dr => n.iterTrapezoids .desc = [dl, dc, dr] ∧ (n.iterTrapezoids .asc).length = 1 := by
  unfold Nexus.finalType at h
  split at h
  · rename_i d0 d1 hdiv
    by_cases e0 : d0.dir = .desc
    · have e1 := hdo d0 d1 hdiv e0
      rw [if_pos e0] at h
      cases h
      simp [Nexus.iterTrapezoids, hdiv, Zot.toList, e0, e1, Nexus.leftmost]
    · rw [if_neg e0] at h
      have e0 : d0.dir = .asc := by
        cases h : d0.dir
        · rfl
        · exact absurd h e0
      by_cases e1 : d1.dir = .asc
      · rw [if_pos e1] at h
        cases h
        simp [Nexus.iterTrapezoids, hdiv, Zot.toList, e0, e1, Nexus.leftmost]
      · rw [if_neg e1] at h
        cases h
        have e1 : d1.dir = .desc := by
          cases h : d1.dir
          · exact absurd h e1
          · rfl
        simp [Nexus.iterTrapezoids, hdiv, Zot.toList, e0, e1, Nexus.leftmost]
  · cases h

theorem Leads.mem {st : St I C} {ρ : Nat → Nat} (hr : Ranked ρ st.ns st.ts) {a c : Nat} (h : Leads st a c) :
    ∃ t d n, st.ts[a]? = some t ∧ t.down = some d ∧ st.ns[d]? = some n ∧ c ∈ n.iterTrapezoids .desc := by
  obtain ⟨t, d, n, ft, h1, h2, h3, h4, h5⟩ := h
  refine ⟨t, d, n, h1, h2, h3, ?_⟩
  have := finalType_below (hr.dord n (mem_of_get h3)) h4
  cases ft with
  | V ul uc ur dn =>
    simp only at h5 this
    rw [h5.2]; exact this
  | I ul ur dl dr =>
    simp only at h5 this
    rw [this]
    rcases h5 with ⟨-, rfl⟩ | ⟨-, rfl⟩ <;> simp
  | A u dl dc dr =>
    simp only at h5 this
    rw [this.1]
    simpa using h5

/-- A trapezoid is reached from one other. -/
theorem Leads.unique {st : St I C} (hwf : WF A st) {ρ : Nat → Nat} (hr : Ranked ρ st.ns st.ts) (hf : Fork st.ns st.ts)
    {a b c : Nat} (h : Leads st a c) (h' : Leads st b c) : a = b := by
  obtain ⟨t1, d1, n1, g1, g2, g3, g4⟩ := h.mem hr
  obtain ⟨t2, d2, n2, k1, k2, k3, k4⟩ := h'.mem hr
  have hc : c < st.ts.length := (hwf.ns n1 (mem_of_get g3)).iter_lt g4
  have e1 := hf.up d1 n1 g3 c g4 _ (List.getElem?_eq_getElem hc)
  have e2 := hf.up d2 n2 k3 c k4 _ (List.getElem?_eq_getElem hc)
  rw [e1] at e2
  cases e2
  rw [g3] at k3
  cases k3
  obtain ⟨t, d, n, ft, h1, h2, h3, h4, h5⟩ := h
  obtain ⟨t', d', n', ft', h1', h2', h3', h4', h5'⟩ := h'
  rw [g1] at h1; cases h1
  rw [k1] at h1'; cases h1'
  rw [g2] at h2; cases h2
  rw [k2] at h2'; cases h2'
  rw [g3] at h3 h3'; cases h3; cases h3'
  rw [h4] at h4'; cases h4'
  have hb := finalType_below (hr.dord n1 (mem_of_get g3)) h4
  have hnd := hf.nodup n1 (mem_of_get g3)
  cases ft with
  | V ul uc ur dn =>
    simp only at h5 h5'
    rw [h5.1, h5'.1]
  | I ul ur dl dr =>
    simp only at h5 h5' hb
    rw [hb] at hnd
    have hne : dl ≠ dr := by simpa using hnd
    rcases h5 with ⟨rfl, e⟩ | ⟨rfl, e⟩ <;> rcases h5' with ⟨rfl, e'⟩ | ⟨rfl, e'⟩
    · rfl
    · exact absurd (e.symm.trans e') hne
    · exact absurd (e'.symm.trans e) hne
    · rfl
  | A u dl dc dr =>
    simp only at hb
    exact hf.single d1 n1 g3 hb.2 a b t1 t2 g1 k1 g2 k2

/-- How far a trapezoid is from the bottom. -/
def level (ρ : Nat → Nat) (ts : List Trapezoid) (a : Nat) : Nat :=
  match ts[a]? with
  | some t =>
    match t.down with
    | some d => ρ d + 1
    | none => 0
  | none => 0

theorem Leads.level {st : St I C} {ρ : Nat → Nat} (hr : Ranked ρ st.ns st.ts) {a c : Nat} (h : Leads st a c) :
    level ρ st.ts c < level ρ st.ts a := by
  obtain ⟨t, d, n, h1, h2, h3, h4⟩ := h.mem hr
  unfold Tri.level
  rw [h1]
  simp only [h2]
  split
  · rename_i t' ht'
    split
    · rename_i d' hd'
      have := hr.below d n h3 c h4 t' ht' d' hd'
      omega
    · omega
  · omega

/-- The trapezoids the descent has still to visit. -/
def TI.ahead (x : TI I C) : List Nat := x.ti :: x.branchStack.map Prod.fst

/-- `x` with the visited trapezoids `L` is met in the descent from `top`. -/
structure Tour (st : St I C) (ρ : Nat → Nat) (top : Nat) (L : List Nat) (x : TI I C) : Prop where
  nodup : (x.ahead ++ L).Nodup
  lt : ∀ c ∈ x.ahead ++ L, c < st.ts.length
  from_ : ∀ c ∈ x.ahead ++ L, c = top ∨ ∃ a ∈ L, Leads st a c
  level : ∀ c ∈ x.ahead ++ L, level ρ st.ts c ≤ level ρ st.ts top

theorem Tour.length {st : St I C} {ρ : Nat → Nat} {top : Nat} {L : List Nat} {x : TI I C} (h : Tour st ρ top L x) :
    L.length + 1 ≤ st.ts.length := by
  have h1 : (x.ahead ++ L).length ≤ (List.range st.ts.length).length :=
    (h.nodup.subperm fun c hc => List.mem_range.2 (h.lt c hc)).length_le
  simp only [TI.ahead, List.length_append, List.length_cons, List.length_range] at h1
  omega

/-- One step takes the front trapezoid and puts those it leads to there. -/
def Descends (st : St I C) (x x' : TI I C) : Prop :=
  ∃ cs, x'.ahead = cs ++ x.branchStack.map Prod.fst ∧ cs.Nodup ∧ ∀ c ∈ cs, Leads st x.ti c

theorem Tour.step {st : St I C} (hwf : WF A st) {ρ : Nat → Nat} (hr : Ranked ρ st.ns st.ts) (hf : Fork st.ns st.ts)
    {top : Nat} {L : List Nat} {x x' : TI I C} (h : Tour st ρ top L x) (hm : Descends st x x') :
    Tour st ρ top (x.ti :: L) x' := by
  obtain ⟨cs, h1, h2, h3⟩ := hm
  have hperm : (x'.ahead ++ x.ti :: L).Perm (cs ++ (x.ahead ++ L)) := by
    rw [h1, List.append_assoc]
    exact List.Perm.append_left _ (by simpa [TI.ahead] using List.perm_middle)
  have hold : ∀ c, c ∈ x'.ahead ++ x.ti :: L → c ∈ cs ∨ c ∈ x.ahead ++ L := fun c hc => by
    rw [hperm.mem_iff] at hc
    exact List.mem_append.1 hc
  have hx : x.ti ∈ x.ahead ++ L := by simp [TI.ahead]
  have hdis : ∀ c ∈ cs, c ∉ x.ahead ++ L := by
    intro c hc hin
    have hl := (h3 c hc).level hr
    have := h.level _ hx
    rcases h.from_ c hin with rfl | ⟨a, ha, hac⟩
    · omega
    · have := hac.unique hwf hr hf (h3 c hc)
      subst this
      have hn := h.nodup
      rw [List.nodup_append] at hn
      exact hn.2.2 x.ti (by simp [TI.ahead]) x.ti ha rfl
  refine ⟨?_, ?_, ?_, ?_⟩
  · rw [hperm.nodup_iff, List.nodup_append]
    exact ⟨h2, h.nodup, fun a ha b hb hab => hdis a ha (hab ▸ hb)⟩
  · intro c hc
    rcases hold c hc with hc | hc
    · obtain ⟨t, d, n, -, -, h5, h6⟩ := (h3 c hc).mem hr
      exact (hwf.ns n (mem_of_get h5)).iter_lt h6
    · exact h.lt c hc
  · intro c hc
    rcases hold c hc with hc | hc
    · exact .inr ⟨x.ti, by simp, h3 c hc⟩
    · rcases h.from_ c hc with h | ⟨a, ha, h⟩
      · exact .inl h
      · exact .inr ⟨a, by simp [ha], h⟩
  · intro c hc
    rcases hold c hc with hc | hc
    · have := (h3 c hc).level hr
      have := h.level _ hx
      omega
    · exact h.level c hc

/-- The number of vertices in chains, not counting the first ones. -/
def total (bs : List (MonoB I C)) : Nat := (bs.map fun b => b.rest.length).sum

theorem total_append (a b : List (MonoB I C)) : total (a ++ b) = total a + total b := by simp [total]

/-- The same for the chains of an optional pair. -/
def otTotal : Option (Ot (MonoB I C)) → Nat
  | none => 0
  | some ms => total ms.toList

/-- The same for everything the descent holds. -/
def TI.total (x : TI I C) : Nat :=
  otTotal x.monotones + (x.branchStack.map fun e => otTotal e.2).sum + Tri.total x.monotoneStack

/-- A run leaves `f a` of `k` for what follows. -/
def Spend {α : Type} (f : α → Nat) (x : BM I C α) (k : Nat) : Prop :=
  total x.done + (match x.res with | .ok a => f a | .error _ => 0) ≤ k

namespace Spend
variable {α β : Type} {f : α → Nat} {g : β → Nat} {k : Nat}

theorem bind {x : BM I C α} {h : α → BM I C β} (hx : Spend f x k) (hh : ∀ a, x.res = .ok a → Spend g (h a) (f a)) :
    Spend g (x >>= h) k := by
  rcases x with ⟨bs, e | a⟩
  · exact hx
  · have := hh a rfl
    unfold Spend at hx this ⊢
    rw [BM.mk_ok_bind]
    simp only [total_append] at hx this ⊢
    omega

theorem lift {r : Res IErr α} (h : ∀ a, r = .ok a → f a ≤ k) : Spend f (BM.lift r : BM I C α) k := by
  unfold Spend BM.lift
  rcases r with e | a
  · simp [total]
  · simpa [total] using h a rfl

theorem pure {a : α} (h : f a ≤ k) : Spend f (Pure.pure a : BM I C α) k :=
  lift (r := .ok a) fun b hb => by cases hb; exact h

theorem stop {e : Fault IErr} : Spend f (BM.lift (.error e) : BM I C α) k := lift fun a h => by cases h

theorem skip {r : Res IErr α} {h : α → BM I C β} (hh : ∀ a, r = .ok a → Spend g (h a) k) :
    Spend g (BM.lift r >>= h) k :=
  bind (f := fun _ => k) (lift fun _ _ => Nat.le_refl _) fun a ha => hh a ha

theorem ite {c : Prop} [Decidable c] {x y : BM I C α} (h1 : c → Spend f x k) (h2 : ¬ c → Spend f y k) :
    Spend f (if c then x else y) k := by
  split
  · exact h1 ‹_›
  · exact h2 ‹_›

theorem mono {x : BM I C α} {k' : Nat} (h : Spend f x k) (hk : k ≤ k') : Spend f x k' := Nat.le_trans h hk

end Spend

theorem forM_finish (bs : List (MonoB I C)) : (bs.forM BM.finish : BM I C Unit) = ⟨bs, .ok ()⟩ := by
  induction bs with
  | nil => rfl
  | cons b bs ih =>
    show (BM.finish b >>= fun _ => bs.forM BM.finish) = _
    rw [ih]
    rfl

variable [Scalar C] [DecidableEq I]

theorem otTotal_advance (p : PolyList I V) (xy : V → Coords C) (st : St I C) (t : Trapezoid) (d : Nat) (n : Nexus I C)
    (ms : Ot (MonoB I C)) : Spend otTotal (advanceMonotonesB p xy st t d n ms) (otTotal (some ms) + 2) := by
  unfold advanceMonotonesB
  refine Spend.skip fun sl _ => Spend.skip fun sr _ => Spend.skip fun nu _ => ?_
  have hr : ∀ o a, restartMonotone p xy st nu n o = .ok a → otTotal a ≤ otTotal o + if o.isNone then 1 else 0 := by
    intro o a ha
    cases o with
    | some o =>
      simp only [restartMonotone] at ha
      cases ha
      simp
    | none =>
      simp only [restartMonotone] at ha
      rcases h1 : (getP st.ns nu : Res IErr (Nexus I C)) with e | nUp
      · rw [h1] at ha; cases ha
      · rw [h1] at ha
        rcases h2 : (p.coords xy nUp.vi : Res IErr (Coords C)) with e | c
        · simp only [bind, Except.bind, h2] at ha; cases ha
        · simp only [bind, Except.bind, h2] at ha
          cases ha
          simp [otTotal, total, Ot.toList, MonoB.new, MonoB.addVertex]
  have hsp : (match splitCompleted (addToAll ms n.vi n.c) d nu sl sr with
      | (none, o) => otTotal o ≤ otTotal (some ms) + 2
      | (some b, o) => b.rest.length + (otTotal o + if o.isNone then 1 else 0) ≤ otTotal (some ms) + 2) := by
    cases ms with
    | one a =>
      unfold splitCompleted
      simp only [addToAll]
      split_ifs <;> simp [otTotal, total, Ot.toList, MonoB.addVertex]
    | two a b =>
      unfold splitCompleted
      simp only [addToAll]
      split_ifs <;> simp [otTotal, total, Ot.toList, MonoB.addVertex] <;> omega
  rcases heq : splitCompleted (addToAll ms n.vi n.c) d nu sl sr with ⟨_ | b, o⟩
  · rw [heq] at hsp
    exact Spend.pure hsp
  · rw [heq] at hsp
    simp only at hsp ⊢
    unfold Spend
    show total ([b] ++ []) + _ ≤ _
    rcases hq : restartMonotone p xy st nu n o with e | a
    · simp only [total, BM.finish, BM.lift, BM.mk_ok_bind, List.append_nil, List.map_cons, List.map_nil, List.sum_cons,
        List.sum_nil]
      omega
    · have := hr o a hq
      simp only [total, BM.finish, BM.lift, BM.mk_ok_bind, List.append_nil, List.map_cons, List.map_nil, List.sum_cons,
        List.sum_nil]
      omega

theorem update_spend (p : PolyList I V) (xy : V → Coords C) (st : St I C) (x : TI I C) (t : Trapezoid) (d : Nat)
    (n : Nexus I C) : Spend TI.total (updateMonotonesB p xy st x t d n) (x.total + 2) := by
  unfold updateMonotonesB
  split
  · exact Spend.pure (by omega)
  · rename_i ms hms
    have h := otTotal_advance p xy st t d n ms
    refine Spend.bind (f := fun o => otTotal o + ((x.branchStack.map fun e => otTotal e.2).sum + Tri.total x.monotoneStack)) ?_
      fun o _ => Spend.pure (by simp only [TI.total]; omega)
    unfold Spend at h ⊢
    rw [← hms] at h
    unfold TI.total
    rcases hq : (advanceMonotonesB p xy st t d n ms).res with e | o <;> rw [hq] at h <;> simp only at h ⊢ <;> omega

theorem update_same (p : PolyList I V) (xy : V → Coords C) (st : St I C) (x : TI I C) (t : Trapezoid) (d : Nat)
    (n : Nexus I C) {x' : TI I C} (h : (updateMonotonesB p xy st x t d n).res = .ok x') :
    x'.ti = x.ti ∧ x'.branchStack = x.branchStack := by
  unfold updateMonotonesB at h
  split at h
  · cases h
    exact ⟨rfl, rfl⟩
  · rename_i ms hms
    rcases hq : advanceMonotonesB p xy st t d n ms with ⟨bs, e | o⟩
    · rw [hq, BM.mk_error_bind] at h
      cases h
    · rw [hq, BM.mk_ok_bind] at h
      cases h
      exact ⟨rfl, rfl⟩

theorem descend_spend (st : St I C) (x : TI I C) (t : Trapezoid) (n : Nexus I C) (ft : FinalType) :
    Spend TI.total (descendB st x t n ft) (x.total + 1) := by
  cases ft with
  | V ul uc ur dn =>
    simp only [descendB]
    have hl : ∀ y : TI I C, Spend TI.total (BM.lift (leaveV y ur dn) : BM I C _) y.total := by
      intro y
      refine Spend.lift fun a ha => ?_
      unfold leaveV at ha
      split at ha
      · cases ha
        exact Nat.le_refl _
      · split at ha
        · cases ha
        · rename_i e ms rest hb
          cases ha
          unfold TI.total
          rw [hb]
          simp only [List.map_cons, List.sum_cons]
          omega
    refine Spend.bind (f := TI.total) ?_ fun y _ => hl y
    refine Spend.mono (k := x.total) ?_ (by omega)
    unfold joinVB
    split
    · exact Spend.pure (Nat.le_refl _)
    · rename_i ms hms
      refine Spend.ite (fun _ => ?_) fun _ => Spend.ite (fun _ => ?_) fun _ => Spend.ite (fun _ => ?_) fun _ => Spend.stop
      · refine Spend.skip fun mo hmo => Spend.pure ?_
        cases ms with
        | two a b => cases hmo
        | one a =>
          cases hmo
          simp only [TI.total, hms, otTotal, total, Ot.toList, List.map_cons, List.map_nil, List.sum_cons, List.sum_nil]
          omega
      · rw [forM_finish]
        show total (ms.toList ++ []) + TI.total { x with monotones := none } ≤ _
        rw [List.append_nil]
        simp only [TI.total, hms, otTotal]
        omega
      · split
        · exact Spend.stop
        · rename_i l rest hst
          refine Spend.skip fun r hr => Spend.pure ?_
          cases ms with
          | two a b => cases hr
          | one a =>
            cases hr
            simp only [TI.total, hms, hst, otTotal, total, Ot.toList, List.map_cons, List.map_nil, List.sum_cons, List.sum_nil]
            omega
  | I ul ur dl dr =>
    simp only [descendB, descendIB]
    exact Spend.ite (fun _ => Spend.pure (Nat.le_succ _)) fun _ => Spend.ite (fun _ => Spend.pure (Nat.le_succ _)) fun _ => Spend.stop
  | A u dl dc dr =>
    simp only [descendB, descendAB]
    split
    · rename_i ms hms
      refine Spend.skip ?_
      rintro ⟨l, r⟩ hlr
      refine Spend.pure ?_
      have : l.rest.length + r.rest.length ≤ otTotal x.monotones + 1 := by
        rw [hms]
        unfold splitMonotones at hlr
        split at hlr
        · cases hlr
          simp [otTotal, total, Ot.toList]
        · rcases h1 : (okInner t.up : Res IErr Nat) with e | nu
          · rw [h1] at hlr; cases hlr
          · simp only [h1, bind, Except.bind] at hlr
            rcases h2 : (getP st.ns nu : Res IErr (Nexus I C)) with e | nn
            · simp only [h2] at hlr; cases hlr
            · simp only [h2] at hlr
              rcases h3 : (okInner t.left : Res IErr Nat) with e | sl
              · simp only [h3] at hlr; cases hlr
              · simp only [h3] at hlr
                rcases h4 : (getP st.ss sl : Res IErr (Segment C)) with e | s
                · simp only [h4] at hlr; cases hlr
                · simp only [h4] at hlr
                  split at hlr
                  · cases hlr
                    simp [otTotal, total, Ot.toList, MonoB.new, MonoB.addVertex]
                    try omega
                  · rcases h5 : (okInner t.right : Res IErr Nat) with e | sr
                    · simp only [h5] at hlr; cases hlr
                    · simp only [h5] at hlr
                      rcases h6 : (getP st.ss sr : Res IErr (Segment C)) with e | s'
                      · simp only [h6] at hlr; cases hlr
                      · simp only [h6] at hlr
                        split at hlr
                        · cases hlr
                          simp [otTotal, total, Ot.toList, MonoB.new, MonoB.addVertex]
                        · cases hlr
      unfold TI.total
      simp only [otTotal, total, Ot.toList, List.map_cons, List.map_nil, List.sum_cons, List.sum_nil] at this ⊢
      omega
    · rename_i hms
      refine Spend.pure ?_
      simp only [TI.total, hms, otTotal, total, Ot.toList, List.map_cons, List.map_nil, List.sum_cons, List.sum_nil, MonoB.new,
        List.length_nil]
      omega

theorem descend_moves {st : St I C} {ρ : Nat → Nat} (hr : Ranked ρ st.ns st.ts) (hf : Fork st.ns st.ts) {x : TI I C}
    {t : Trapezoid} (ht : st.ts[x.ti]? = some t) {d : Nat} (hd : t.down = some d) {n : Nexus I C} (hn : st.ns[d]? = some n)
    {ft : FinalType} (hft : n.finalType = .ok ft) {x' : TI I C} (h : (descendB st x t n ft).res = .ok x') : Descends st x x' := by
  have hb := finalType_below (hr.dord n (mem_of_get hn)) hft
  have hnd := hf.nodup n (mem_of_get hn)
  cases ft with
  | V ul uc ur dn =>
    simp only [descendB] at h
    rcases hj : joinVB x ul uc ur with ⟨bs, e | y⟩
    · rw [hj, BM.mk_error_bind] at h
      cases h
    · rw [hj, BM.mk_ok_bind] at h
      have hy : y.ti = x.ti ∧ y.branchStack = x.branchStack := by
        unfold joinVB at hj
        split at hj
        · cases hj; exact ⟨rfl, rfl⟩
        · rename_i ms hms
          split at hj
          · cases ms with
            | two a b => cases hj
            | one a => cases hj; exact ⟨rfl, rfl⟩
          · split at hj
            · rw [forM_finish] at hj
              cases hj; exact ⟨rfl, rfl⟩
            · split at hj
              · split at hj
                · cases hj
                · cases ms with
                  | two a b => cases hj
                  | one a => cases hj; exact ⟨rfl, rfl⟩
              · cases hj
      have h : leaveV y ur dn = .ok x' := h
      unfold leaveV at h
      split at h
      · rename_i hti
        cases h
        refine ⟨[dn], by simp [TI.ahead, hy.2], by simp, ?_⟩
        intro c hc
        rw [List.mem_singleton] at hc
        subst hc
        exact ⟨t, d, n, _, ht, hd, hn, hft, hy.1 ▸ hti, rfl⟩
      · split at h
        · cases h
        · rename_i e ms rest hbs
          cases h
          refine ⟨[], ?_, by simp, by simp⟩
          rw [← hy.2, hbs]
          rfl
  | I ul ur dl dr =>
    simp only [descendB, descendIB] at h
    split at h
    · rename_i hti
      cases h
      refine ⟨[dl], rfl, by simp, ?_⟩
      intro c hc
      rw [List.mem_singleton] at hc
      subst hc
      exact ⟨t, d, n, _, ht, hd, hn, hft, .inl ⟨hti, rfl⟩⟩
    · split at h
      · rename_i hti
        cases h
        refine ⟨[dr], rfl, by simp, ?_⟩
        intro c hc
        rw [List.mem_singleton] at hc
        subst hc
        exact ⟨t, d, n, _, ht, hd, hn, hft, .inr ⟨hti, rfl⟩⟩
      · cases h
  | A u dl dc dr =>
    simp only at hb
    rw [hb.1] at hnd
    have fin : ∀ c ∈ [dl, dc, dr], Leads st x.ti c := by
      intro c hc
      exact ⟨t, d, n, _, ht, hd, hn, hft, by simpa using hc⟩
    simp only [descendB, descendAB] at h
    split at h
    · rename_i ms hms
      rcases hs : splitMonotones st t n ms with e | ⟨l, r⟩
      · rw [hs] at h; cases h
      · rw [hs] at h
        cases h
        exact ⟨[dl, dc, dr], by simp [TI.ahead], hnd, fin⟩
    · cases h
      exact ⟨[dl, dc, dr], by simp [TI.ahead], hnd, fin⟩

theorem triStep_tour (p : PolyList I V) (xy : V → Coords C) {st : St I C} {ρ : Nat → Nat} (hr : Ranked ρ st.ns st.ts)
    (hf : Fork st.ns st.ts) {x : TI I C} {t : Trapezoid} (ht : st.ts[x.ti]? = some t) {d : Nat} (hd : t.down = some d) :
    Spend TI.total (triStepB p xy st x t d) (x.total + 3) ∧
      ∀ x', (triStepB p xy st x t d).res = .ok x' → Descends st x x' := by
  unfold triStepB
  constructor
  · refine Spend.skip fun n _ => ?_
    refine Spend.bind (f := fun y => y.total + 1) ?_ fun y _ => Spend.skip fun ft _ => descend_spend st y t n ft
    have := update_spend p xy st x t d n
    unfold Spend at this ⊢
    rcases hq : (updateMonotonesB p xy st x t d n).res with e | o <;> rw [hq] at this <;> simp only at this ⊢ <;> omega
  · intro x' h
    rcases hn : (getP st.ns d : Res IErr (Nexus I C)) with e | n
    · rw [hn] at h; cases h
    · rw [hn, BM.lift_ok_bind] at h
      rcases hu : updateMonotonesB p xy st x t d n with ⟨bs, e | y⟩
      · rw [hu, BM.mk_error_bind] at h
        cases h
      · rw [hu, BM.mk_ok_bind] at h
        have hy := update_same p xy st x t d n (x' := y) (by rw [hu])
        rcases hft : n.finalType with e | ft
        · rw [hft] at h; cases h
        · rw [hft, BM.lift_ok_bind] at h
          have := descend_moves hr hf (x := y) (by rw [hy.1]; exact ht) hd ((IfOk.getP (xs := st.ns) (i := d)).of_ok hn) hft h
          unfold Descends at this ⊢
          rwa [hy.1, hy.2] at this

theorem triLoop_tour (p : PolyList I V) (xy : V → Coords C) {st : St I C} (hwf : WF A st)
    (hA : ∀ v, A v → p.coords (ε := IErr) xy v.1 = .ok v.2) {ρ : Nat → Nat} (hr : Ranked ρ st.ns st.ts)
    (hf : Fork st.ns st.ts) {top : Nat} (k : Nat) {L : List Nat} {x : TI I C} (hx : TIIn A st x) (h : Tour st ρ top L x) :
    Spend (fun _ => 0) (triLoopB p xy st k x) (x.total + 3 * (st.ts.length - L.length)) ∧
    (st.ts.length ≤ L.length + k → (triLoopB p xy st k x).res ≠ .error .timeout) := by
  induction k generalizing x L with
  | zero =>
    have := h.length
    exact ⟨Spend.stop, fun _ => by omega⟩
  | succ k ih =>
    have hl := h.length
    obtain ⟨t, ht⟩ : ∃ t, st.ts[x.ti]? = some t := ⟨_, List.getElem?_eq_getElem hx.ti⟩
    unfold triLoopB
    rw [show (getP st.ts x.ti : Res IErr Trapezoid) = .ok t by unfold getP; rw [ht], BM.lift_ok_bind]
    cases hd : t.down with
    | none =>
      simp only
      refine ⟨Spend.ite (fun _ => Spend.stop) fun _ => Spend.ite (fun _ => Spend.stop)
        fun _ => Spend.ite (fun _ => Spend.stop) fun _ => Spend.pure (Nat.zero_le _), fun _ => ?_⟩
      split
      · simp [BM.lift]
      · split
        · simp [BM.lift]
        · split
          · simp [BM.lift]
          · simp [Pure.pure]
    | some d =>
      simp only
      have h1 := triStep_tour p xy hr hf ht hd
      have h2 := triStep_ens (E := IsErr) (fun e => ⟨e, rfl⟩) p xy hwf hA hr hx ht hd
      constructor
      · refine Spend.bind (f := fun y => y.total + 3 * (st.ts.length - (L.length + 1))) ?_ fun y hy => ?_
        · have := h1.1
          unfold Spend at this ⊢
          rcases hres : (triStepB p xy st x t d).res with e | y
          · rw [hres] at this
            simp only at this ⊢
            omega
          · rw [hres] at this
            simp only at this ⊢
            omega
        · have hm := h.step hwf hr hf (h1.2 y hy)
          have hin := h2.2
          rw [hy] at hin
          exact (ih hin.1 hm).1
      · intro hk
        rcases hres : triStepB p xy st x t d with ⟨bs, e | y⟩
        · rw [BM.mk_error_bind]
          have := h2.2
          rw [hres] at this
          obtain ⟨e', he⟩ := this
          rw [he]
          simp
        · rw [BM.mk_ok_bind]
          have hm := h.step hwf hr hf (h1.2 y (by rw [hres]))
          have hin := h2.2
          rw [hres] at hin
          exact (ih hin.1 hm).2 (by simp only [List.length_cons]; omega)

/-- The descent: as many steps as there are trapezoids are enough, and the finished chains are short. -/
theorem inner_tour (p : PolyList I V) (xy : V → Coords C) {N : Nat} {st : St I C} (hwf : WF A st) (ht : Tidy N st)
    (hf : Fork st.ns st.ts) (hA : ∀ v, A v → p.coords (ε := IErr) xy v.1 = .ok v.2) (k : Nat) :
    total (triangulateInnerB k p xy st).done ≤ 3 * st.ts.length ∧
    (st.ts.length ≤ k → (triangulateInnerB k p xy st).res ≠ .error .timeout) := by
  obtain ⟨ρ, -, hr⟩ := ht.rank
  unfold triangulateInnerB
  rcases hq : topTrapezoid st.qs k 0 with e | ti
  · refine ⟨Nat.zero_le _, fun hk => ?_⟩
    have htop := topTrapezoid_ranked (E := IsErr) (fun e => ⟨e, rfl⟩) ht.deep hwf.qs k 0 hwf.root
      (.inl (by have := hwf.size; omega))
    rw [hq] at htop
    obtain ⟨e', he⟩ := htop
    rw [he]
    simp [BM.lift, BM.mk_error_bind]
  · have hti : ti < st.ts.length := by
      have := topTrapezoid_ranked (E := fun _ => True) (fun _ => trivial) ht.deep hwf.qs k 0 hwf.root (.inr trivial)
      rw [hq] at this
      exact this
    rw [BM.lift_ok_bind]
    have h := triLoop_tour p xy hwf hA hr hf (top := ti) k (L := []) (x := ⟨ti, none, [], []⟩)
      ⟨hti, by simp, fun ms h => (by cases h), by simp, by simp⟩
      ⟨by simp [TI.ahead], by simpa [TI.ahead] using hti, by simp [TI.ahead], by simp [TI.ahead]⟩
    refine ⟨?_, fun hk => h.2 (by simpa using hk)⟩
    have h1 := h.1
    unfold Spend at h1
    simp only [TI.total, otTotal, total, List.map_nil, List.sum_nil, List.length_nil, Nat.zero_add, Nat.add_zero,
      Nat.sub_zero] at h1
    unfold total
    split at h1 <;> simpa using h1

end Tri
