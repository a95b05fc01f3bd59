import Verif.Proof.RankedBuild
import Verif.Proof.Source
import Verif.Proof.ChainSum
import Verif.Proof.Mountain
import Verif.Proof.Traverse

/-!
# The descent through any trapezoidation ends

For an arbitrary `Scalar` and for arbitrary input.  The descent without the triangulation of the
chains it finishes (`BM`) visits a bounded number of trapezoids.
-/

set_option linter.unusedSectionVars false

namespace Tri

variable {I V C : Type}

/-- All vertices of a chain under construction satisfy `A`. -/
def ChainIn (A : I × Coords C → Prop) (b : MonoB I C) : Prop := A b.first ∧ ∀ v ∈ b.rest, A v

/-- The finished chains are made of vertices satisfying `A`, and the run ends as described. -/
def BEns {α : Type} (A : I × Coords C → Prop) (E : Fault IErr → Prop) (P : α → Prop) (x : BM I C α) :
    Prop := (∀ b ∈ x.done, ChainIn A b) ∧ Ens E P x.res

namespace BEns

variable {α β : Type} {A : I × Coords C → Prop} {E : Fault IErr → Prop} {P Q : α → Prop} {R : β → Prop}

theorem lift {r : Res IErr α} (h : Ens E P r) : BEns A E P (BM.lift r : BM I C α) := ⟨by simp [BM.lift], h⟩

theorem pure {a : α} (h : P a) : BEns A E P (Pure.pure a : BM I C α) := lift (r := .ok a) h

theorem stop {e : Fault IErr} (h : E e) : BEns A E P (BM.lift (.error e) : BM I C α) := lift h

theorem finish {b : MonoB I C} (h : ChainIn A b) : BEns A E (fun _ => True) (BM.finish b : BM I C Unit) :=
  ⟨by simpa [BM.finish] using h, trivial⟩

theorem imp {x : BM I C α} (h : BEns A E P x) (hPQ : ∀ a, P a → Q a) : BEns A E Q x := ⟨h.1, h.2.imp hPQ⟩

theorem bind {x : BM I C α} {g : α → BM I C β} (hx : BEns A E P x)
    (hg : ∀ a, P a → BEns A E R (g a)) : BEns A E R (x >>= g) := by
  obtain ⟨bs, e | a⟩ := x
  · exact hx
  · obtain ⟨h1, h2⟩ := hg a hx.2
    rw [BM.mk_ok_bind]
    exact ⟨forall_append hx.1 h1, h2⟩

theorem ite {c : Prop} [Decidable c] {f g : BM I C α} (h1 : c → BEns A E P f)
    (h2 : ¬ c → BEns A E P g) : BEns A E P (if c then f else g) := by
  by_cases h : c
  · simpa [h] using h1 h
  · simpa [h] using h2 h

theorem forM {f : α → BM I C Unit} (l : List α) (h : ∀ a ∈ l, BEns A E (fun _ => True) (f a)) :
    BEns A E (fun _ => True) (l.forM f) := by
  induction l with
  | nil => exact pure trivial
  | cons a l ih =>
    show BEns A E _ (f a >>= fun _ => l.forM f)
    exact bind (h a (by simp)) fun _ _ => ih fun b hb => h b (by simp [hb])

end BEns

variable [Scalar C]

/-- An error value, and nothing worse. -/
def IsErr {ε : Type} (f : Fault ε) : Prop := ∃ e, f = .err e

section Chains
variable {A : I × Coords C → Prop}

theorem ChainIn.new {vi : I} {c : Coords C} (h : A (vi, c)) : ChainIn A (MonoB.new vi c) :=
  ⟨h, by simp [MonoB.new]⟩

theorem ChainIn.addVertex {b : MonoB I C} (hb : ChainIn A b) {vi : I} {c : Coords C} (h : A (vi, c)) :
    ChainIn A (b.addVertex vi c) :=
  ⟨hb.1, forall_append hb.2 (by simpa using h)⟩

/-- The same for one or two chains. -/
def OtIn (A : I × Coords C → Prop) (ms : Ot (MonoB I C)) : Prop := ∀ b ∈ ms.toList, ChainIn A b

/-- What a trapezoid may still cost. -/
def weight (ρ : Nat → Nat) (ts : List Trapezoid) (ti : Nat) : Nat :=
  match ts[ti]? with
  | some t =>
    match t.down with
    | some d => 4 ^ (ρ d + 1)
    | none => 1
  | none => 1

/-- What the descent may still cost. -/
def cost (ρ : Nat → Nat) (ts : List Trapezoid) (x : TI I C) : Nat :=
  weight ρ ts x.ti + (x.branchStack.map fun e => weight ρ ts e.1).sum

/-- Everything `triangulate_inner` holds is in range and made of vertices satisfying `A`. -/
structure TIIn (A : I × Coords C → Prop) (st : St I C) (x : TI I C) : Prop where
  ti : x.ti < st.ts.length
  branchTi : ∀ e ∈ x.branchStack, e.1 < st.ts.length
  cur : ∀ ms, x.monotones = some ms → OtIn A ms
  branch : ∀ e ∈ x.branchStack, ∀ ms, e.2 = some ms → OtIn A ms
  stack : ∀ b ∈ x.monotoneStack, ChainIn A b

theorem weight_pos (ρ : Nat → Nat) (ts : List Trapezoid) (ti : Nat) : 1 ≤ weight ρ ts ti := by
  unfold weight
  split
  · split
    · exact Nat.one_le_pow _ _ (by omega)
    · exact Nat.le_refl _
  · exact Nat.le_refl _

theorem weight_below {ρ : Nat → Nat} {ns : List (Nexus I C)} {ts : List Trapezoid}
    (hr : Ranked ρ ns ts) {d : Nat} {n : Nexus I C} (hn : ns[d]? = some n) {ti : Nat}
    (hit : ti ∈ n.iterTrapezoids .desc) : weight ρ ts ti ≤ 4 ^ ρ d := by
  unfold weight
  split
  · rename_i t ht
    split
    · rename_i d' hd'
      have := hr.below d n hn ti hit t ht d' hd'
      exact Nat.pow_le_pow_right (by omega) (by omega)
    · exact Nat.one_le_pow _ _ (by omega)
  · exact Nat.one_le_pow _ _ (by omega)

variable [DecidableEq I]

theorem okInner_err {E : Fault IErr → Prop} (hE : ∀ e, E (.err e)) {α : Type} (o : Option α) :
    Ens E (fun a => o = some a) (okInner o) := by
  cases o with
  | none => exact hE _
  | some a => exact rfl

theorem okInner_getP_err {E : Fault IErr → Prop} (hE : ∀ e, E (.err e)) {α : Type} (o : Option Nat) (xs : List α) (h : ∀ i, o = some i → i < xs.length) :
    Ens E (fun _ => True) (okInner o >>= getP xs) :=
  Ens.bind (okInner_err hE o) fun i hi => (Ens.getP_lt (h i hi)).imp fun _ _ => trivial

theorem triStep_ens {E : Fault IErr → Prop} (hE : ∀ e, E (.err e)) (p : PolyList I V) (xy : V → Coords C)
    {st : St I C} (hwf : WF A st)
    (hA : ∀ v, A v → p.coords (ε := IErr) xy v.1 = .ok v.2)
    {ρ : Nat → Nat} (hr : Ranked ρ st.ns st.ts) {x : TI I C} (hx : TIIn A st x)
    {t : Trapezoid} (ht : st.ts[x.ti]? = some t) {d : Nat} (hd : t.down = some d) :
    BEns A E (fun x' => TIIn A st x' ∧ cost ρ st.ts x' < cost ρ st.ts x) (triStepB p xy st x t d) := by
  have hok := hwf.ts t (mem_of_get ht)
  have hdlt := hok.down d hd
  unfold triStepB
  refine BEns.bind (BEns.lift (Ens.getP_lt hdlt)) fun nDown hnD => ?_
  have hnok := hwf.ns nDown (mem_of_get hnD)
  have hD : A (nDown.vi, nDown.c) := hnok.src
  have hw : weight ρ st.ts x.ti = 4 * 4 ^ ρ d := by
    unfold weight
    rw [ht]
    simp only [hd]
    rw [Nat.pow_succ, Nat.mul_comm]
  have hgt : 1 ≤ 4 ^ ρ d := Nat.one_le_pow _ _ (by omega)
  refine BEns.bind (P := fun x' => TIIn A st x' ∧ x'.ti = x.ti ∧ x'.branchStack = x.branchStack) ?_ ?_
  · unfold updateMonotonesB
    split
    · exact BEns.pure ⟨hx, rfl, rfl⟩
    · rename_i ms hms
      refine BEns.bind (P := fun o => ∀ ms, o = some ms → OtIn A ms) ?_ fun o ho =>
        BEns.pure ⟨⟨hx.ti, hx.branchTi, ho, hx.branch, hx.stack⟩, rfl, rfl⟩
      have hms0 := hx.cur ms hms
      have hms' : OtIn A (addToAll ms nDown.vi nDown.c) := by
        cases ms with
        | one a =>
          intro b hb
          simp only [addToAll, Ot.toList, List.mem_singleton] at hb
          subst hb
          exact (hms0 a (by simp [Ot.toList])).addVertex hD
        | two a a' =>
          intro b hb
          simp only [addToAll, Ot.toList, List.mem_cons, List.not_mem_nil, or_false] at hb
          rcases hb with rfl | rfl
          · exact (hms0 a (by simp [Ot.toList])).addVertex hD
          · exact (hms0 a' (by simp [Ot.toList])).addVertex hD
      unfold advanceMonotonesB
      refine BEns.bind (BEns.lift (okInner_getP_err hE _ _ hok.left)) fun sl _ => ?_
      refine BEns.bind (BEns.lift (okInner_getP_err hE _ _ hok.right)) fun sr _ => ?_
      refine BEns.bind (BEns.lift (okInner_err hE _)) fun nu hnu => ?_
      have hsp : (∀ b, (splitCompleted (addToAll ms nDown.vi nDown.c) d nu sl sr).1 = some b →
            ChainIn A b) ∧
          (∀ o, (splitCompleted (addToAll ms nDown.vi nDown.c) d nu sl sr).2 = some o →
            OtIn A o) := by
        generalize addToAll ms nDown.vi nDown.c = ms at hms'
        unfold splitCompleted
        cases ms with
        | one a =>
          have ha := hms' a (by simp [Ot.toList])
          split
          · exact ⟨fun b hb => by cases hb; exact ha, fun o ho => by cases ho⟩
          · split
            · exact ⟨fun b hb => by cases hb; exact ha, fun o ho => by cases ho⟩
            · exact ⟨fun b hb => (by cases hb), fun o ho => by cases ho; exact hms'⟩
        | two a b =>
          have ha := hms' a (by simp [Ot.toList])
          have hb := hms' b (by simp [Ot.toList])
          split
          · exact ⟨fun b' hb => by cases hb; exact ha,
              fun o ho => by cases ho; simpa [OtIn, Ot.toList] using hb⟩
          · split
            · exact ⟨fun b' hb' => by cases hb'; exact hb,
                fun o ho => by cases ho; simpa [OtIn, Ot.toList] using ha⟩
            · exact ⟨fun b' hb => (by cases hb), fun o ho => by cases ho; exact hms'⟩
      rcases heq : splitCompleted (addToAll ms nDown.vi nDown.c) d nu sl sr with ⟨_ | done, o⟩
      · rw [heq] at hsp
        exact BEns.pure hsp.2
      · rw [heq] at hsp
        refine BEns.bind (BEns.finish (hsp.1 done rfl)) fun _ _ => BEns.lift ?_
        cases o with
        | some o => exact hsp.2
        | none =>
          simp only [restartMonotone]
          refine Ens.bind (Ens.getP_lt (hok.up nu hnu)) fun nUp hnU => ?_
          have hU : A (nUp.vi, nUp.c) := (hwf.ns nUp (mem_of_get hnU)).src
          rw [hA _ hU]
          intro ms hms
          cases hms
          intro b hb
          simp only [Ot.toList, List.mem_singleton] at hb
          subst hb
          exact (ChainIn.new hU).addVertex hD
  · rintro x' ⟨hx', hti, hbs⟩
    have hc : cost ρ st.ts x = 4 * 4 ^ ρ d + (x'.branchStack.map fun e => weight ρ st.ts e.1).sum := by
      unfold cost
      rw [hw, hbs]
    rw [hc]
    clear hc hx hti hbs hw ht
    refine BEns.bind (P := fun ft => match ft with
        | .V _ _ _ down => down ∈ nDown.iterTrapezoids .desc
        | .I _ _ dl dr => dl ∈ nDown.iterTrapezoids .desc ∧ dr ∈ nDown.iterTrapezoids .desc
        | .A _ dl dc dr => dl ∈ nDown.iterTrapezoids .desc ∧ dc ∈ nDown.iterTrapezoids .desc ∧
            dr ∈ nDown.iterTrapezoids .desc) (BEns.lift ?_) fun ft hft => ?_
    · have hdo := hr.dord nDown (mem_of_get hnD)
      unfold Nexus.finalType
      split
      · rename_i d0 d1 hdiv
        have h0 : ∀ dir, nDown.leftmost dir ∈ nDown.iterTrapezoids dir := leftmost_iter nDown
        by_cases e0 : d0.dir = .desc
        · have e1 := hdo d0 d1 hdiv e0
          rw [if_pos e0]
          refine ⟨h0 .desc, mem_iter.2 (.inr ⟨d0, ?_, e0, rfl⟩), mem_iter.2 (.inr ⟨d1, ?_, e1, rfl⟩)⟩ <;>
            simp [hdiv, Zot.toList]
        · rw [if_neg e0]
          by_cases e1 : d1.dir = .asc
          · rw [if_pos e1]
            exact h0 .desc
          · rw [if_neg e1]
            refine ⟨h0 .desc, mem_iter.2 (.inr ⟨d1, by simp [hdiv, Zot.toList], ?_, rfl⟩)⟩
            cases h : d1.dir
            · exact absurd h e1
            · rfl
      · exact hE _
    · have hlt : ∀ ti, ti ∈ nDown.iterTrapezoids .desc → ti < st.ts.length := fun ti h => hnok.iter_lt h
      have hwt : ∀ ti, ti ∈ nDown.iterTrapezoids .desc → weight ρ st.ts ti ≤ 4 ^ ρ d :=
        fun ti h => weight_below hr hnD h
      cases ft with
      | V upleft upcenter upright down =>
        simp only at hft
        simp only [descendB]
        refine BEns.bind (P := fun y => TIIn A st y ∧ y.branchStack = x'.branchStack) ?_ fun y hy => BEns.lift ?_
        · unfold joinVB
          split
          · exact BEns.pure ⟨hx', rfl⟩
          · rename_i ms hms
            have hms0 := hx'.cur ms hms
            refine BEns.ite (fun _ => ?_) fun _ => BEns.ite (fun _ => ?_) fun _ =>
              BEns.ite (fun _ => ?_) fun _ => BEns.stop (hE _)
            · refine BEns.bind (P := ChainIn A) (BEns.lift ?_) fun mo hmo => BEns.pure ?_
              · cases ms with
                | one a => exact hms0 a (by simp [Ot.toList])
                | two a b => exact hE _
              · refine ⟨⟨hx'.ti, hx'.branchTi, fun ms h => (by cases h), hx'.branch, ?_⟩, rfl⟩
                intro b hb
                rcases List.mem_cons.1 hb with rfl | hb
                · exact hmo
                · exact hx'.stack b hb
            · refine BEns.bind (BEns.forM _ fun a ha => BEns.finish (hms0 a ha)) fun _ _ =>
                BEns.pure ⟨⟨hx'.ti, hx'.branchTi, fun ms h => (by cases h), hx'.branch, hx'.stack⟩, rfl⟩
            · split
              · exact BEns.stop (hE _)
              · rename_i l rest hst'
                refine BEns.bind (P := ChainIn A) (BEns.lift ?_) fun r hr => BEns.pure ?_
                · cases ms with
                  | one a => exact hms0 a (by simp [Ot.toList])
                  | two a b => exact hE _
                · refine ⟨⟨hx'.ti, hx'.branchTi, ?_, hx'.branch,
                    fun b hb => hx'.stack b (by rw [hst']; simp [hb])⟩, rfl⟩
                  intro ms h
                  cases h
                  have hl := hx'.stack l (by rw [hst']; simp)
                  simpa [OtIn, Ot.toList] using ⟨hl, hr⟩
        · obtain ⟨hy, hbs⟩ := hy
          unfold leaveV
          refine Ens.ite (fun _ => ?_) fun _ => ?_
          · refine ⟨⟨hlt _ hft, hy.branchTi, hy.cur, hy.branch, hy.stack⟩, ?_⟩
            have := hwt _ hft
            unfold cost
            simp only [hbs]
            omega
          · split
            · exact hE _
            · rename_i ti ms rest hb
              refine ⟨⟨hy.branchTi (ti, ms) (by rw [hb]; simp),
                fun e he => hy.branchTi e (by rw [hb]; simp [show e ∈ rest from he]), ?_, ?_, hy.stack⟩, ?_⟩
              · intro ms' h
                exact hy.branch (ti, ms) (by rw [hb]; simp) ms' h
              · intro e he
                exact hy.branch e (by rw [hb]; simp [show e ∈ rest from he])
              · rw [← hbs, hb]
                unfold cost
                simp only [List.map_cons, List.sum_cons]
                omega
      | I upleft upright downleft downright =>
        simp only at hft
        simp only [descendB, descendIB]
        have step : ∀ ti, ti ∈ nDown.iterTrapezoids .desc → TIIn A st { x' with ti := ti } ∧
            cost ρ st.ts { x' with ti := ti } <
              4 * 4 ^ ρ d + (x'.branchStack.map fun e => weight ρ st.ts e.1).sum := by
          intro ti h
          refine ⟨⟨hlt _ h, hx'.branchTi, hx'.cur, hx'.branch, hx'.stack⟩, ?_⟩
          have := hwt _ h
          unfold cost
          simp only
          omega
        exact BEns.ite (fun _ => BEns.pure (step _ hft.1)) fun _ =>
          BEns.ite (fun _ => BEns.pure (step _ hft.2)) fun _ => BEns.stop (hE _)
      | A up downleft downcenter downright =>
        simp only at hft
        obtain ⟨h1, h2, h3⟩ := hft
        have w1 := hwt _ h1
        have w2 := hwt _ h2
        have w3 := hwt _ h3
        simp only [descendB, descendAB]
        split
        · rename_i ms hms
          have hms0 := hx'.cur ms hms
          refine BEns.bind (P := fun r => ChainIn A r.1 ∧ ChainIn A r.2) (BEns.lift ?_) ?_
          · unfold splitMonotones
            split
            · rename_i a b
              exact ⟨hms0 a (by simp [Ot.toList]), hms0 b (by simp [Ot.toList])⟩
            · rename_i mo
              have hmo := hms0 mo (by simp [Ot.toList])
              refine Ens.bind (okInner_err hE _) fun nu hnu => ?_
              refine Ens.bind (Ens.getP_lt (hok.up nu hnu)) fun n hn => ?_
              have hnew := (ChainIn.new (show A (n.vi, n.c) from
                (hwf.ns n (mem_of_get hn)).src)).addVertex hD
              refine Ens.bind (okInner_getP_err hE _ _ hok.left) fun sl _ =>
                Ens.ite (fun _ => ⟨hnew, hmo⟩) fun _ => ?_
              exact Ens.bind (okInner_getP_err hE _ _ hok.right) fun sr _ =>
                Ens.ite (fun _ => ⟨hmo, hnew⟩) fun _ => hE _
          · rintro ⟨l, r⟩ ⟨hl, hr⟩
            refine BEns.pure ⟨⟨hlt _ h1, ?_, ?_, ?_, hx'.stack⟩, ?_⟩
            · intro e he
              simp only [List.mem_cons] at he
              rcases he with rfl | rfl | he
              · exact hlt _ h2
              · exact hlt _ h3
              · exact hx'.branchTi e he
            · intro ms h
              cases h
              simpa [OtIn, Ot.toList] using hl
            · intro e he ms h
              simp only [List.mem_cons] at he
              rcases he with rfl | rfl | he
              · cases h
              · cases h
                simpa [OtIn, Ot.toList] using hr
              · exact hx'.branch e he ms h
            · unfold cost
              simp only [List.map_cons, List.sum_cons]
              omega
        · refine BEns.pure ⟨⟨hlt _ h1, ?_, fun ms h => (by cases h), ?_, hx'.stack⟩, ?_⟩
          · intro e he
            simp only [List.mem_cons] at he
            rcases he with rfl | rfl | he
            · exact hlt _ h2
            · exact hlt _ h3
            · exact hx'.branchTi e he
          · intro e he ms h
            simp only [List.mem_cons] at he
            rcases he with rfl | rfl | he
            · cases h
              simpa [OtIn, Ot.toList] using ChainIn.new hD
            · cases h
            · exact hx'.branch e he ms h
          · unfold cost
            simp only [List.map_cons, List.sum_cons]
            omega

theorem topTrapezoid_ranked {E : Fault IErr → Prop} (hE : ∀ e, E (.err e)) {ts : List Trapezoid} {qs : List (QueryNode C)} {D : Nat} (ho : Deep D qs)
    (hq : ∀ q ∈ qs, match q with
      | .branch l r _ => l < qs.length ∧ r < qs.length
      | .sink ti => ti < ts.length) (fuel qi : Nat) (hqi : qi < qs.length)
    (hf : D < fuel ∨ E .timeout) :
    Ens E (· < ts.length) (topTrapezoid qs fuel qi) := by
  obtain ⟨δ, h1, h2⟩ := ho
  replace hf : D < fuel + δ qi ∨ E .timeout := hf.imp_left fun _ => by omega
  induction fuel generalizing qi with
  | zero =>
    rcases hf with hf | hf
    · have := h1 qi; omega
    · exact hf
  | succ k ih =>
    unfold topTrapezoid
    refine Ens.bind (Ens.getP_lt hqi) fun q hget => ?_
    have := hq q (mem_of_get hget)
    split
    · have hm := h2 _ _ _ _ hget
      exact ih _ this.2 (hf.imp_left fun _ => by omega)
    · exact hE _
    · exact this

theorem topTrapezoid_fixed (qs : List (QueryNode C)) (k qi : Nat)
    (h : topTrapezoid qs k qi ≠ .error .timeout) (n : Nat) (hn : k ≤ n) :
    topTrapezoid qs n qi = topTrapezoid qs k qi := by
  induction k generalizing n qi with
  | zero => exact absurd rfl h
  | succ k ih =>
    obtain ⟨n, rfl⟩ : ∃ m, n = m + 1 := ⟨n - 1, by omega⟩
    unfold topTrapezoid at h ⊢
    cases hq : (getP qs qi : Res IErr (QueryNode C)) with
    | error e => rfl
    | ok q =>
      rw [hq] at h
      cases q with
      | sink ti => rfl
      | branch l r b =>
        cases b with
        | X a b => rfl
        | Y c => exact ih r h n (by omega)

/-- An error value or no more steps, but not a panic. -/
def ErrOrOut {ε : Type} (f : Fault ε) : Prop := f = .timeout ∨ ∃ e, f = .err e

theorem triLoop_ens {E : Fault IErr → Prop} (hE : ∀ e, E (.err e)) (p : PolyList I V) (xy : V → Coords C)
    {st : St I C} (hwf : WF A st)
    (hA : ∀ v, A v → p.coords (ε := IErr) xy v.1 = .ok v.2)
    {ρ : Nat → Nat} (hr : Ranked ρ st.ns st.ts) (k : Nat) {x : TI I C} (hx : TIIn A st x)
    (hc : cost ρ st.ts x ≤ k ∨ E .timeout) :
    BEns A E (fun _ => True) (triLoopB p xy st k x) := by
  induction k generalizing x with
  | zero =>
    rcases hc with hc | hc
    · have := weight_pos ρ st.ts x.ti
      unfold cost at hc
      omega
    · exact BEns.stop hc
  | succ k ih =>
    unfold triLoopB
    refine BEns.bind (BEns.lift (Ens.getP_lt hx.ti)) fun t ht => ?_
    cases hd : t.down with
    | none =>
      exact BEns.ite (fun _ => BEns.stop (hE _)) fun _ => BEns.ite (fun _ => BEns.stop (hE _))
        fun _ => BEns.ite (fun _ => BEns.stop (hE _)) fun _ => BEns.pure trivial
    | some d =>
      exact BEns.bind (triStep_ens hE p xy hwf hA hr hx ht hd) fun x' hx' =>
        ih hx'.1 (hc.imp_left fun _ => by omega)

theorem triLoop_fixed (p : PolyList I V) (xy : V → Coords C) (st : St I C) (k : Nat) (x : TI I C)
    (h : (triLoopB p xy st k x).res ≠ .error .timeout) (n : Nat) (hn : k ≤ n) :
    triLoopB p xy st n x = triLoopB p xy st k x := by
  induction k generalizing n x with
  | zero => exact absurd rfl h
  | succ k ih =>
    obtain ⟨n, rfl⟩ : ∃ m, n = m + 1 := ⟨n - 1, by omega⟩
    unfold triLoopB at h ⊢
    cases ht : (getP st.ts x.ti : Res IErr Trapezoid) with
    | error e => rfl
    | ok t =>
      rw [ht, BM.lift_ok_bind] at h
      rw [BM.lift_ok_bind, BM.lift_ok_bind]
      cases hd : t.down with
      | none => rfl
      | some d =>
        rw [hd] at h
        simp only at h ⊢
        rcases hs : triStepB p xy st x t d with ⟨bs, e | x'⟩
        · rfl
        · rw [hs, BM.mk_ok_bind] at h
          rw [BM.mk_ok_bind, BM.mk_ok_bind, ih x' h n (by omega)]

/-- At no number of steps does the descent panic. -/
theorem inner_ens (fuel : Nat) (p : PolyList I V)
    (xy : V → Coords C) {N : Nat} {st : St I C} (hwf : WF A st) (ht : Tidy N st)
    (hA : ∀ v, A v → p.coords (ε := IErr) xy v.1 = .ok v.2) :
    BEns A ErrOrOut (fun _ => True) (triangulateInnerB fuel p xy st) := by
  obtain ⟨ρ, hρ, hr⟩ := ht.rank
  unfold triangulateInnerB
  refine BEns.bind (BEns.lift (topTrapezoid_ranked (fun e => .inr ⟨e, rfl⟩) ht.deep hwf.qs fuel 0
    hwf.root (.inr (.inl rfl)))) fun ti hti => ?_
  exact triLoop_ens (fun e => .inr ⟨e, rfl⟩) p xy hwf hA hr fuel
    ⟨hti, by simp, fun ms h => (by cases h), by simp, by simp⟩ (.inr (.inl rfl))

/-- From some number of steps on the descent is the same, and it ends. -/
theorem inner_settles (p : PolyList I V)
    (xy : V → Coords C) {N : Nat} {st : St I C} (hwf : WF A st) (ht : Tidy N st)
    (hA : ∀ v, A v → p.coords (ε := IErr) xy v.1 = .ok v.2) :
    ∃ M x, (∀ n, M ≤ n → triangulateInnerB n p xy st = x) ∧ BEns A IsErr (fun _ => True) x := by
  obtain ⟨ρ, hρ, hr⟩ := ht.rank
  have htop := topTrapezoid_ranked (E := IsErr) (fun e => ⟨e, rfl⟩) ht.deep hwf.qs (st.ns.length + st.ss.length + 1) 0
    hwf.root (.inl (Nat.lt_succ_self _))
  have htopn : ∀ n, (st.ns.length + st.ss.length + 1) ≤ n → topTrapezoid st.qs n 0 = topTrapezoid st.qs (st.ns.length + st.ss.length + 1) 0 := by
    refine fun n hn => topTrapezoid_fixed _ _ _ ?_ n hn
    intro h
    rw [h] at htop
    obtain ⟨e, he⟩ := htop
    cases he
  unfold triangulateInnerB
  rcases h : topTrapezoid st.qs (st.ns.length + st.ss.length + 1) 0 with e | ti
  · rw [h] at htop
    refine ⟨(st.ns.length + st.ss.length + 1), ⟨[], .error e⟩, fun n hn => ?_, by simp, htop⟩
    rw [htopn n hn, h]
    rfl
  · rw [h] at htop
    have hx : TIIn A st (⟨ti, none, [], []⟩ : TI I C) :=
      ⟨htop, by simp, fun ms h => (by cases h), by simp, by simp⟩
    have hl := triLoop_ens (E := IsErr) (fun e => ⟨e, rfl⟩) p xy hwf hA hr (cost ρ st.ts ⟨ti, none, [], []⟩) hx
      (.inl (Nat.le_refl _))
    refine ⟨(st.ns.length + st.ss.length + 1) + cost ρ st.ts (⟨ti, none, [], []⟩ : TI I C), _, fun n hn => ?_, hl⟩
    rw [htopn n (by omega), h, BM.lift_ok_bind]
    refine triLoop_fixed p xy st _ _ ?_ n (by omega)
    intro h
    have := hl.2
    rw [h] at this
    obtain ⟨e, he⟩ := this
    cases he

theorem finishMonotone_ens (w : Winding) (n : Nat) (b : MonoB I C) :
    Ens ErrOrOut (fun _ => True) (finishMonotone (m := TrM I) w n b).res := by
  unfold finishMonotone
  cases h : b.build with
  | error e =>
    unfold MonoB.build at h
    split at h
    · split at h <;> cases h
    · cases h
      exact .inr ⟨_, rfl⟩
  | ok M =>
    rw [TrM.lift_ok]
    cases M with
    | none => exact trivial
    | some M =>
      obtain ⟨fs, L', -, -, -, hr⟩ := chain_run b M h n
      show Ens ErrOrOut _ (Mono.buildFans (m := TrM I) w n M).res
      rcases hr with hr | ⟨hr, -⟩
      · rw [hr w]
        exact .inl rfl
      · rw [hr w]
        exact trivial

theorem finishMonotone_fixed (w : Winding) (k n : Nat) (hn : k ≤ n) (b : MonoB I C)
    (h : (finishMonotone (m := TrM I) w k b).res ≠ .error .timeout) :
    finishMonotone (m := TrM I) w n b = finishMonotone w k b := by
  unfold finishMonotone at h ⊢
  cases hb : b.build with
  | error e => rfl
  | ok M =>
    rw [hb, TrM.lift_ok] at h
    rw [TrM.lift_ok, TrM.lift_ok]
    cases M with
    | none => rfl
    | some M => exact buildFans_mono w k n hn M h

theorem finishAll_ens (w : Winding) (n : Nat) (bs : List (MonoB I C)) :
    Ens ErrOrOut (fun _ => True) (finishAll w n bs).res := by
  induction bs with
  | nil => exact trivial
  | cons b bs ih =>
    have h := finishMonotone_ens w n b
    unfold finishAll
    rcases hf : finishMonotone (m := TrM I) w n b with ⟨cs, e | u⟩
    · rw [hf] at h
      exact h
    · rw [TrM.mk_ok_bind]
      exact ih

theorem finishAll_settles (w : Winding) (bs : List (MonoB I C))
    (h : ∀ b ∈ bs, ∃ k, (finishMonotone (m := TrM I) w k b).res ≠ .error .timeout) :
    ∃ k, (finishAll w k bs).res ≠ .error .timeout ∧ ∀ n, k ≤ n → finishAll w n bs = finishAll w k bs := by
  induction bs with
  | nil => exact ⟨0, by simp [finishAll], fun _ _ => rfl⟩
  | cons b bs ih =>
    obtain ⟨k1, h1⟩ := h b (by simp)
    obtain ⟨k2, h2, h3⟩ := ih fun b hb => h b (by simp [hb])
    have e1 : ∀ n, k1 ≤ n → finishMonotone (m := TrM I) w n b = finishMonotone w k1 b :=
      fun n hn => finishMonotone_fixed w k1 n hn b h1
    have key : ∀ n, k1 + k2 ≤ n → finishAll w n (b :: bs) =
        (finishMonotone (m := TrM I) w k1 b >>= fun _ => finishAll w k2 bs) := by
      intro n hn
      show (finishMonotone (m := TrM I) w n b >>= fun _ => finishAll w n bs) = _
      rw [e1 n (by omega), h3 n (by omega)]
    refine ⟨k1 + k2, ?_, fun n hn => (key n hn).trans (key _ (Nat.le_refl _)).symm⟩
    rw [key _ (Nat.le_refl _)]
    rcases hf : finishMonotone (m := TrM I) w k1 b with ⟨cs, e | u⟩
    · rw [hf] at h1
      exact h1
    · rw [TrM.mk_ok_bind]
      exact h2

end Chains

end Tri
