import Verif.Model.Wild
import Verif.Proof.RankedBuild

/-!
# Trapezoidation with arbitrary user code: everything stays in range

`Safe.lean` and `Locs.lean` for the model in which every call of user code has an arbitrary result.
-/

set_option linter.unusedSectionVars false

namespace Tri

variable {I V C : Type}

/-- Every outcome is a value satisfying `P` or a fault satisfying `E`. -/
def EnsW {ε α : Type} (E : Fault ε → Prop) (P : α → Prop) (X : Wild ε α) : Prop := ∀ r, X r → Ens E P r

/-- No outcome is undefined behaviour, and values satisfy `P`. -/
abbrev SafeW {ε α : Type} (P : α → Prop) (X : Wild ε α) : Prop := EnsW (· ≠ .ub) P X

namespace EnsW

variable {ε ε' α β σ : Type} {E : Fault ε → Prop} {P Q : α → Prop} {R : β → Prop} {X : Wild ε α}

theorem pure {a : α} (h : P a) : EnsW E P (Pure.pure a : Wild ε α) := by
  rintro r rfl
  exact h

theorem stop {e : Fault ε} (h : E e) : EnsW E P (Wild.stop e : Wild ε α) := by
  rintro r rfl
  exact h

theorem stopOr {up : Bool} {e : Fault ε} (h : E e) (hU : up = true → E .panic) :
    EnsW E P (Wild.stopOr up e : Wild ε α) := by
  rintro r (rfl | ⟨hu, rfl⟩)
  · exact h
  · exact hU hu

theorem call {up : Bool} (hU : up = true → E .panic) : EnsW E (fun _ => True) (Wild.call up α : Wild ε α) := by
  rintro r (⟨a, rfl⟩ | ⟨hu, rfl⟩)
  · exact trivial
  · exact hU hu

theorem lift {x : Res ε α} (h : Ens E P x) : EnsW E P (liftM x : Wild ε α) := by
  rintro r rfl
  exact h

theorem bind {K : α → Wild ε β} (h : EnsW E P X) (hK : ∀ a, P a → EnsW E R (K a)) : EnsW E R (X >>= K) := by
  rintro r ⟨x, hx, hr⟩
  have := h x hx
  cases x with
  | ok a => exact hK a this r hr
  | error e =>
    simp only at hr
    subst hr
    exact this

theorem imp (h : EnsW E P X) (hPQ : ∀ a, P a → Q a) : EnsW E Q X := fun r hr => (h r hr).imp hPQ

theorem «with» {E' : Fault ε → Prop} (h : EnsW E P X) (h' : EnsW E' Q X) : EnsW E (fun a => P a ∧ Q a) X :=
  fun r hr => (h r hr).with (h' r hr)

theorem getU {xs : List α} {i : Nat} (h : i < xs.length) :
    EnsW E (fun a => xs[i]? = some a) (Wild.getU xs i : Wild ε α) := by
  rintro r rfl
  exact Ens.getU h

theorem getP {xs : List α} {i : Nat} (hE : E .panic) :
    EnsW E (fun a => xs[i]? = some a) (Wild.getP xs i : Wild ε α) := by
  rintro r rfl
  exact Ens.getP hE

theorem getP_lt {xs : List α} {i : Nat} (h : i < xs.length) :
    EnsW E (fun a => xs[i]? = some a) (Wild.getP xs i : Wild ε α) := by
  rintro r rfl
  exact Ens.getP_lt h

theorem modP {xs : List α} {i : Nat} {f : α → α} (hE : E .panic) :
    EnsW E (fun ys => ∃ a, xs[i]? = some a ∧ ys = xs.set i (f a)) (Wild.modP xs i f : Wild ε _) := by
  rintro r rfl
  exact Ens.modP hE

theorem modP_lt {xs : List α} {i : Nat} {f : α → α} (h : i < xs.length) :
    EnsW E (fun ys => ∃ a, xs[i]? = some a ∧ ys = xs.set i (f a)) (Wild.modP xs i f : Wild ε _) := by
  rintro r rfl
  exact Ens.modP_lt h

theorem subP {a b : Nat} (hE : E .panic) :
    EnsW E (fun d => b ≤ a ∧ d = a - b) (Wild.subP a b : Wild ε Nat) := by
  rintro r rfl
  exact Ens.subP hE

theorem subP_le {a b : Nat} (h : b ≤ a) : EnsW E (fun d => d = a - b) (Wild.subP a b : Wild ε Nat) := by
  rintro r rfl
  exact Ens.subP_le h

theorem mapErr {f : ε → ε'} {E' : Fault ε' → Prop} (h : EnsW E P X)
    (h1 : ∀ e, E (.err e) → E' (.err (f e))) (h2 : E .panic → E' .panic) (h3 : E .ub → E' .ub)
    (h4 : E .timeout → E' .timeout) : EnsW E' P (Wild.mapErr f X) := by
  rintro r ⟨x, hx, rfl⟩
  exact (h x hx).mapErr h1 h2 h3 h4

theorem ite {c : Prop} [Decidable c] {Y : Wild ε α} (h1 : c → EnsW E P X) (h2 : ¬ c → EnsW E P Y) :
    EnsW E P (if c then X else Y) := by
  split
  · exact h1 ‹_›
  · exact h2 ‹_›

theorem foldlM {f : σ → α → Wild ε σ} (J : List α → σ → Prop)
    (hstep : ∀ a l s, J (a :: l) s → EnsW E (J l) (f s a)) (l : List α) (s : σ) (h : J l s) :
    EnsW E (J []) (l.foldlM f s) := by
  induction l generalizing s with
  | nil => exact pure h
  | cons a l ih => exact bind (hstep a l s h) fun s' hs' => ih s' hs'

end EnsW

/-- No condition on where vertices come from. -/
abbrev AnyKey : I × Coords C → Prop := fun _ => True

/-- User code is not undefined behaviour. -/
theorem panic_ne_ub {ε : Type} {up : Bool} : up = true → (Fault.panic : Fault ε) ≠ .ub := fun _ => by simp

theorem nexusAddSegment_safeW {up : Bool} {T S : Nat} {ns : List (Nexus I C)} {ss : List (Segment C)}
    (h : ∀ n ∈ ns, NexusOK T S AnyKey n) (ni : Nat) {si ti : Nat} (hs : si < S) (ht : ti < T) :
    SafeW (NsPost T S AnyKey ns) (Wild.nexusAddSegment up ns ss ni si ti) := by
  unfold Wild.nexusAddSegment
  have hdir : Safe (fun _ => True) (Nexus.getSegmentDirection ss ni si) := by
    refine Ens.bind (Ens.getP (by simp)) fun s _ => ?_
    exact Ens.ite (fun _ => trivial) fun _ => Ens.ite (fun _ => trivial) fun _ => by simp [Ens]
  refine EnsW.bind (EnsW.lift hdir) fun dir _ => ?_
  refine EnsW.bind (EnsW.getP (by simp)) fun n hn => ?_
  have hn0 := h n (mem_of_get hn)
  have hd := hn0.divs
  split
  · exact EnsW.pure ⟨forall_set h ⟨hn0.up, hn0.down, by simp [Zot.toList, hs, ht], hn0.src⟩, map_set_same hn rfl⟩
  · rename_i d0 hz
    rw [hz] at hd
    have h0 := hd d0 (by simp [Zot.toList])
    have hsw : SafeW (fun _ => True) (Wild.swapDividers up ns ss d0 ⟨si, ti, dir⟩) := by
      unfold Wild.swapDividers
      refine EnsW.ite (fun _ => ?_) fun _ => EnsW.pure trivial
      refine EnsW.bind (EnsW.getP (by simp)) fun s _ => ?_
      refine EnsW.bind (EnsW.getP (by simp)) fun s _ => ?_
      exact EnsW.bind (EnsW.getP (by simp)) fun s _ => EnsW.call panic_ne_ub
    refine EnsW.bind hsw fun sw _ => ?_
    refine EnsW.ite (fun _ => EnsW.pure ?_) fun _ => EnsW.pure ?_
    · exact ⟨forall_set h ⟨hn0.up, hn0.down, by simp [Zot.toList, hs, ht, h0], hn0.src⟩,
        map_set_same hn rfl⟩
    · exact ⟨forall_set h ⟨hn0.up, hn0.down, by simp [Zot.toList, hs, ht, h0], hn0.src⟩,
        map_set_same hn rfl⟩
  · exact EnsW.stop (by simp)

theorem find_safeW {up : Bool} {qs : List (QueryNode C)} {T : Nat}
    (h : ∀ q ∈ qs, QOK qs.length T q) (fuel qi : Nat) (hq : qi < qs.length) :
    SafeW (fun r => r.1 < qs.length ∧ r.2 < T) (Wild.find up qs fuel qi) := by
  induction fuel generalizing qi with
  | zero => exact EnsW.stop (by simp)
  | succ k ih =>
    unfold Wild.find
    refine EnsW.bind (EnsW.getU hq) fun q hq' => ?_
    have := h q (mem_of_get hq')
    cases q with
    | branch l r b =>
      refine EnsW.bind (EnsW.call panic_ne_ub) fun b _ => ?_
      split
      · exact ih _ this.1
      · exact ih _ this.2
    | sink t => exact EnsW.pure ⟨hq, this⟩

theorem downDir_safeW {up : Bool} {T S : Nat} {n : Nexus I C} (h : NexusOK T S AnyKey n)
    (ns : List (Nexus I C)) (ss : List (Segment C)) (s : Segment C) :
    SafeW (· < T) (Wild.downDir up n ns ss s) := by
  unfold Wild.downDir
  split
  · exact EnsW.pure h.down
  · rename_i d hd
    have h0 : SafeW (fun _ => True) (Wild.downTest up ns ss s d) := by
      refine EnsW.bind (EnsW.getP (by simp)) fun _ _ => ?_
      refine EnsW.bind (EnsW.call panic_ne_ub) fun b _ => ?_
      refine EnsW.ite (fun _ => EnsW.stop (by simp)) fun _ => ?_
      refine EnsW.bind (EnsW.getP (by simp)) fun _ _ => ?_
      refine EnsW.bind (EnsW.call panic_ne_ub) fun b _ => ?_
      refine EnsW.ite (fun _ => ?_) fun _ => EnsW.pure trivial
      refine EnsW.bind (EnsW.getP (by simp)) fun _ _ => ?_
      exact EnsW.bind (EnsW.getP (by simp)) fun _ _ => EnsW.pure trivial
    refine EnsW.bind h0 fun c _ => ?_
    refine EnsW.bind (EnsW.call panic_ne_ub) fun b _ => ?_
    exact EnsW.ite (fun _ => EnsW.pure (h.divs d (filterDividers_mem (zot_last_mem hd)).1).1) fun _ =>
      EnsW.pure h.down

theorem addSegmentStart_safeW {up : Bool} {st : St I C} (h : WF AnyKey st) {niMin niMax : Nat}
    (hmin : niMin < st.ns.length) (hmax : niMax < st.ns.length) (cMin cMax : Coords C) :
    SafeW (SegInv AnyKey st ⟨niMin, niMax, cMin, cMax⟩) (Wild.addSegmentStart up st niMin niMax cMin cMax) := by
  unfold Wild.addSegmentStart
  refine EnsW.bind (EnsW.getU hmax) fun nMax hnMax => ?_
  refine EnsW.bind (downDir_safeW (h.ns nMax (mem_of_get hnMax)) _ _ _) fun ti hti => ?_
  refine EnsW.bind (EnsW.getU hti) fun t ht => ?_
  refine EnsW.bind (EnsW.getP (by simp)) fun qLeft hqL => ?_
  refine EnsW.bind (EnsW.modP (by simp)) fun qs hqs => ?_
  refine EnsW.bind (EnsW.modP (by simp)) fun ts hts => ?_
  refine EnsW.bind (EnsW.getP (by simp)) fun t' ht' => ?_
  obtain ⟨q0, hq0, rfl⟩ := hqs
  obtain ⟨t0, ht0, rfl⟩ := hts
  have htt : t' = Trapezoid.setSink st.qs.length t0 := by
    rw [List.getElem?_set_self (lt_of_get ht0)] at ht'
    exact (Option.some.inj ht').symm
  subst htt
  have hok := h.ts t0 (mem_of_get ht0)
  refine EnsW.bind (nexusAddSegment_safeW (T := st.ts.length + 1) (S := st.ss.length + 1)
    (fun n hn => (h.ns n hn).mono (by omega) (by omega)) _ (by omega) (by omega)) fun ns hns => ?_
  have hlen := hns.length
  have hts' : ∀ t ∈ ((st.ts.set ti (Trapezoid.setSink st.qs.length t0)).set ti
      ((Trapezoid.setSink st.qs.length t0).splitVertical st.qs.length (st.qs.length + 1)
        st.ss.length).1 ++ [((Trapezoid.setSink st.qs.length t0).splitVertical st.qs.length
          (st.qs.length + 1) st.ss.length).2]), TrapOK (st.ss.length + 1) st.ns.length
        (st.qs.length + 2) t := by
    refine forall_append (forall_set (forall_set (fun t ht => (h.ts t ht).mono (by omega)
        (by omega) (by omega)) ?_) ?_) ?_
    · exact ⟨fun n hn => by have := hok.left n hn; omega, fun n hn => by have := hok.right n hn; omega,
        hok.down, hok.up, by simp [Trapezoid.setSink]⟩
    · exact ⟨fun n hn => by have := hok.left n hn; omega,
        fun n hn => by simp [Trapezoid.splitVertical] at hn; omega,
        hok.down, hok.up, by simp [Trapezoid.splitVertical]⟩
    · intro t ht
      rw [List.mem_singleton] at ht
      subst ht
      exact ⟨fun n hn => by simp [Trapezoid.splitVertical] at hn; omega,
        fun n hn => by have := hok.right n hn; omega,
        hok.down, hok.up, by simp [Trapezoid.splitVertical]⟩
  refine EnsW.bind (EnsW.getU (by simp; omega)) fun t2 ht2 => ?_
  have hok2 := hts' t2 (mem_of_get ht2)
  split
  · exact EnsW.stop (by simp)
  · rename_i ni hni
    have hni' := hok2.down ni hni
    refine EnsW.bind (EnsW.getU (by omega)) fun n hn => ?_
    refine EnsW.bind (EnsW.call panic_ne_ub) fun left _ => ?_
    refine EnsW.bind (EnsW.lift (replaceAt_safe hns.1 _ (Nat.lt_succ_self _))) fun ns' hns' => ?_
    have hlen' := hns'.length
    refine EnsW.pure ⟨⟨?_, ?_, ?_, ?_, ?_, ?_⟩, ?_, rfl, ?_, ?_, ?_, ?_⟩
    · simpa using hns'.1
    · simp only [hlen', hlen]
      refine forall_append h.ss ?_
      intro s hs
      rw [List.mem_singleton] at hs
      subst hs
      exact ⟨hmin, hmax⟩
    · simpa [hlen', hlen, Trapezoid.splitVertical] using hts'
    · simp only [List.length_append, List.length_set, List.length_cons, List.length_nil,
        Nat.zero_add]
      refine forall_append (forall_set (fun q hq => (h.qs q hq).mono (by omega) (by omega)) ?_) ?_
      · exact ⟨by omega, by omega⟩
      · intro q hq
        simp only [List.mem_cons, List.not_mem_nil, or_false] at hq
        rcases hq with rfl | rfl
        · exact (h.qs _ (mem_of_get hqL)).mono (by omega) (by omega)
        · exact Nat.lt_succ_self _
    · simp
    · have := h.size
      simp only [List.length_append, List.length_set, List.length_cons, List.length_nil, hlen', hlen]
      omega
    · simp only [St.keys, hns'.2, hns.2]
    · simpa [hlen', hlen] using hni'
    · simp; omega
    · simp
    · simp

theorem addSegmentStep_safeW {up : Bool} {st0 : St I C} {s : Segment C} {l : St.SegLoop I C}
    (h : SegInv AnyKey st0 s l) : SafeW (SegInv AnyKey st0 s) (Wild.addSegmentStep up st0.ss.length s l) := by
  have hsi : st0.ss.length < l.st.ss.length := by rw [h.ss]; simp
  have hwf := h.wf
  unfold Wild.addSegmentStep
  refine EnsW.bind (EnsW.getU h.ni) fun n hn => ?_
  refine EnsW.bind (downDir_safeW (hwf.ns n (mem_of_get hn)) _ _ _) fun ti hti => ?_
  refine EnsW.bind (EnsW.getU hti) fun t ht => ?_
  have hok := hwf.ts t (mem_of_get ht)
  split
  · exact EnsW.stop (by simp)
  rename_i ni hni
  have hni' := hok.down ni hni
  refine EnsW.bind (EnsW.getU h.left) fun tl htl => ?_
  refine EnsW.bind (EnsW.getU h.right) fun tr htr => ?_
  have hokl := hwf.ts tl (mem_of_get htl)
  have hokr := hwf.ts tr (mem_of_get htr)
  have qsOK : ∀ (a b : Nat) (x : Branch C) (q : QueryNode C), a ≤ l.st.qs.length → b ≤ l.st.qs.length →
      q ∈ l.st.qs → ∀ k, ∀ q' ∈ l.st.qs.set k (.branch a b x) ++ [q],
        QOK (l.st.qs.length + 1) l.st.ts.length q' := by
    intro a b x q ha hb hq k
    refine forall_append (forall_set (fun q hq => (hwf.qs q hq).mono (by omega) (by omega))
      ⟨by omega, by omega⟩) ?_
    intro q' hq'
    rw [List.mem_singleton] at hq'
    subst hq'
    exact (hwf.qs _ hq).mono (by omega) (by omega)
  refine EnsW.ite (fun _ => ?_) fun _ => EnsW.ite (fun _ => ?_) fun _ => EnsW.stop (by simp)
  · refine EnsW.bind (EnsW.getP (by simp)) fun qL hqL => ?_
    refine EnsW.bind (EnsW.modP (by simp)) fun qs hqs => ?_
    refine EnsW.bind (EnsW.modP (by simp)) fun ts1 hts1 => ?_
    refine EnsW.bind (EnsW.modP (by simp)) fun ts2 hts2 => ?_
    refine EnsW.bind (EnsW.modP (by simp)) fun ts3 hts3 => ?_
    refine EnsW.bind (EnsW.getU hni') fun n2 hn2 => ?_
    refine EnsW.bind (EnsW.call panic_ne_ub) fun left _ => ?_
    refine EnsW.bind (EnsW.lift (replaceAt_safe hwf.ns _ h.right)) fun ns' hns' => ?_
    obtain ⟨q0, hq0, rfl⟩ := hqs
    obtain ⟨t1, ht1, rfl⟩ := hts1
    obtain ⟨t2, ht2, rfl⟩ := hts2
    obtain ⟨t3, ht3, rfl⟩ := hts3
    have hlen := hns'.length
    have p0 : ∀ t ∈ l.st.ts, TrapOK l.st.ss.length l.st.ns.length (l.st.qs.length + 1) t :=
      fun t ht => (hwf.ts t ht).mono (by omega) (by omega) (by omega)
    have p1 := forall_set (i := ti) p0 (a := t1.setSink l.st.qs.length) (by
      have := p0 t1 (mem_of_get ht1)
      exact ⟨this.left, this.right, this.down, this.up, by simp [Trapezoid.setSink]⟩)
    have p2 := forall_set (i := ti) p1 (a := t2.setRight st0.ss.length) (by
      have := p1 t2 (mem_of_get ht2)
      exact ⟨this.left, by simp [Trapezoid.setRight, hsi], this.down, this.up, this.sink⟩)
    have p3 := forall_set (i := l.tiUpright) p2 (a := t3.setDown ni) (by
      have := p2 t3 (mem_of_get ht3)
      exact ⟨this.left, this.right, by simp [Trapezoid.setDown, hni'], this.up, this.sink⟩)
    refine EnsW.pure ⟨⟨?_, ?_, ?_, ?_, ?_, ?_⟩, ?_, h.ss, ?_, ?_, ?_, ?_⟩
    · simpa using hns'.1
    · simpa [hlen] using hwf.ss
    · simpa [hlen] using p3
    · simpa using qsOK _ _ _ _ (Nat.le_refl _) (Nat.le_of_lt hokr.sink) (mem_of_get hqL) _
    · simp
    · simpa [hlen] using hwf.size
    · simpa [St.keys, hns'.2] using h.keys
    · simpa [hlen] using hni'
    · simpa using hti
    · simpa using h.right
    · simp; have := h.qs; omega
  · refine EnsW.bind (EnsW.getP (by simp)) fun qL hqL => ?_
    refine EnsW.bind (EnsW.modP (by simp)) fun qs hqs => ?_
    refine EnsW.bind (EnsW.modP (by simp)) fun ts1 hts1 => ?_
    refine EnsW.bind (EnsW.modP (by simp)) fun ts2 hts2 => ?_
    refine EnsW.bind (EnsW.modP (by simp)) fun ts3 hts3 => ?_
    refine EnsW.bind (EnsW.getU hni') fun n2 hn2 => ?_
    refine EnsW.bind (EnsW.call panic_ne_ub) fun left _ => ?_
    refine EnsW.bind (EnsW.lift (replaceAt_safe hwf.ns _ h.left)) fun ns' hns' => ?_
    obtain ⟨q0, hq0, rfl⟩ := hqs
    obtain ⟨t1, ht1, rfl⟩ := hts1
    obtain ⟨t2, ht2, rfl⟩ := hts2
    obtain ⟨t3, ht3, rfl⟩ := hts3
    have hlen := hns'.length
    have p0 : ∀ t ∈ l.st.ts, TrapOK l.st.ss.length l.st.ns.length (l.st.qs.length + 1) t :=
      fun t ht => (hwf.ts t ht).mono (by omega) (by omega) (by omega)
    have p1 := forall_set (i := ti) p0 (a := t1.setSink l.st.qs.length) (by
      have := p0 t1 (mem_of_get ht1)
      exact ⟨this.left, this.right, this.down, this.up, by simp [Trapezoid.setSink]⟩)
    have p2 := forall_set (i := ti) p1 (a := t2.setLeft st0.ss.length) (by
      have := p1 t2 (mem_of_get ht2)
      exact ⟨by simp [Trapezoid.setLeft, hsi], this.right, this.down, this.up, this.sink⟩)
    have p3 := forall_set (i := l.tiUpleft) p2 (a := t3.setDown ni) (by
      have := p2 t3 (mem_of_get ht3)
      exact ⟨this.left, this.right, by simp [Trapezoid.setDown, hni'], this.up, this.sink⟩)
    refine EnsW.pure ⟨⟨?_, ?_, ?_, ?_, ?_, ?_⟩, ?_, h.ss, ?_, ?_, ?_, ?_⟩
    · simpa using hns'.1
    · simpa [hlen] using hwf.ss
    · simpa [hlen] using p3
    · simpa using qsOK _ _ _ _ (Nat.le_of_lt hokl.sink) (Nat.le_refl _) (mem_of_get hqL) _
    · simp
    · simpa [hlen] using hwf.size
    · simpa [St.keys, hns'.2] using h.keys
    · simpa [hlen] using hni'
    · simpa using h.left
    · simpa using hti
    · simp; have := h.qs; omega

theorem addSegmentLoop_safeW {up : Bool} {st0 : St I C} {s : Segment C} (fuel : Nat) {l : St.SegLoop I C}
    (h : SegInv AnyKey st0 s l) : SafeW (SegInv AnyKey st0 s) (Wild.addSegmentLoop up st0.ss.length s fuel l) := by
  induction fuel generalizing l with
  | zero => exact EnsW.stop (by simp)
  | succ k ih =>
    unfold Wild.addSegmentLoop
    exact EnsW.ite (fun _ => EnsW.pure h) fun _ => EnsW.bind (addSegmentStep_safeW h) fun l' hl' => ih hl'

theorem addSegment_safeW {up : Bool} {st : St I C} (h : WF AnyKey st) (cfg : Cfg) (fuel : Nat) {niMin niMax : Nat}
    (hmin : niMin < st.ns.length) (hmax : niMax < st.ns.length) (cMin cMax : Coords C) :
    SafeW (fun st' => WF AnyKey st' ∧ st'.ns.length = st.ns.length ∧ st'.ss.length = st.ss.length + 1 ∧
      st.qs.length ≤ st'.qs.length) (Wild.addSegment up cfg fuel st niMin niMax cMin cMax) := by
  unfold Wild.addSegment
  refine EnsW.bind (addSegmentStart_safeW h hmin hmax cMin cMax) fun l hl => ?_
  refine EnsW.bind (addSegmentLoop_safeW fuel hl) fun l hl => ?_
  refine EnsW.bind (nexusAddSegment_safeW hl.wf.ns _ (by rw [hl.ss]; simp) hl.right) fun ns hns => ?_
  have hlen := hns.length
  have hwf : WF AnyKey { l.st with ns := ns } := by
    refine ⟨hns.1, ?_, ?_, hl.wf.qs, hl.wf.root, ?_⟩
    · simpa [hlen] using hl.wf.ss
    · simpa [hlen] using hl.wf.ts
    · simpa [hlen] using hl.wf.size
  refine EnsW.bind (EnsW.lift (hwf.debugCheck_safe cfg fuel)) fun _ _ => ?_
  have hk := congrArg List.length hl.keys
  simp only [St.keys, List.length_map] at hk
  exact EnsW.pure ⟨hwf, hlen.trans hk, by rw [hl.ss]; simp, hl.qs⟩

theorem addVertex_safeW {up : Bool} {st : St I C} (h : WF AnyKey st) (cfg : Cfg) (fuel : Nat)
    {qi : Nat} (hq : qi < st.qs.length) :
    SafeW (fun r => WF AnyKey r.1 ∧ r.1.ns.length = st.ns.length + 1 ∧ r.1.ss = st.ss ∧
      st.qs.length ≤ r.1.qs.length ∧ r.2 = st.ns.length) (Wild.addVertex up cfg fuel st qi) := by
  unfold Wild.addVertex
  refine EnsW.bind (EnsW.call panic_ne_ub) fun _ _ => ?_
  refine EnsW.bind (find_safeW h.qs fuel qi hq) fun r hr => ?_
  refine EnsW.bind (EnsW.call panic_ne_ub) fun c _ => ?_
  refine EnsW.bind (EnsW.call panic_ne_ub) fun vi _ => ?_
  refine EnsW.bind (EnsW.lift (h.addVertexAt_safe (A := AnyKey) trivial hr.2)) fun st' hst' => ?_
  refine EnsW.bind (EnsW.lift (hst'.1.debugCheck_safe cfg fuel)) fun _ _ => ?_
  have hk := congrArg List.length hst'.2.1
  simp only [St.keys, List.length_map, List.length_append, List.length_singleton] at hk
  exact EnsW.pure ⟨hst'.1, hk, hst'.2.2.1, hst'.2.2.2, rfl⟩

end Tri
