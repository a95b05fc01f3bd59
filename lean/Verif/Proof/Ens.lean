import Verif.Model.Triangulate

/-!
# Reasoning about outcomes

`Ens E P r`: the outcome `r` is a value satisfying `P` or a fault allowed by `E`.
-/

set_option linter.unusedSectionVars false

namespace Tri

variable {ε ε' α β σ : Type}

/-- A value satisfying `P` or a fault satisfying `E`. -/
def Ens (E : Fault ε → Prop) (P : α → Prop) : Res ε α → Prop
  | .ok a => P a
  | .error e => E e

/-- Not undefined behaviour, and values satisfy `P`. -/
abbrev Safe (P : α → Prop) (r : Res ε α) : Prop := Ens (· ≠ .ub) P r

namespace Ens

variable {E : Fault ε → Prop} {P Q : α → Prop} {R : β → Prop} {r : Res ε α}

theorem ok {a : α} (h : P a) : Ens E P (.ok a : Res ε α) := h

theorem error {e : Fault ε} (h : E e) : Ens E P (.error e : Res ε α) := h

theorem any (r : Res ε α) : Ens (fun _ => True) (fun _ => True) r := by
  cases r <;> trivial

theorem imp (h : Ens E P r) (hPQ : ∀ a, P a → Q a) : Ens E Q r := by
  cases r with
  | ok a => exact hPQ a h
  | error e => exact h

theorem and (h : Ens E P r) (h' : Ens E Q r) : Ens E (fun a => P a ∧ Q a) r := by
  cases r with
  | ok a => exact ⟨h, h'⟩
  | error e => exact h

/-- The value, if there is one, is known to be the result. -/
theorem withEq (h : Ens E P r) : Ens E (fun a => r = .ok a ∧ P a) r := by
  cases r with
  | ok a => exact ⟨rfl, h⟩
  | error e => exact h

theorem bind {f : α → Res ε β} (h : Ens E P r) (hf : ∀ a, P a → Ens E R (f a)) :
    Ens E R (r >>= f) := by
  cases r with
  | ok a => exact hf a h
  | error e => exact h

theorem of_ok (h : Ens E P r) {a : α} (ha : r = .ok a) : P a := by subst ha; exact h

theorem of_error (h : Ens E P r) {e : Fault ε} (ha : r = .error e) : E e := by subst ha; exact h

theorem getU {xs : List α} {i : Nat} (h : i < xs.length) :
    Ens E (fun a => xs[i]? = some a) (Tri.getU xs i : Res ε α) := by
  unfold Tri.getU
  rw [List.getElem?_eq_getElem h]
  exact rfl

theorem getP {xs : List α} {i : Nat} (hE : E .panic) :
    Ens E (fun a => xs[i]? = some a) (Tri.getP xs i : Res ε α) := by
  unfold Tri.getP
  cases h : xs[i]? with
  | none => exact hE
  | some a => exact rfl

theorem modP {xs : List α} {i : Nat} {f : α → α} (hE : E .panic) :
    Ens E (fun ys => ∃ a, xs[i]? = some a ∧ ys = xs.set i (f a)) (Tri.modP xs i f : Res ε _) := by
  unfold Tri.modP
  cases h : xs[i]? with
  | none => exact hE
  | some a => exact ⟨a, rfl, rfl⟩

theorem subP {a b : Nat} (hE : E .panic) :
    Ens E (fun d => b ≤ a ∧ d = a - b) (Tri.subP a b : Res ε Nat) := by
  unfold Tri.subP
  split
  · exact ⟨‹_›, rfl⟩
  · exact hE

theorem mapErr {f : ε → ε'} {E' : Fault ε' → Prop} (h : Ens E P r)
    (h1 : ∀ e, E (.err e) → E' (.err (f e))) (h2 : E .panic → E' .panic) (h3 : E .ub → E' .ub)
    (h4 : E .timeout → E' .timeout) : Ens E' P (Res.mapErr f r) := by
  rcases r with (e | _ | _ | _) | a
  · exact h1 e h
  · exact h2 h
  · exact h3 h
  · exact h4 h
  · exact h

theorem ite {c : Prop} [Decidable c] {r' : Res ε α} (h1 : c → Ens E P r) (h2 : ¬ c → Ens E P r') :
    Ens E P (if c then r else r') := by
  split
  · exact h1 ‹_›
  · exact h2 ‹_›

/-- Loop rule: `J` relates the elements still to come with the state. -/
theorem foldlM {f : σ → α → Res ε σ} {E : Fault ε → Prop} (J : List α → σ → Prop)
    (hstep : ∀ a l s, J (a :: l) s → Ens E (J l) (f s a)) (l : List α) (s : σ) (h : J l s) :
    Ens E (J []) (l.foldlM f s) := by
  induction l generalizing s with
  | nil => exact h
  | cons a l ih =>
    rw [List.foldlM_cons]
    exact bind (hstep a l s h) fun s' hs' => ih s' hs'

theorem forM {f : α → Res ε Unit} (l : List α) (h : ∀ a ∈ l, Ens E (fun _ => True) (f a)) :
    Ens E (fun _ => True) (l.forM f) := by
  induction l with
  | nil => exact trivial
  | cons a l ih =>
    show Ens E _ (f a >>= fun _ => l.forM f)
    exact bind (h a (by simp)) fun _ _ => ih fun b hb => h b (by simp [hb])

end Ens

theorem mem_of_get {xs : List α} {i : Nat} {a : α} (h : xs[i]? = some a) : a ∈ xs :=
  List.mem_of_getElem? h

theorem lt_of_get {xs : List α} {i : Nat} {a : α} (h : xs[i]? = some a) : i < xs.length :=
  (List.getElem?_eq_some_iff.1 h).1

theorem forall_set {P : α → Prop} {xs : List α} (h : ∀ x ∈ xs, P x) {i : Nat} {a : α} (ha : P a) :
    ∀ x ∈ xs.set i a, P x := by
  intro x hx
  rcases List.mem_or_eq_of_mem_set hx with h' | rfl
  · exact h x h'
  · exact ha

theorem forall_append {P : α → Prop} {xs ys : List α} (h : ∀ x ∈ xs, P x) (h' : ∀ x ∈ ys, P x) :
    ∀ x ∈ xs ++ ys, P x := by
  intro x hx
  rcases List.mem_append.1 hx with hx | hx
  · exact h x hx
  · exact h' x hx

theorem map_set_same {f : α → β} {xs : List α} {i : Nat} {a b : α} (h : xs[i]? = some a)
    (hf : f b = f a) : (xs.set i b).map f = xs.map f := by
  apply List.ext_getElem?
  intro j
  simp only [List.getElem?_map, List.getElem?_set]
  split
  · rename_i hij
    subst hij
    rw [h]
    split <;> simp [hf]
    rename_i hlt
    exact absurd (lt_of_get h) hlt
  · rfl

end Tri
