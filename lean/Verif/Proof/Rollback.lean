import Verif.Proof.FormatRuns2

/-!
# Formats that restore what they were given
-/

set_option linter.unusedSectionVars false

namespace Tri

variable {I V C : Type}

/-- A format whose builders satisfy an invariant under which `fail` restores the original storage. -/
theorem play_restores (F : FanFormat I) (P : F.B → Prop)
    (hs : ∀ a b c s, F.start a b c = .ok s → P s)
    (hs' : ∀ a b c e w, F.start a b c = .error (.err e, w) → w = F.unused)
    (hn : ∀ s a b c, P s → P (F.newFan s a b c).1)
    (he : ∀ s v, P s → P (F.extendFan s v).1)
    (hb : ∀ s e, P s → (F.build s).2 ≠ .error (.err e))
    (hf : ∀ s e, P s → F.fail s e = F.unused)
    (cs : List (Call I)) (r : Res IErr Unit) (e : TriErr F.E)
    (h : (play F cs r).2 = .error (.err e)) : (play F cs r).1 = F.unused := by
  have feed : ∀ cs s, P s → P (feedB F cs s).1 := by
    intro cs
    induction cs with
    | nil => intro s h; exact h
    | cons c cs ih =>
      intro s h
      cases c with
      | newFan a b c =>
        have := hn s a b c h
        simp only [feedB]
        rcases h1 : F.newFan s a b c with ⟨s', e | u⟩
        · rw [h1] at this; exact this
        · rw [h1] at this; exact ih _ this
      | extend v =>
        have := he s v h
        simp only [feedB]
        rcases h1 : F.extendFan s v with ⟨s', e | u⟩
        · rw [h1] at this; exact this
        · rw [h1] at this; exact ih _ this
  have fin : ∀ s q, P s → (finishB F s q).2 = .error (.err e) → (finishB F s q).1 = F.unused := by
    intro s q hp hq
    rcases q with (e | _ | _ | _) | u
    · exact hf s e hp
    · cases hq
    · cases hq
    · cases hq
    · simp only [finishB] at hq
      rcases hbs : F.build s with ⟨w, (e | _ | _ | _) | o⟩
      · exact absurd (by rw [hbs]) (hb s e hp)
      all_goals
        rw [hbs] at hq
        cases hq
  cases cs with
  | nil =>
    rcases r with e | u <;> rfl
  | cons c cs =>
    cases c with
    | extend v =>
      rcases r with e | u <;> rfl
    | newFan a b c =>
      simp only [play] at h ⊢
      rcases hst : F.start a b c with ⟨e', w⟩ | s
      · simp only [hst] at h ⊢
        cases e' with
        | err e' => exact hs' a b c e' w hst
        | panic => cases h
        | ub => cases h
        | timeout => cases h
      · simp only [hst] at h ⊢
        have hp := feed cs s (hs a b c s hst)
        rcases hfd : feedB F cs s with ⟨s', e' | u⟩
        · rw [hfd] at hp
          simp only [hfd] at h ⊢
          exact fin s' _ hp h
        · rw [hfd] at hp
          simp only [hfd] at h ⊢
          exact fin s' _ hp h

/-- `play_restores` for runs of the library. -/
theorem triangulate_restores [Scalar C] [DecidableEq I] (F : FanFormat I) (P : F.B → Prop)
    (hs : ∀ a b c s, F.start a b c = .ok s → P s)
    (hs' : ∀ a b c e w, F.start a b c = .error (.err e, w) → w = F.unused)
    (hn : ∀ s a b c, P s → P (F.newFan s a b c).1)
    (he : ∀ s v, P s → P (F.extendFan s v).1)
    (hb : ∀ s e, P s → (F.build s).2 ≠ .error (.err e))
    (hf : ∀ s e, P s → F.fail s e = F.unused)
    (cfg : Cfg) (fuel : Nat) (p : PolyList I V) (xy : V → Coords C) (e : TriErr F.E)
    (h : (triangulate cfg fuel p xy F).2 = .error (.err e)) :
    (triangulate cfg fuel p xy F).1 = F.unused := by
  rcases triangulate_cases cfg fuel p xy F.winding with ⟨e, h'⟩ | ⟨cs, r, hcs, h'⟩
  · rw [h']
  · rw [h' F rfl] at h ⊢
    exact play_restores F P hs hs' hn he hb hf cs r e h

/-- Builders that collect fans behind the original content. -/
def FansAfter {D : Type} (pre : List (List D)) (g : GenericFans (List (List D)) (List D)) : Prop :=
  g.initialFanCount = pre.length ∧ ∃ l, g.fans = pre ++ l

/-- Builders that collect triangles behind the original content. -/
def TriplesAfter {D : Type} (pre : List (D × D × D)) (g : GenericList (List (D × D × D))) : Prop :=
  g.initialVertCount = pre.length ∧ ∃ l, g.list = pre ++ l

/-- Builders that collect triangles behind the original content of a flat vector. -/
def FlatAfter {D : Type} (pre : List D) (g : GenericList (FlatVec D)) : Prop :=
  g.initialVertCount = pre.length / 3 ∧ ∃ l, g.list.data = pre ++ l

theorem FansAfter.new {D : Type} (pre : List (List D)) (a b c : D) :
    FansAfter pre (GenericFans.new pre a b c) := ⟨rfl, [], by simp [GenericFans.new]⟩

theorem FansAfter.newFan {D : Type} {pre : List (List D)} {g} (h : FansAfter pre g) (a b c : D) :
    FansAfter pre (g.newFan a b c) := by
  obtain ⟨h1, l, h2⟩ := h
  exact ⟨h1, l ++ [g.currentFan], by simp [GenericFans.newFan, Fans.push, h2]⟩

theorem FansAfter.extendFan {D : Type} {pre : List (List D)} {g} (h : FansAfter pre g) (v : D) :
    FansAfter pre (g.extendFan v) := h

theorem FansAfter.fail {D : Type} {pre : List (List D)} {g} (h : FansAfter pre g) :
    g.fail = pre := by
  obtain ⟨h1, l, h2⟩ := h
  simp [GenericFans.fail, Fans.truncate, h1, h2]

theorem TriplesAfter.new {D : Type} (pre : List (D × D × D)) :
    TriplesAfter pre (GenericList.new pre) := ⟨rfl, [], by simp [GenericList.new]⟩

theorem TriplesAfter.add {D : Type} {pre : List (D × D × D)} {g} (h : TriplesAfter pre g) (a b c : D) :
    TriplesAfter pre (g.newTriangle a b c) := by
  obtain ⟨h1, l, h2⟩ := h
  exact ⟨h1, l ++ [(a, b, c)], by simp [GenericList.newTriangle, TriList.push, h2]⟩

theorem TriplesAfter.fail {D : Type} {pre : List (D × D × D)} {g} (h : TriplesAfter pre g) :
    g.fail = pre := by
  obtain ⟨h1, l, h2⟩ := h
  simp [GenericList.fail, TriList.truncate, h1, h2]

theorem FlatAfter.new {D : Type} (pre : List D) : FlatAfter pre (GenericList.new ⟨pre⟩) :=
  ⟨rfl, [], by simp [GenericList.new]⟩

theorem FlatAfter.add {D : Type} {pre : List D} {g} (h : FlatAfter pre g) (a b c : D) :
    FlatAfter pre (g.newTriangle a b c) := by
  obtain ⟨h1, l, h2⟩ := h
  exact ⟨h1, l ++ [a, b, c], by simp [GenericList.newTriangle, TriList.push, h2]⟩

theorem FlatAfter.fail {D : Type} {pre : List D} {g} (h : FlatAfter pre g) (h3 : 3 ∣ pre.length) :
    g.fail = ⟨pre⟩ := by
  obtain ⟨h1, l, h2⟩ := h
  simp [GenericList.fail, TriList.truncate, h1, h2, Nat.div_mul_cancel h3]

end Tri
