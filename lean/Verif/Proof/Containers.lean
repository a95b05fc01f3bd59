import Mathlib.Data.List.Forall2
import Mathlib.Logic.IsEmpty.Basic
import Verif.Proof.Rollback
import Verif.Proof.Source
import Verif.Spec.Containers

/-!
# Runs of the crate's formats over containers written by users
-/

set_option linter.unusedSectionVars false

namespace Tri

variable {I V C : Type}

theorem mem_indices {cs : List (Call I)} {fans : List (List I)} (h : HandsOver cs fans)
    {f : List I} (hf : f ∈ fans) {i : I} (hi : i ∈ f) : ∃ c ∈ cs, i ∈ c.indices := by
  obtain ⟨h1, rfl⟩ := h
  have h3 := h1 f hf
  match f, h3, hi, hf with
  | a :: b :: c :: ext, _, hi, hf =>
    simp only [List.mem_cons] at hi
    rcases hi with rfl | rfl | rfl | hi
    · exact ⟨.newFan i b c, List.mem_flatMap.2 ⟨_, hf, by simp [fanCalls]⟩, by simp [Call.indices]⟩
    · exact ⟨.newFan a i c, List.mem_flatMap.2 ⟨_, hf, by simp [fanCalls]⟩, by simp [Call.indices]⟩
    · exact ⟨.newFan a b i, List.mem_flatMap.2 ⟨_, hf, by simp [fanCalls]⟩, by simp [Call.indices]⟩
    · exact ⟨.extend i, List.mem_flatMap.2 ⟨_, hf, by simp [fanCalls, hi]⟩, by simp [Call.indices]⟩

theorem fanTriangles_lookup {J : Type} (g : I → J) (f : List I) :
    fanTriangles (f.map g) = (fanTriangles f).map fun t => (g t.1, g t.2.1, g t.2.2) := by
  cases f with
  | nil => rfl
  | cons a l =>
    simp only [fanTriangles, List.map_cons, List.map_map]
    rw [← List.map_tail, List.zip_map, List.map_map]
    rfl

theorem HandsOver.nil {fans : List (List I)} (h : HandsOver [] fans) : fans = [] := by
  rcases h with ⟨h1, h2⟩
  cases fans with
  | nil => rfl
  | cons f fans =>
    have hf' := h1 f (by simp)
    match f, hf' with
    | a :: b :: c :: ext, _ => simp [fanCalls] at h2

theorem HandsOver.triangles_ne {cs : List (Call I)} {fans : List (List I)} (h : HandsOver cs fans)
    (hne : ¬ (cs = [] ∧ fans = [])) : fans.flatMap fanTriangles ≠ [] := by
  cases fans with
  | nil => exact absurd ⟨h.2, rfl⟩ hne
  | cons f fans =>
    have h1 := h.1 f (by simp)
    match f, h1 with
    | a :: b :: c :: ext, _ => simp [fanTriangles]

/-- A run with a deindexed format is one with an indexed format and looked up vertices. -/
theorem deindexed_cases [Scalar C] [DecidableEq I] (cfg : Cfg) (fuel : Nat) (p : PolyList I V) (xy : V → Coords C) :
    (∃ e : Fault TrapErr, ∀ F : FanFormat I, triangulate cfg fuel p xy F = (F.unused,
      .error (match e with
        | .err e => .err (.trapezoidation e)
        | .panic => .panic | .ub => .ub | .timeout => .timeout))) ∨
    ∃ (cs : List (Call I)) (r : Res IErr Unit) (fans : List (List I)) (vcs : List (Call V)) (vfans : List (List V)),
      triangulate cfg fuel p xy (recorder I .counterclockwise) = (cs, recOutcome cs r) ∧
      HandsOver cs fans ∧ HandsOver vcs vfans ∧
      List.Forall₂ (List.Forall₂ fun i v => p.getVertex i = some v) fans vfans ∧
      (cs = [] ↔ vcs = [] ∧ vfans = []) ∧
      (∀ (FS F : Type) [Fans FS F] [Fan F V] (pre : FS),
        triangulate cfg fuel p xy (deindexedFan p pre) = play (indexedFan pre) vcs r) ∧
      (∀ (L : Type) [TriList L V] (pre : L), triangulate cfg fuel p xy (deindexedList p pre).intoFanFormat =
        playList (indexedList pre) (vfans.flatMap fanTriangles) r) ∧
      ∀ (L : Type) [TriList L I] (pre : L), triangulate cfg fuel p xy (indexedList pre).intoFanFormat =
        playList (indexedList pre) (fans.flatMap fanTriangles) r := by
  rcases triangulate_cases_src cfg fuel p xy .counterclockwise with ⟨e, -, h⟩ | ⟨cs, r, hcs, hB, -, h⟩
  · exact .inl ⟨e, h⟩
  · obtain ⟨fans, hf⟩ := hcs.handsOver
    have hr : triangulate cfg fuel p xy (recorder I .counterclockwise) = (cs, recOutcome cs r) := by
      rw [h (recorder I .counterclockwise) rfl, play_recorder _ _ hcs]
    have hI : ∀ (L : Type) [TriList L I] (pre : L), triangulate cfg fuel p xy (indexedList pre).intoFanFormat =
        playList (indexedList pre) (fans.flatMap fanTriangles) r := by
      intro L _ pre
      rw [h _ rfl, play_list _ cs fans hf]
    refine .inr ⟨cs, r, fans, ?_⟩
    rcases isEmpty_or_nonempty (I → V) with hV | ⟨⟨d⟩⟩
    · -- no lookup function at all: nothing was emitted
      have hnil : cs = [] := by
        cases cs with
        | nil => rfl
        | cons c cs =>
          exfalso
          obtain ⟨i, hi⟩ : ∃ i, i ∈ c.indices := by
            cases c with
            | newFan a b c => exact ⟨a, by simp [Call.indices]⟩
            | extend v => exact ⟨v, by simp [Call.indices]⟩
          have := (hB c (by simp) i hi).2
          obtain ⟨v, -⟩ := Option.isSome_iff_exists.1 this
          exact hV.false fun _ => v
      subst hnil
      have hfn := hf.nil
      subst hfn
      refine ⟨[], [], hr, hf, ⟨by simp, rfl⟩, .nil, by simp, ?_, ?_, hI⟩
      · intro FS F _ _ pre
        rw [h (deindexedFan p pre) rfl]
        rcases r with e | u <;> rfl
      · intro L _ pre
        rw [h (deindexedList p pre).intoFanFormat rfl]
        rcases r with e | u <;> rfl
    · classical
      let g : I → V := fun i => (p.getVertex i).getD (d i)
      have hg : ∀ c ∈ cs, ∀ i ∈ c.indices, p.getVertex i = some (g i) := by
        intro c hc i hi
        obtain ⟨v, hv⟩ := Option.isSome_iff_exists.1 (hB c hc i hi).2
        simp [g, hv]
      have hgf : ∀ f ∈ fans, ∀ i ∈ f, p.getVertex i = some (g i) := by
        intro f hf' i hi
        obtain ⟨c, hc, hi⟩ := mem_indices hf hf' hi
        exact hg c hc i hi
      have htri : ∀ t ∈ fans.flatMap fanTriangles, p.getVertex t.1 = some (g t.1) ∧
          p.getVertex t.2.1 = some (g t.2.1) ∧ p.getVertex t.2.2 = some (g t.2.2) := by
        intro t ht
        obtain ⟨f, hf', ht⟩ := List.mem_flatMap.1 ht
        have h0 := hgf f hf'
        cases f with
        | nil => simp [fanTriangles] at ht
        | cons a l =>
          simp only [fanTriangles, List.mem_map] at ht
          obtain ⟨⟨x, y⟩, hxy, rfl⟩ := ht
          have h1 := List.of_mem_zip hxy
          exact ⟨h0 a (by simp), h0 x (by simp [h1.1]), h0 y (by simp [List.mem_of_mem_tail h1.2])⟩
      have hmapT : (fans.map (List.map g)).flatMap fanTriangles =
          (fans.flatMap fanTriangles).map fun t => (g t.1, g t.2.1, g t.2.2) := by
        rw [List.flatMap_map, List.map_flatMap]
        congr 1
        funext f
        exact fanTriangles_lookup g f
      refine ⟨cs.map (Call.map g), fans.map (List.map g), hr, hf, hf.map g, ?_, ?_, ?_, ?_, hI⟩
      · rw [List.forall₂_map_right_iff, List.forall₂_same]
        intro f hf'
        rw [List.forall₂_map_right_iff, List.forall₂_same]
        exact hgf f hf'
      · constructor
        · rintro rfl
          rw [hf.nil]
          exact ⟨rfl, rfl⟩
        · intro h
          exact List.map_eq_nil_iff.1 h.1
      · intro FS F _ _ pre
        rw [h (deindexedFan p pre) rfl, play_deindexed p g pre cs hg]
      · intro L _ pre
        rw [h (deindexedList p pre).intoFanFormat rfl, play_list _ cs fans hf, playList_deindexed p g pre _ htri, hmapT]

section Fans
variable {FS F : Type} [Fans FS F] [Fan F I]

theorem feedB_own_ext (pre : FS) (ext : List I) (g : GenericFans FS F) :
    feedB (indexedFan pre) (ext.map .extend) g = ({ g with currentFan := ext.foldl Fan.push g.currentFan }, .ok ()) := by
  induction ext generalizing g with
  | nil => simp [feedB]
  | cons v ext ih =>
    simp only [List.map_cons, feedB]
    rw [ih]
    simp [GenericFans.extendFan]

theorem feedB_own_fans (pre : FS) (fans : List (List I)) (hf : ∀ f ∈ fans, 3 ≤ f.length) (g : GenericFans FS F) :
    ∃ g' made, feedB (indexedFan pre) (fans.flatMap fanCalls) g = (g', .ok ()) ∧ List.Forall₂ MadeFrom fans made ∧
      (g'.fans = pushAll g.fans (g.currentFan :: made).dropLast) ∧
      Fans.push g'.fans g'.currentFan = pushAll g.fans (g.currentFan :: made) ∧ g'.initialFanCount = g.initialFanCount := by
  induction fans generalizing g with
  | nil => exact ⟨g, [], rfl, .nil, rfl, rfl, rfl⟩
  | cons f fans ih =>
    have hf' := hf f (by simp)
    match f, hf' with
    | a :: b :: c :: ext, _ =>
      simp only [List.flatMap_cons, fanCalls, List.cons_append, feedB, feedB_append, feedB_own_ext]
      obtain ⟨g', made, h1, h2, h3, h4, h5⟩ := ih (fun f h => hf f (by simp [h]))
        { (g.newFan a b c) with currentFan := ext.foldl Fan.push (g.newFan a b c).currentFan }
      refine ⟨g', (ext.foldl Fan.push (Fan.new a b c)) :: made, h1, .cons ⟨a, b, c, ext, rfl, rfl⟩ h2, ?_, ?_, h5⟩
      · rw [h3]; rfl
      · rw [h4]; rfl

theorem play_own (pre : FS) (cs : List (Call I)) (fans : List (List I)) (hc : HandsOver cs fans) (r : Res IErr Unit) :
    ∃ made : List F, List.Forall₂ MadeFrom fans made ∧
      (∀ cs', recOutcome cs r = .ok cs' → play (indexedFan pre) cs r = (pushAll pre made, .ok (pushAll pre made))) ∧
      (∀ e, recOutcome cs r = .error e → (play (indexedFan pre) cs r).2 = .error e) ∧
      ∀ e, recOutcome cs r = .error (.err e) → made = [] ∧ (play (indexedFan pre) cs r).1 = pre ∨
        made ≠ [] ∧ (play (indexedFan pre) cs r).1 = Fans.truncate (pushAll pre made.dropLast) (Fans.len pre) := by
  cases cs with
  | nil =>
    have : fans = [] := by
      rcases hc with ⟨h1, h2⟩
      cases fans with
      | nil => rfl
      | cons f fans =>
        have hf' := h1 f (by simp)
        match f, hf' with
        | a :: b :: c :: ext, _ => simp [fanCalls] at h2
    subst this
    refine ⟨[], .nil, fun cs' h => ?_, fun e h => ?_, fun e h => .inl ⟨rfl, ?_⟩⟩
    · rcases r with e | u <;> cases h
    · rcases r with e' | u <;> cases h <;> rfl
    · rcases r with e' | u <;> rfl
  | cons c cs =>
    cases c with
    | extend v =>
      rcases hc with ⟨h1, h2⟩
      cases fans with
      | nil => simp at h2
      | cons f fans =>
        have hf' := h1 f (by simp)
        match f, hf' with
        | a :: b :: c :: ext, _ => simp [fanCalls] at h2
    | newFan a b c =>
      obtain ⟨ext, fans', rfl, hf, rfl⟩ := hc.cons
      obtain ⟨g', made, h1, h2, h3, h4, h5⟩ := feedB_own_fans pre fans' hf
        { (GenericFans.new pre a b c : GenericFans FS F) with
          currentFan := ext.foldl Fan.push (GenericFans.new pre a b c : GenericFans FS F).currentFan }
      refine ⟨(ext.foldl Fan.push (Fan.new a b c)) :: made, .cons ⟨a, b, c, ext, rfl, rfl⟩ h2, ?_, ?_, ?_⟩
      · intro cs' h
        simp only [play, feedB_append, feedB_own_ext, h1]
        rcases r with e | u
        · cases h
        · simp only [liftInner, finishB, GenericFans.build, h4]
          rfl
      · intro e h
        simp only [play, feedB_append, feedB_own_ext, h1]
        rcases r with e | u
        · cases e <;> cases h <;> rfl
        · cases h
      · intro e h
        refine .inr ⟨by simp, ?_⟩
        simp only [play, feedB_append, feedB_own_ext, h1]
        rcases r with e' | u
        · cases e' with
          | err e' =>
            simp only [liftInner, finishB, liftInternal, GenericFans.fail, h5, h3]
            rfl
          | panic => cases h
          | ub => cases h
          | timeout => cases h
        · cases h

end Fans

section Lists
variable {L : Type} [TriList L I]

theorem addAll_own (pre : L) (ts : List (I × I × I)) (g : GenericList L) :
    addAll (indexedList pre) ts g = ({ g with list := pushTriangles g.list ts }, .ok ()) := by
  induction ts generalizing g with
  | nil => simp [addAll, pushTriangles]
  | cons t ts ih =>
    obtain ⟨x, y, z⟩ := t
    simp only [addAll]
    rw [ih]
    simp [GenericList.newTriangle, pushTriangles]

theorem playList_own (pre : L) (ts : List (I × I × I)) (r : Res IErr Unit) :
    playList (indexedList pre) ts r = match ts, r with
      | [], .ok () => (pre, .error (.err .noVertices))
      | _ :: _, .ok () => (pushTriangles pre ts, .ok (pushTriangles pre ts))
      | [], .error e => (pre, .error (liftInternal e))
      | _ :: _, .error (.err e) => (TriList.truncate (pushTriangles pre ts) (TriList.len pre), .error (.err (.internal e)))
      | _ :: _, .error .panic => (pushTriangles pre ts, .error .panic)
      | _ :: _, .error .ub => (pushTriangles pre ts, .error .ub)
      | _ :: _, .error .timeout => (pushTriangles pre ts, .error .timeout) := by
  cases ts with
  | nil => rcases r with e | u <;> rfl
  | cons t ts =>
    obtain ⟨x, y, z⟩ := t
    simp only [playList, addAll_own, GenericList.newTriangle, GenericList.new]
    rcases r with e | u
    · cases e <;> simp [liftInner, liftInternal, finishB, GenericList.fail, pushTriangles]
    · simp [liftInner, finishB, GenericList.build, pushTriangles]

end Lists

section Delimited
variable {FS : Type} [Fans FS I] [DecidableEq I]

/-- The builder that has pushed the content of a vector onto `base`. -/
def ownDelim (base : FS) (n : Nat) (b : DelimitedBuilder I (List I)) : DelimitedBuilder I FS :=
  ⟨pushAll base b.fans, b.delimiter, n⟩

theorem ownDelim_push (base : FS) (n : Nat) (b : DelimitedBuilder I (List I)) (v : I) :
    (ownDelim base n b).pushIndex v = (ownDelim base n (b.pushIndex v).1, (b.pushIndex v).2) := by
  by_cases h : b.delimiter = v
  · have h1 : b.pushIndex v = (b, .error (.err .indexMatchesDelimiter)) := if_pos h
    have h2 : (ownDelim base n b).pushIndex v = (ownDelim base n b, .error (.err .indexMatchesDelimiter)) := if_pos h
    rw [h1, h2]
  · have h1 : b.pushIndex v = ({ b with fans := Fans.push b.fans v }, .ok ()) := if_neg h
    have h2 : (ownDelim base n b).pushIndex v =
        ({ ownDelim base n b with fans := Fans.push (ownDelim base n b).fans v }, .ok ()) := if_neg h
    rw [h1, h2]
    simp [ownDelim, pushAll, Fans.push]

theorem ownDelim_push3 (base : FS) (n : Nat) (b : DelimitedBuilder I (List I)) (x y z : I) :
    (ownDelim base n b).push3 x y z = (ownDelim base n (b.push3 x y z).1, (b.push3 x y z).2) := by
  simp only [DelimitedBuilder.push3, ownDelim_push]
  rcases b.pushIndex x with ⟨b1, e | u⟩
  · rfl
  · simp only [ownDelim_push]
    rcases b1.pushIndex y with ⟨b2, e | u⟩
    · rfl
    · simp only [ownDelim_push]

theorem feedB_own_delim (pre base : FS) (d : I) (n : Nat) (cs : List (Call I)) (b : DelimitedBuilder I (List I)) :
    feedB (delimitedFan pre d) cs (ownDelim base n b) =
      (ownDelim base n (feedB (delimitedFan ([] : List I) d) cs b).1, (feedB (delimitedFan ([] : List I) d) cs b).2) := by
  induction cs generalizing b with
  | nil => rfl
  | cons c cs ih =>
    cases c with
    | newFan x y z =>
      simp only [feedB]
      have h : ({ ownDelim base n b with fans := Fans.push (ownDelim base n b).fans (ownDelim base n b).delimiter } :
          DelimitedBuilder I FS) = ownDelim base n { b with fans := Fans.push b.fans b.delimiter } := by
        simp [ownDelim, pushAll, Fans.push]
      rw [h, ownDelim_push3]
      rcases ({ b with fans := Fans.push b.fans b.delimiter } : DelimitedBuilder I (List I)).push3 x y z with ⟨b1, e | u⟩
      · rfl
      · exact ih b1
    | extend v =>
      simp only [feedB, ownDelim_push]
      rcases b.pushIndex v with ⟨b1, e | u⟩
      · rfl
      · exact ih b1

/-- The container after the separator from what it held before. -/
def ownBase (pre : FS) (d : I) : FS := if Fans.len pre > 0 then Fans.push pre d else pre

/-- A run that starts its container at `pre` does what one that starts with an empty vector does. -/
theorem play_own_delim (pre : FS) (d : I) (cs : List (Call I)) (r : Res IErr Unit) :
    (play (delimitedFan pre d) cs r).2 = (play (delimitedFan ([] : List I) d) cs r).2.map (pushAll (ownBase pre d)) ∧
      (∀ o, (play (delimitedFan ([] : List I) d) cs r).2 = .ok o →
        (play (delimitedFan pre d) cs r).1 = pushAll (ownBase pre d) o) ∧
      (FansUndo FS → (∀ x y z l, cs = .newFan x y z :: l → d ≠ x ∧ d ≠ y ∧ d ≠ z) →
        ∀ e, (play (delimitedFan pre d) cs r).2 = .error (.err e) → (play (delimitedFan pre d) cs r).1 = pre) := by
  cases cs with
  | nil => rcases r with e | u <;> exact ⟨rfl, fun o h => (by cases h), fun _ _ _ _ => rfl⟩
  | cons c cs =>
    cases c with
    | extend v => rcases r with e | u <;> exact ⟨rfl, fun o h => (by cases h), fun _ _ _ _ => rfl⟩
    | newFan x y z =>
      have h0 : (⟨if Fans.len pre > 0 then Fans.push pre d else pre, d, Fans.len pre⟩ : DelimitedBuilder I FS) =
          ownDelim (ownBase pre d) (Fans.len pre) ⟨[], d, 0⟩ := rfl
      have hl : (if Fans.len ([] : List I) > 0 then Fans.push ([] : List I) d else ([] : List I)) = [] := rfl
      have hundo : FansUndo FS → ∀ l : List I, Fans.truncate (pushAll (ownBase pre d) l) (Fans.len pre) = pre := by
        intro h l
        unfold ownBase
        split
        · exact h pre (d :: l)
        · exact h pre l
      simp only [play, h0, ownDelim_push3, hl]
      rcases hp : (⟨[], d, Fans.len ([] : List I)⟩ : DelimitedBuilder I (List I)).push3 x y z with ⟨b1, e | u⟩
      · have hp' : (⟨[], d, 0⟩ : DelimitedBuilder I (List I)).push3 x y z = (b1, .error e) := hp
        simp only
        refine ⟨by cases e <;> rfl, fun o h => (by cases h), fun _ hd => ?_⟩
        exfalso
        obtain ⟨h1, h2, h3⟩ := hd x y z cs rfl
        have := (push3_vec (⟨[], d, 0⟩ : DelimitedBuilder I (List I)) x y z).1 (by simp [h1, h2, h3])
        rw [hp'] at this
        cases this
      · have hp' : (⟨[], d, 0⟩ : DelimitedBuilder I (List I)).push3 x y z = (b1, .ok u) := hp
        simp only [feedB_own_delim]
        rcases feedB (delimitedFan ([] : List I) d) cs b1 with ⟨b2, e | u⟩
        · refine ⟨by cases e <;> rfl, fun o h => (by cases e <;> cases h), fun hu _ e' h => ?_⟩
          cases e with
          | err e => exact hundo hu _
          | panic => cases h
          | ub => cases h
          | timeout => cases h
        · rcases r with e | u
          · refine ⟨by cases e <;> rfl, fun o h => (by cases e <;> cases h), fun hu _ e' h => ?_⟩
            cases e with
            | err e => exact hundo hu _
            | panic => cases h
            | ub => cases h
            | timeout => cases h
          · exact ⟨rfl, fun o h => (by cases h; rfl), fun _ _ e h => (by cases h)⟩

end Delimited

end Tri
