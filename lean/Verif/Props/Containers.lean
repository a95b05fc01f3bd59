import Verif.Proof.Containers
import Verif.Spec.Exact

/-!
# C54: containers written by users

The operations of a container may do anything (they are functions of the container), unless stated otherwise.
`rec_` is the run with an infallible format that only writes the calls down (see C11).
-/

namespace Tri

variable {I V C : Type} [Scalar C] [DecidableEq I]

/-- **C54**, `IndexedFanFormat` over any implementations of `Fans` and `Fan`: the fans that are handed over are made
with `new` and `push` and pushed in order onto what the container was before; the run ends as the recording one. After an
error the container is what it was before, if its `truncate` does what it is documented to do. -/
theorem C54_fans (cfg : Cfg) (fuel : Nat) (p : PolyList I V) (xy : V → Coords C)
    {FS F : Type} [Fans FS F] [Fan F I] (pre : FS) :
    let rec_ := triangulate cfg fuel p xy (recorder I .counterclockwise)
    let out := triangulate cfg fuel p xy (indexedFan pre)
    ∃ fans, ∃ made : List F, HandsOver rec_.1 fans ∧ List.Forall₂ MadeFrom fans made ∧
      (∀ cs, rec_.2 = .ok cs → out = (pushAll pre made, .ok (pushAll pre made))) ∧
      (∀ e, rec_.2 = .error e → out.2 = .error e) ∧
      (FansUndo FS → ∀ e, out.2 = .error (.err e) → out.1 = pre) := by
  rcases triangulate_cases cfg fuel p xy .counterclockwise with ⟨e, h⟩ | ⟨cs, r, hcs, h⟩
  · simp only [h]
    exact ⟨[], [], ⟨by simp, rfl⟩, .nil, fun cs h => (by cases h), fun _ h => (by cases h; rfl), fun _ _ _ => trivial⟩
  · obtain ⟨fans, hf⟩ := hcs.handsOver
    simp only [h (recorder I .counterclockwise) rfl, h (indexedFan pre) rfl, play_recorder _ _ hcs]
    obtain ⟨made, h1, h2, h3, h4⟩ := play_own pre cs fans hf r
    refine ⟨fans, made, hf, h1, h2, h3, fun hu e he => ?_⟩
    rcases hro : recOutcome cs r with e' | cs'
    · rw [h3 e' hro] at he
      cases he
      rcases h4 e hro with ⟨-, h5⟩ | ⟨-, h5⟩
      · exact h5
      · rw [h5]; exact hu _ _
    · rw [h2 cs' hro] at he; cases he

/-- **C54**, `DeindexedFanFormat` over any implementations of `Fans` and `Fan`: the same with the vertices that the
indices name. -/
theorem C54_deindexed_fans (cfg : Cfg) (fuel : Nat) (p : PolyList I V) (xy : V → Coords C)
    {FS F : Type} [Fans FS F] [Fan F V] (pre : FS) :
    let rec_ := triangulate cfg fuel p xy (recorder I .counterclockwise)
    let out := triangulate cfg fuel p xy (deindexedFan p pre)
    ∃ fans vfans, ∃ made : List F, HandsOver rec_.1 fans ∧
      List.Forall₂ (List.Forall₂ fun i v => p.getVertex i = some v) fans vfans ∧ List.Forall₂ MadeFrom vfans made ∧
      (∀ cs, rec_.2 = .ok cs → out = (pushAll pre made, .ok (pushAll pre made))) ∧
      (∀ e, rec_.2 = .error e → out.2 = .error e) ∧
      (FansUndo FS → ∀ e, out.2 = .error (.err e) → out.1 = pre) := by
  rcases deindexed_cases cfg fuel p xy with ⟨e, h⟩ | ⟨cs, r, fans, vcs, vfans, h0, hf, hvf, hl, hne, hF, -⟩
  · simp only [h]
    exact ⟨[], [], [], ⟨by simp, rfl⟩, .nil, .nil, fun cs h => (by cases h), fun _ h => (by cases h; rfl), fun _ _ _ => trivial⟩
  · simp only [h0, hF]
    obtain ⟨made, h1, h2, h3, h4⟩ := play_own pre vcs vfans hvf r
    have hcv : ∀ cs', recOutcome cs r = .ok cs' → ∃ vcs', recOutcome vcs r = .ok vcs' := by
      intro cs' hc
      cases vcs with
      | nil =>
        have := hne.2 ⟨rfl, hvf.nil⟩
        subst this
        rcases r with e | u <;> cases hc
      | cons c l =>
        rcases r with e | u
        · cases hc
        · exact ⟨_, rfl⟩
    have hce : ∀ e, recOutcome cs r = .error e → recOutcome vcs r = .error e := by
      intro e hc
      cases cs with
      | nil =>
        obtain ⟨rfl, -⟩ := hne.1 rfl
        rcases r with e | u <;> cases hc <;> rfl
      | cons c l =>
        rcases r with e | u
        · cases hc; rfl
        · cases hc
    refine ⟨fans, vfans, made, hf, hl, h1, fun cs' hc => ?_, fun e he => h3 e (hce e he), fun hu e he => ?_⟩
    · obtain ⟨vcs', hv⟩ := hcv cs' hc
      exact h2 vcs' hv
    · rcases hro : recOutcome vcs r with e' | cs'
      · rw [h3 e' hro] at he
        cases he
        rcases h4 e hro with ⟨-, h5⟩ | ⟨-, h5⟩
        · exact h5
        · rw [h5]; exact hu _ _
      · rw [h2 cs' hro] at he; cases he

/-- **C54**, `IndexedListFormat` and `DeindexedListFormat` over any implementation of `List`: the triangles of the fans
are pushed in order. -/
theorem C54_lists (cfg : Cfg) (fuel : Nat) (p : PolyList I V) (xy : V → Coords C)
    {L LV : Type} [TriList L I] [TriList LV V] (pre : L) (preV : LV) :
    let rec_ := triangulate cfg fuel p xy (recorder I .counterclockwise)
    let out := triangulate cfg fuel p xy (indexedList pre).intoFanFormat
    let outV := triangulate cfg fuel p xy (deindexedList p preV).intoFanFormat
    ∃ fans vfans, HandsOver rec_.1 fans ∧
      List.Forall₂ (List.Forall₂ fun i v => p.getVertex i = some v) fans vfans ∧
      (∀ cs, rec_.2 = .ok cs →
        out = (pushTriangles pre (fans.flatMap fanTriangles), .ok (pushTriangles pre (fans.flatMap fanTriangles))) ∧
        outV = (pushTriangles preV (vfans.flatMap fanTriangles), .ok (pushTriangles preV (vfans.flatMap fanTriangles)))) ∧
      (∀ e, rec_.2 = .error e → out.2 = .error e ∧ outV.2 = .error e) ∧
      (ListUndo L → ∀ e, out.2 = .error (.err e) → out.1 = pre) ∧
      (ListUndo LV → ∀ e, outV.2 = .error (.err e) → outV.1 = preV) := by
  rcases deindexed_cases cfg fuel p xy with ⟨e, h⟩ | ⟨cs, r, fans, vcs, vfans, h0, hf, hvf, hl, hne, -, hL, hI⟩
  · simp only [h]
    exact ⟨[], [], ⟨by simp, rfl⟩, .nil, fun cs h => (by cases h), fun _ h => (by cases h; exact ⟨rfl, rfl⟩),
      fun _ _ _ => trivial, fun _ _ _ => trivial⟩
  · simp only [h0, hI, hL, playList_own]
    refine ⟨fans, vfans, hf, hl, ?_⟩
    cases cs with
    | nil =>
      obtain ⟨rfl, rfl⟩ := hne.1 rfl
      have := hf.nil
      subst this
      rcases r with e | u
      · exact ⟨fun cs h => (by cases h), fun e h => (by cases h; exact ⟨rfl, rfl⟩), fun _ _ _ => rfl, fun _ _ _ => rfl⟩
      · exact ⟨fun cs h => (by cases h), fun e h => (by cases h; exact ⟨rfl, rfl⟩), fun _ _ _ => rfl, fun _ _ _ => rfl⟩
    | cons c cs =>
      have hts := hf.triangles_ne (by simp)
      have hvts := hvf.triangles_ne fun h => nomatch (hne.2 h)
      generalize fans.flatMap fanTriangles = ts at hts ⊢
      generalize vfans.flatMap fanTriangles = vts at hvts ⊢
      cases ts with
      | nil => exact absurd rfl hts
      | cons t ts =>
        cases vts with
        | nil => exact absurd rfl hvts
        | cons v vts =>
          rcases r with (e | _ | _ | _) | u
          · exact ⟨fun cs h => (by cases h), fun e h => (by cases h; exact ⟨rfl, rfl⟩), fun hu _ _ => hu _ _,
              fun hu _ _ => hu _ _⟩
          · exact ⟨fun cs h => (by cases h), fun e h => (by cases h; exact ⟨rfl, rfl⟩), fun _ _ h => (by cases h),
              fun _ _ h => (by cases h)⟩
          · exact ⟨fun cs h => (by cases h), fun e h => (by cases h; exact ⟨rfl, rfl⟩), fun _ _ h => (by cases h),
              fun _ _ h => (by cases h)⟩
          · exact ⟨fun cs h => (by cases h), fun e h => (by cases h; exact ⟨rfl, rfl⟩), fun _ _ h => (by cases h),
              fun _ _ h => (by cases h)⟩
          · exact ⟨fun cs h => ⟨rfl, rfl⟩, fun e h => (by cases h), fun _ _ h => (by cases h), fun _ _ h => (by cases h)⟩

/-- **C54**, `DelimitedFanFormat` over any implementation of `Fans`: the format behaves as it does over an empty vector,
and pushes the content of that vector, after a delimiter if the container was not empty.  After an error the container
is what it was before, if its `truncate` does what it is documented to do and the delimiter is not in the first triangle
(see C18). -/
theorem C54_delimited (cfg : Cfg) (fuel : Nat) (p : PolyList I V) (xy : V → Coords C)
    {FS : Type} [Fans FS I] (pre : FS) (d : I) :
    let rec_ := triangulate cfg fuel p xy (recorder I .counterclockwise)
    let vec := triangulate cfg fuel p xy (delimitedFan ([] : List I) d)
    let out := triangulate cfg fuel p xy (delimitedFan pre d)
    (∀ o, vec.2 = .ok o → out = (pushAll pre ((if Fans.len pre > 0 then [d] else []) ++ o),
        .ok (pushAll pre ((if Fans.len pre > 0 then [d] else []) ++ o)))) ∧
      (∀ e, vec.2 = .error e → out.2 = .error e) ∧
      (FansUndo FS → (∀ a b c l, rec_.1 = .newFan a b c :: l → d ≠ a ∧ d ≠ b ∧ d ≠ c) →
        ∀ e, out.2 = .error (.err e) → out.1 = pre) := by
  rcases triangulate_cases cfg fuel p xy .counterclockwise with ⟨e, h⟩ | ⟨cs, r, hcs, h⟩
  · simp only [h]
    exact ⟨fun o h => (by cases h), fun _ h => (by cases h; rfl), fun _ _ _ _ => trivial⟩
  · simp only [h (recorder I .counterclockwise) rfl, h (delimitedFan pre d) rfl, h (delimitedFan ([] : List I) d) rfl,
      play_recorder _ _ hcs]
    obtain ⟨h1, h2, h3⟩ := play_own_delim pre d cs r
    have hb : ∀ o, pushAll (ownBase pre d) o = pushAll pre ((if Fans.len pre > 0 then [d] else []) ++ o) := by
      intro o
      unfold ownBase
      split <;> rfl
    refine ⟨fun o ho => Prod.ext ?_ ?_, fun e he => ?_, h3⟩
    · rw [h2 o ho, hb]
    · rw [h1, ho]; exact congrArg Except.ok (hb o)
    · rw [h1, he]; rfl

section Examples

attribute [local instance] exact

/-- A container that is no vector: it keeps the fans in reverse order and counts them. -/
structure Stack (F : Type) where
  top : List F
  count : Nat
deriving DecidableEq

instance {F : Type} : Fans (Stack F) F where
  len s := s.count
  truncate s n := ⟨s.top.drop (s.count - n), n⟩
  push s f := ⟨f :: s.top, s.count + 1⟩

/-- C54: a container that is no vector and undoes as documented. -/
example : FansUndo (Stack (List Nat)) := by
  intro fs l
  have key : ∀ (l : List (List Nat)) (fs : Stack (List Nat)), (pushAll fs l).top = l.reverse ++ fs.top ∧
      (pushAll fs l).count = fs.count + l.length := by
    intro l
    induction l with
    | nil => intro fs; exact ⟨rfl, rfl⟩
    | cons x l ih =>
      intro fs
      obtain ⟨h1, h2⟩ := ih (Fans.push fs x)
      have e : pushAll fs (x :: l) = pushAll (Fans.push fs x) l := rfl
      rw [e, h1, h2]
      simp [Fans.push]
      omega
  obtain ⟨h1, h2⟩ := key l fs
  simp [Fans.truncate, Fans.len, h1, h2]

/-- C54: vectors of fans and of triples undo as documented. -/
example : FansUndo (List (List Nat)) ∧ ListUndo (List (Nat × Nat × Nat)) := by
  have key : ∀ (l fs : List (List Nat)), pushAll fs l = fs ++ l := by
    intro l
    induction l with
    | nil => intro fs; simp [pushAll]
    | cons x l ih => intro fs; have := ih (fs ++ [x]); simpa [pushAll, Fans.push] using this
  have key' : ∀ (l fs : List (Nat × Nat × Nat)), pushTriangles fs l = fs ++ l := by
    intro l
    induction l with
    | nil => intro fs; simp [pushTriangles]
    | cons x l ih => intro fs; have := ih (fs ++ [x]); simpa [pushTriangles, TriList.push] using this
  exact ⟨fun fs l => by simp [key, Fans.truncate, Fans.len], fun fs l => by simp [key', TriList.truncate, TriList.len]⟩

/-- C54: a run over such a container that succeeds, and one that fails after having emitted. -/
example : (triangulate (Cfg.plain (fun _ _ => 1) false) 60 (PolyList.single dart) id
    (indexedFan (⟨[[7]], 1⟩ : Stack (List Nat)))).2 = .ok ⟨[[0, 1, 2, 3], [7]], 2⟩ := by decide +kernel

example : let knot := [ipt 4 0, ipt 0 1, ipt 2 2, ipt 1 1, ipt 3 0]
    triangulate (Cfg.plain (fun _ _ => 1) false) 60 (PolyList.single knot) id (indexedFan (⟨[[7]], 1⟩ : Stack (List Nat))) =
      (⟨[[7]], 1⟩, .error (.err (.internal .invalidI))) := by decide +kernel

end Examples

end Tri
