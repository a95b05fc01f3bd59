import Verif.Proof.Rollback
import Verif.Spec.Exact

/-!
# C14, C15, C17, C18: what the crate's formats make of the calls

`rec_` is always the run with an infallible format that only writes the calls down (see C11).
-/

namespace Tri

variable {I V C : Type} [Scalar C] [DecidableEq I]

/-- **C14.**  `IndexedFanFormat` over a vector with content `pre` succeeds and fails exactly as the
recording run does, and on success returns `pre` followed by the fans that were handed over. -/
theorem C14_indexed_fan_appends (cfg : Cfg) (fuel : Nat) (p : PolyList I V) (xy : V → Coords C)
    (pre : List (List I)) :
    let rec_ := triangulate cfg fuel p xy (recorder I .counterclockwise)
    let out := triangulate cfg fuel p xy (indexedFan pre)
    ∃ fans, HandsOver rec_.1 fans ∧
      (∀ cs, rec_.2 = .ok cs → out = (pre ++ fans, .ok (pre ++ fans))) ∧
      (∀ e, rec_.2 = .error e → out.2 = .error e) := by
  rcases triangulate_cases cfg fuel p xy .counterclockwise with ⟨e, h⟩ | ⟨cs, r, hcs, h⟩
  · simp only [h]
    exact ⟨[], ⟨by simp, rfl⟩, fun cs h => (by cases h), fun _ h => (by cases h; rfl)⟩
  · simp only [h (recorder I .counterclockwise) rfl, h (indexedFan pre) rfl, play_recorder _ _ hcs]
    obtain ⟨fans, hf⟩ := hcs.handsOver
    have := play_indexed pre cs fans hf r
    refine ⟨fans, hf, fun cs' hc => ?_, fun e he => ?_⟩
    · rw [hc] at this; exact this
    · rw [he] at this; rw [this]

/-- **C15**, any list format.  The triangles handed to `L` are, in order, those of the fans; all of
them unless `L` itself fails, in which case the failing one is the last and its error is returned. -/
theorem C15_list_format_sees_fan_triangles (cfg : Cfg) (fuel : Nat) (p : PolyList I V)
    (xy : V → Coords C) (L : ListFormat I) :
    let rec_ := triangulate cfg fuel p xy (recorder I L.winding)
    let run := triangulate cfg fuel p xy L.logged.intoFanFormat
    let log := run.1.2
    (run.1.1, run.2) = triangulate cfg fuel p xy L.intoFanFormat ∧
    ∃ fans, HandsOver rec_.1 fans ∧
      ((∃ e w, L.start = .error (e, w) ∧ log = [] ∧
          (fans ≠ [] → run.2 = .error (liftBuilderErr e))) ∨
        (log = (fans.flatMap fanTriangles).map (⟨·, none⟩) ∧
          ∀ e, rec_.2 = .error e → run.2 = .error (castFault e)) ∨
        ∃ e l t l', fans.flatMap fanTriangles = l ++ t :: l' ∧
          log = l.map (⟨·, none⟩) ++ [⟨t, some e⟩] ∧ run.2 = .error (liftBuilderErr e)) := by
  rcases triangulate_cases cfg fuel p xy L.winding with ⟨e, h⟩ | ⟨cs, r, hcs, h⟩
  · simp only [h]
    refine ⟨trivial, [], ⟨by simp, rfl⟩, .inr (.inl ⟨rfl, ?_⟩)⟩
    intro e' he'
    cases e <;> cases he' <;> rfl
  · obtain ⟨fans, hf⟩ := hcs.handsOver
    simp only [h (recorder I L.winding) rfl, h L.intoFanFormat rfl, h L.logged.intoFanFormat rfl,
      play_recorder _ _ hcs, play_list _ cs fans hf]
    have hlog := playList_logged L (fans.flatMap fanTriangles) r
    simp only [hlog]
    refine ⟨trivial, fans, hf, ?_⟩
    by_cases hne : fans = []
    · subst hne
      have hcs0 : cs = [] := hf.2
      subst hcs0
      have h0 : listLog L ([].flatMap fanTriangles) = [] := by
        simp only [listLog]; cases L.start <;> rfl
      rw [h0]
      refine .inr (.inl ⟨rfl, fun e he => ?_⟩)
      rcases r with e' | u
      · cases e' <;> cases he <;> rfl
      · cases he; rfl
    · have htri : fans.flatMap fanTriangles ≠ [] := by
        cases fans with
        | nil => exact absurd rfl hne
        | cons f fans =>
          have hf' := hf.1 f (by simp)
          match f, hf' with
          | a :: b :: c :: ext, _ => simp [fanTriangles_cons]
      rcases playList_spec L (fans.flatMap fanTriangles) r htri with
        ⟨e, w, h1, h2, h3⟩ | ⟨b, h1, h2, h3⟩ | ⟨b, h1, e, l, t, l', h2, h3, h4⟩
      · exact .inl ⟨e, w, h1, h2, fun _ => h3⟩
      · refine .inr (.inl ⟨h2, fun e he => ?_⟩)
        rcases r with e' | u
        · rw [h3 e' rfl]
          cases e' <;> cases he <;> rfl
        · cases cs with
          | nil =>
            exfalso
            obtain ⟨hf1, hf2⟩ := hf
            cases fans with
            | nil => exact hne rfl
            | cons f fans =>
              have hf' := hf1 f (by simp)
              match f, hf' with
              | a :: b :: c :: ext, _ => simp [fanCalls] at hf2
          | cons c cs => cases he
      · exact .inr (.inr ⟨e, l, t, l', h2, h3, h4⟩)

/-- **C15**, `IndexedListFormat` over vectors of triples and over flat vectors: the previous content
followed by the triangles of the fans. -/
theorem C15_indexed_list_appends (cfg : Cfg) (fuel : Nat) (p : PolyList I V) (xy : V → Coords C)
    (pre : List (I × I × I)) (flat : List I) :
    let rec_ := triangulate cfg fuel p xy (recorder I .counterclockwise)
    let out := triangulate cfg fuel p xy (indexedList pre).intoFanFormat
    let outFlat := triangulate cfg fuel p xy (indexedList (FlatVec.mk flat)).intoFanFormat
    ∃ fans, HandsOver rec_.1 fans ∧
      (∀ cs, rec_.2 = .ok cs →
        out.2 = .ok (pre ++ fans.flatMap fanTriangles) ∧
        outFlat.2 = .ok ⟨flat ++ (fans.flatMap fanTriangles).flatMap fun t => [t.1, t.2.1, t.2.2]⟩ ∧
        out.2 = .ok out.1 ∧ outFlat.2 = .ok outFlat.1) ∧
      (∀ e, rec_.2 = .error e → out.2 = .error e ∧ outFlat.2 = .error e) := by
  rcases triangulate_cases cfg fuel p xy .counterclockwise with ⟨e, h⟩ | ⟨cs, r, hcs, h⟩
  · simp only [h]
    exact ⟨[], ⟨by simp, rfl⟩, fun cs h => (by cases h), fun _ h => (by cases h; exact ⟨rfl, rfl⟩)⟩
  · obtain ⟨fans, hf⟩ := hcs.handsOver
    simp only [h (recorder I .counterclockwise) rfl, h (indexedList pre).intoFanFormat rfl,
      h (indexedList (FlatVec.mk flat)).intoFanFormat rfl, play_recorder _ _ hcs,
      play_list _ cs fans hf, playList_triples, playList_flat]
    refine ⟨fans, hf, ?_⟩
    by_cases hne : fans = []
    · subst hne
      have hcs0 : cs = [] := hf.2
      subst hcs0
      refine ⟨fun cs' h => ?_, fun e he => ?_⟩
      · rcases r with e' | u <;> cases h
      · rcases r with e' | u
        · cases he; exact ⟨rfl, rfl⟩
        · cases he; exact ⟨rfl, rfl⟩
    · have htri : ∃ t ts, fans.flatMap fanTriangles = t :: ts := by
        cases fans with
        | nil => exact absurd rfl hne
        | cons f fans =>
          have hf' := hf.1 f (by simp)
          match f, hf' with
          | a :: b :: c :: ext, _ => exact ⟨_, _, by rw [List.flatMap_cons, fanTriangles_cons, List.cons_append]⟩
      have hcs' : ∃ c l, cs = c :: l := by
        obtain ⟨hf1, hf2⟩ := hf
        cases fans with
        | nil => exact absurd rfl hne
        | cons f fans =>
          have hf' := hf1 f (by simp)
          match f, hf' with
          | a :: b :: c :: ext, _ => exact ⟨_, _, by rw [hf2, List.flatMap_cons, fanCalls, List.cons_append]⟩
      obtain ⟨c, l, rfl⟩ := hcs'
      obtain ⟨t, ts, ht⟩ := htri
      rw [ht]
      refine ⟨fun cs' h => ?_, fun e he => ?_⟩
      · rcases r with e' | u
        · cases h
        · exact ⟨rfl, rfl, rfl, rfl⟩
      · rcases r with e' | u
        · cases he
          cases e' <;> exact ⟨rfl, rfl⟩
        · cases he

/-- **C17.**  `DelimitedFanFormat` with delimiter `d` over a vector with content `pre`.  It fails with
`IndexMatchesDelimiter` exactly when `d` is among the emitted vertices; otherwise it ends as the
recording run does, and on success the new part (after the separator from the previous content)
splits at `d` into exactly the emitted fans. -/
theorem C17_delimited_round_trip (cfg : Cfg) (fuel : Nat) (p : PolyList I V) (xy : V → Coords C)
    (pre : List I) (d : I) :
    let rec_ := triangulate cfg fuel p xy (recorder I .counterclockwise)
    let out := triangulate cfg fuel p xy (delimitedFan pre d)
    ∃ fans, HandsOver rec_.1 fans ∧
      ((out.2 = .error (.err (.fanBuilder .indexMatchesDelimiter))) ↔ ∃ f ∈ fans, d ∈ f) ∧
      (∀ o, out.2 = .ok o → ∃ new, o = pre ++ (if pre = [] then [] else [d]) ++ new ∧
        new.splitOn d = fans ∧ out.1 = o) ∧
      ((∀ f ∈ fans, d ∉ f) →
        (∀ cs, rec_.2 = .ok cs → ∃ o, out.2 = .ok o) ∧
        (∀ e, rec_.2 = .error e → out.2 = .error (castFault e))) := by
  rcases triangulate_cases cfg fuel p xy .counterclockwise with ⟨e, h⟩ | ⟨cs, r, hcs, h⟩
  · simp only [h]
    refine ⟨[], ⟨by simp, rfl⟩, ?_, fun o h => (by cases h), fun _ => ⟨fun _ h => (by cases h), ?_⟩⟩
    · cases e <;> simp
    · intro e' he'
      cases e <;> cases he' <;> rfl
  · obtain ⟨fans, hf⟩ := hcs.handsOver
    simp only [h (recorder I .counterclockwise) rfl, h (delimitedFan pre d) rfl,
      play_recorder _ _ hcs]
    obtain ⟨h1, h2, h3, -⟩ := play_delim pre d cs fans hf r
    have hcast : ∀ e : Fault (TriErr Empty),
        (castFault e : Fault (TriErr DelimitedFanError)) ≠
          .err (.fanBuilder .indexMatchesDelimiter) := by
      intro e
      match e with
      | .err (.trapezoidation e) => simp [castFault]
      | .err .noVertices => simp [castFault]
      | .err (.internal e) => simp [castFault]
      | .err (.fanBuilder e) => exact e.elim
      | .panic => simp [castFault]
      | .ub => simp [castFault]
      | .timeout => simp [castFault]
    refine ⟨fans, hf, ⟨fun ho => ?_, h3⟩, fun o ho => ?_, fun hno => ⟨fun cs' hc => ?_, h2 hno⟩⟩
    · by_contra hno
      have hno' : ∀ f ∈ fans, d ∉ f := fun f hf hd => hno ⟨f, hf, hd⟩
      rcases hro : recOutcome cs r with e | cs'
      · rw [h2 hno' e hro] at ho
        exact hcast e (by simpa using ho)
      · rw [h1 hno' cs' hro] at ho
        cases ho
    · by_cases hd : ∃ f ∈ fans, d ∈ f
      · rw [h3 hd] at ho; cases ho
      · have hno' : ∀ f ∈ fans, d ∉ f := fun f hf hd' => hd ⟨f, hf, hd'⟩
        rcases hro : recOutcome cs r with e | cs'
        · rw [h2 hno' e hro] at ho; cases ho
        · have := h1 hno' cs' hro
          rw [this] at ho
          cases ho
          refine ⟨_, rfl, List.splitOn_intercalate d hno' ?_, by rw [this]⟩
          rintro rfl
          have hcs0 : cs = [] := hf.2
          subst hcs0
          rcases r with e | u <;> cases hro
    · rw [h1 hno cs' hc]
      exact ⟨_, rfl⟩

/-- **C18**, the part that holds: the container is restored whenever the run returns an error, for
`IndexedFanFormat` and `DeindexedFanFormat` over vectors of vectors, `IndexedListFormat` and
`DeindexedListFormat` over vectors of triples and over flat vectors whose length is a multiple of
three, and `DelimitedFanFormat` if the delimiter is not among the vertices of the first triangle.
Missing: the three situations in which the code does not restore it
(`C18_flat_vec_not_restored`, `C18_delimited_not_restored`, `C18_list_start_not_restored`). -/
theorem C18_failure_restores_partial (cfg : Cfg) (fuel : Nat) (p : PolyList I V) (xy : V → Coords C) :
    (∀ (pre : List (List I)) e, (triangulate cfg fuel p xy (indexedFan pre)).2 = .error (.err e) →
      (triangulate cfg fuel p xy (indexedFan pre)).1 = pre) ∧
    (∀ (pre : List (List V)) e, (triangulate cfg fuel p xy (deindexedFan p pre)).2 = .error (.err e) →
      (triangulate cfg fuel p xy (deindexedFan p pre)).1 = pre) ∧
    (∀ (pre : List (I × I × I)) e,
      (triangulate cfg fuel p xy (indexedList pre).intoFanFormat).2 = .error (.err e) →
      (triangulate cfg fuel p xy (indexedList pre).intoFanFormat).1 = pre) ∧
    (∀ (pre : List (V × V × V)) e,
      (triangulate cfg fuel p xy (deindexedList p pre).intoFanFormat).2 = .error (.err e) →
      (triangulate cfg fuel p xy (deindexedList p pre).intoFanFormat).1 = pre) ∧
    (∀ (pre : List I) e, 3 ∣ pre.length →
      (triangulate cfg fuel p xy (indexedList (FlatVec.mk pre)).intoFanFormat).2 = .error (.err e) →
      (triangulate cfg fuel p xy (indexedList (FlatVec.mk pre)).intoFanFormat).1 = ⟨pre⟩) ∧
    (∀ (pre : List V) e, 3 ∣ pre.length →
      (triangulate cfg fuel p xy (deindexedList p (FlatVec.mk pre)).intoFanFormat).2 = .error (.err e) →
      (triangulate cfg fuel p xy (deindexedList p (FlatVec.mk pre)).intoFanFormat).1 = ⟨pre⟩) ∧
    (∀ (pre : List I) d e, (∀ a b c l,
        (triangulate cfg fuel p xy (recorder I .counterclockwise)).1 = .newFan a b c :: l →
        d ≠ a ∧ d ≠ b ∧ d ≠ c) →
      (triangulate cfg fuel p xy (delimitedFan pre d)).2 = .error (.err e) →
      (triangulate cfg fuel p xy (delimitedFan pre d)).1 = pre) := by
  refine ⟨fun pre e => ?_, fun pre e => ?_, fun pre e => ?_, fun pre e => ?_, fun pre e h3 => ?_,
    fun pre e h3 => ?_, fun pre d e hd => ?_⟩
  · refine triangulate_restores (indexedFan pre) (FansAfter pre) ?_ ?_ ?_ ?_ ?_ ?_ cfg fuel p xy e
    · rintro a b c s ⟨⟩; exact .new _ _ _ _
    · rintro a b c e w ⟨⟩
    · intro s a b c h; exact h.newFan a b c
    · intro s v h; exact h.extendFan v
    · rintro s e h ⟨⟩
    · intro s e h; exact h.fail
  · refine triangulate_restores (deindexedFan p pre) (FansAfter pre) ?_ ?_ ?_ ?_ ?_ ?_ cfg fuel p xy e
    · intro a b c s hs
      simp only at hs
      split at hs
      · cases hs; exact .new _ _ _ _
      · cases hs
    · intro a b c e w hs
      simp only at hs
      split at hs <;> cases hs
    · intro s a b c h
      simp only
      split
      · exact h.newFan _ _ _
      · exact h
    · intro s v h
      simp only
      split
      · exact h.extendFan _
      · exact h
    · rintro s e h ⟨⟩
    · intro s e h; exact h.fail
  · refine triangulate_restores (indexedList pre).intoFanFormat (fun b => TriplesAfter pre b.listBuilder)
      ?_ ?_ ?_ ?_ ?_ ?_ cfg fuel p xy e
    · rintro a b c s ⟨⟩; exact (TriplesAfter.new pre).add a b c
    · rintro a b c e w ⟨⟩
    · intro s a b c h; exact h.add a b c
    · intro s v h; exact h.add _ _ _
    · rintro s e h ⟨⟩
    · intro s e h; exact h.fail
  · refine triangulate_restores (deindexedList p pre).intoFanFormat
      (fun b => TriplesAfter pre b.listBuilder) ?_ ?_ ?_ ?_ ?_ ?_ cfg fuel p xy e
    · intro a b c s hs
      simp only at hs
      rcases hg : getVertex3 p a b c with _ | ⟨x, y, z⟩
      · simp only [hg] at hs; cases hs
      · simp only [hg] at hs; cases hs; exact (TriplesAfter.new pre).add x y z
    · intro a b c e w hs
      simp only at hs
      rcases hg : getVertex3 p a b c with _ | ⟨x, y, z⟩
      · simp only [hg] at hs; cases hs
      · simp only [hg] at hs; cases hs
    · intro s a b c h
      simp only
      split
      · exact h.add _ _ _
      · exact h
    · intro s v h
      simp only
      split
      · exact h.add _ _ _
      · exact h
    · rintro s e h ⟨⟩
    · intro s e h; exact h.fail
  · refine triangulate_restores (indexedList (FlatVec.mk pre)).intoFanFormat
      (fun b => FlatAfter pre b.listBuilder) ?_ ?_ ?_ ?_ ?_ ?_ cfg fuel p xy e
    · rintro a b c s ⟨⟩; exact (FlatAfter.new pre).add a b c
    · rintro a b c e w ⟨⟩
    · intro s a b c h; exact h.add a b c
    · intro s v h; exact h.add _ _ _
    · rintro s e h ⟨⟩
    · intro s e h; exact h.fail h3
  · refine triangulate_restores (deindexedList p (FlatVec.mk pre)).intoFanFormat
      (fun b => FlatAfter pre b.listBuilder) ?_ ?_ ?_ ?_ ?_ ?_ cfg fuel p xy e
    · intro a b c s hs
      simp only at hs
      rcases hg : getVertex3 p a b c with _ | ⟨x, y, z⟩
      · simp only [hg] at hs; cases hs
      · simp only [hg] at hs; cases hs; exact (FlatAfter.new pre).add x y z
    · intro a b c e w hs
      simp only at hs
      rcases hg : getVertex3 p a b c with _ | ⟨x, y, z⟩
      · simp only [hg] at hs; cases hs
      · simp only [hg] at hs; cases hs
    · intro s a b c h
      simp only
      split
      · exact h.add _ _ _
      · exact h
    · intro s v h
      simp only
      split
      · exact h.add _ _ _
      · exact h
    · rintro s e h ⟨⟩
    · intro s e h; exact h.fail h3
  · rcases triangulate_cases cfg fuel p xy .counterclockwise with ⟨e, h⟩ | ⟨cs, r, hcs, h⟩
    · simp [h]
    · obtain ⟨fans, hf⟩ := hcs.handsOver
      rw [h (recorder I .counterclockwise) rfl, play_recorder _ _ hcs] at hd
      rw [h (delimitedFan pre d) rfl]
      refine (play_delim pre d cs fans hf r).2.2.2 ?_ e
      intro a b c hh
      cases fans with
      | nil => simp at hh
      | cons f fans =>
        have hf' := hf.1 f (by simp)
        match f, hf' with
        | x :: y :: z :: ext, _ =>
          simp only [List.head?_cons, Option.map_some, List.take_succ_cons, List.take_zero,
            Option.some.injEq, List.cons.injEq, and_true] at hh
          obtain ⟨rfl, rfl, rfl⟩ := hh
          have := hd x y z (ext.map .extend ++ fans.flatMap fanCalls) (by
            rw [hf.2]; simp [fanCalls])
          simp [this]

section Examples

attribute [local instance] exact

abbrev plainCfg : Cfg := Cfg.plain (fun _ _ => 1) true

/-- A self-intersecting polygon: the traversal notices it after it has emitted a triangle. -/
def knot : List (Coords Int) := [ipt 4 0, ipt 0 1, ipt 2 2, ipt 1 1, ipt 3 0]

/-- A list format over a lent vector that does not accept vertex `1`; it restores the vector when it
is told that the run failed. -/
abbrev picky (pre : List (Nat × Nat × Nat)) : ListFormat Nat :=
  { indexedList pre with
    E := String
    start := .ok (GenericList.new pre)
    addTriangle := fun g a b c =>
      (g.newTriangle a b c, if a = 1 ∨ b = 1 ∨ c = 1 then .error (.err "no") else .ok ())
    build := fun g => (g.build, .ok g.build)
    fail := fun g _ => g.fail }

/-- The knot makes the run return an error after a triangle was handed over. -/
example : triangulate (Cfg.plain (fun _ _ => 1) false) 60 (PolyList.single knot) id
    (recorder Nat .counterclockwise) = ([.newFan 2 1 3], .error (.err (.internal .invalidI))) := by
  decide +kernel

/-- **C18** is false for `IndexedListFormat` over a flat vector whose length is not a multiple of
three: two elements that were there before the call are gone after a failed call. -/
theorem C18_flat_vec_not_restored :
    ∃ (p : PolyList Nat (Coords Int)) (e : TriErr Empty),
      let F := (indexedList (FlatVec.mk [7, 7, 7, 8, 8])).intoFanFormat
      let out := triangulate (Cfg.plain (fun _ _ => 1) false) 60 p id F
      out.2 = .error (.err e) ∧ out.1 = ⟨[7, 7, 7]⟩ :=
  ⟨PolyList.single knot, .internal .invalidI, by decide +kernel⟩

/-- **C18** is false for `DelimitedFanFormat`: if the first triangle contains the delimiter, what was
pushed before stays in the caller's vector. -/
theorem C18_delimited_not_restored :
    ∃ (p : PolyList Nat (Coords Int)) (e : TriErr DelimitedFanError),
      let out := triangulate plainCfg 60 p id (delimitedFan [9] 1)
      out.2 = .error (.err e) ∧ out.1 = [9, 1, 0] :=
  ⟨PolyList.single dart, .fanBuilder .indexMatchesDelimiter, by decide +kernel⟩

/-- **C18** is false for list formats that fail on the first triangle: although `fail` would restore
the vector, it is not called. -/
theorem C18_list_start_not_restored :
    (∀ (pre : List (Nat × Nat × Nat)) (g : GenericList (List (Nat × Nat × Nat))) e,
      (∃ l, g.list = pre ++ l) → g.initialVertCount = pre.length → (picky pre).fail g e = pre) ∧
    ∃ (p : PolyList Nat (Coords Int)) (e : TriErr String),
      let out := triangulate plainCfg 60 p id (picky [(7, 8, 9)]).intoFanFormat
      out.2 = .error (.err e) ∧ out.1 = [(7, 8, 9), (0, 1, 2)] := by
  refine ⟨?_, PolyList.single dart, .fanBuilder "no", by decide +kernel⟩
  rintro pre g e ⟨l, hl⟩ hc
  simp [GenericList.fail, TriList.truncate, hl, hc]

example : (triangulate plainCfg 60 (PolyList.single dart) id (indexedFan [[8, 8, 8]])).2 =
    .ok [[8, 8, 8], [0, 1, 2, 3]] := by
  decide +kernel

example : (triangulate plainCfg 60 (PolyList.single dart) id
    (indexedList (FlatVec.mk [8])).intoFanFormat).2 = .ok ⟨[8, 0, 1, 2, 0, 2, 3]⟩ := by
  decide +kernel

example : (triangulate plainCfg 60 (PolyList.single dart) id (delimitedFan [8, 8] 9)).2 =
    .ok [8, 8, 9, 0, 1, 2, 3] := by
  decide +kernel

/-- The logged run of a list format that accepts everything. -/
example : ((triangulate plainCfg 60 (PolyList.single dart) id
    (indexedList ([] : List (Nat × Nat × Nat))).logged.intoFanFormat).1.2.map (·.triangle)) =
      [(0, 1, 2), (0, 2, 3)] := by
  decide +kernel

/-- The failing runs of C18: here the content is restored. -/
example : triangulate (Cfg.plain (fun _ _ => 1) false) 60 (PolyList.single knot) id
    (indexedList (FlatVec.mk [7, 7, 7])).intoFanFormat =
      (⟨[7, 7, 7]⟩, .error (.err (.internal .invalidI))) := by
  decide +kernel

end Examples

end Tri
