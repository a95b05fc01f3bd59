import Verif.Proof.FormatRuns

/-!
# Runs of list, deindexed and delimited formats
-/

set_option linter.unusedSectionVars false

namespace Tri

variable {I V C : Type}

/-! ## Lists over vectors -/

theorem addAll_triples (pre ts : List (I × I × I)) (g : GenericList (List (I × I × I))) :
    addAll (indexedList pre) ts g = ({ g with list := g.list ++ ts }, .ok ()) := by
  induction ts generalizing g with
  | nil => simp [addAll]
  | cons t ts ih =>
    obtain ⟨x, y, z⟩ := t
    simp only [addAll]
    rw [ih]
    simp [GenericList.newTriangle, TriList.push]

/-- The entries of a list of triangles, flattened. -/
def flatten3 (ts : List (I × I × I)) : List I := ts.flatMap fun t => [t.1, t.2.1, t.2.2]

theorem addAll_flat (pre : FlatVec I) (ts : List (I × I × I)) (g : GenericList (FlatVec I)) :
    addAll (indexedList pre) ts g = ({ g with list := ⟨g.list.data ++ flatten3 ts⟩ }, .ok ()) := by
  induction ts generalizing g with
  | nil => simp [addAll, flatten3]
  | cons t ts ih =>
    obtain ⟨x, y, z⟩ := t
    simp only [addAll]
    rw [ih]
    simp [GenericList.newTriangle, TriList.push, flatten3]

theorem playList_triples (pre ts : List (I × I × I)) (r : Res IErr Unit) :
    playList (indexedList pre) ts r = match ts, r with
      | [], .ok () => (pre, .error (.err .noVertices))
      | _ :: _, .ok () => (pre ++ ts, .ok (pre ++ ts))
      | [], .error e => (pre, .error (liftInternal e))
      | _ :: _, .error (.err e) => (pre, .error (.err (.internal e)))
      | _ :: _, .error .panic => (pre ++ ts, .error .panic)
      | _ :: _, .error .ub => (pre ++ ts, .error .ub)
      | _ :: _, .error .timeout => (pre ++ ts, .error .timeout) := by
  cases ts with
  | nil => rcases r with e | u <;> rfl
  | cons t ts =>
    obtain ⟨x, y, z⟩ := t
    simp only [playList, addAll_triples, GenericList.newTriangle, GenericList.new]
    rcases r with e | u
    · cases e <;> simp [liftInner, liftInternal, finishB, GenericList.fail, TriList.push,
        TriList.len, TriList.truncate]
    · simp [liftInner, finishB, GenericList.build, TriList.push]

theorem playList_flat (pre : FlatVec I) (ts : List (I × I × I)) (r : Res IErr Unit) :
    playList (indexedList pre) ts r = match ts, r with
      | [], .ok () => (pre, .error (.err .noVertices))
      | _ :: _, .ok () => (⟨pre.data ++ flatten3 ts⟩, .ok ⟨pre.data ++ flatten3 ts⟩)
      | [], .error e => (pre, .error (liftInternal e))
      | _ :: _, .error (.err e) =>
        (⟨pre.data.take (pre.data.length / 3 * 3)⟩, .error (.err (.internal e)))
      | _ :: _, .error .panic => (⟨pre.data ++ flatten3 ts⟩, .error .panic)
      | _ :: _, .error .ub => (⟨pre.data ++ flatten3 ts⟩, .error .ub)
      | _ :: _, .error .timeout => (⟨pre.data ++ flatten3 ts⟩, .error .timeout) := by
  cases ts with
  | nil => rcases r with e | u <;> rfl
  | cons t ts =>
    obtain ⟨x, y, z⟩ := t
    simp only [playList, addAll_flat, GenericList.newTriangle, GenericList.new]
    have hl : pre.data.length / 3 * 3 ≤ pre.data.length := Nat.div_mul_le_self _ _
    rcases r with e | u
    · cases e <;> simp [liftInner, liftInternal, finishB, GenericList.fail, TriList.push,
        TriList.len, TriList.truncate, flatten3, List.take_append_of_le_length hl]
    · simp [liftInner, finishB, GenericList.build, TriList.push, flatten3]

/-! ## Logged lists -/

/-- The log entries of adding triangles. -/
def addLog (L : ListFormat I) : List (I × I × I) → L.B → List (Added I L.E)
  | [], _ => []
  | (x, y, z) :: ts, b =>
    match L.addTriangle b x y z with
    | (b, .ok ()) => ⟨(x, y, z), none⟩ :: addLog L ts b
    | (_, .error e) => [⟨(x, y, z), some e⟩]

theorem addAll_logged (L : ListFormat I) (ts : List (I × I × I)) (b : L.B) (l : List (Added I L.E)) :
    addAll L.logged ts (b, l) = (((addAll L ts b).1, l ++ addLog L ts b), (addAll L ts b).2) := by
  induction ts generalizing b l with
  | nil => simp [addAll, addLog]
  | cons t ts ih =>
    obtain ⟨x, y, z⟩ := t
    simp only [addAll, addLog]
    rcases L.addTriangle b x y z with ⟨b', e | u⟩
    · rfl
    · simp only
      rw [ih]
      simp [faultOf]

theorem addLog_spec (L : ListFormat I) (ts : List (I × I × I)) (b : L.B) :
    ((addAll L ts b).2 = .ok () ∧ addLog L ts b = ts.map (⟨·, none⟩)) ∨
    ∃ e ts1 t ts2, ts = ts1 ++ t :: ts2 ∧ (addAll L ts b).2 = .error e ∧
      addLog L ts b = ts1.map (⟨·, none⟩) ++ [⟨t, some e⟩] := by
  induction ts generalizing b with
  | nil => exact .inl ⟨rfl, rfl⟩
  | cons t ts ih =>
    obtain ⟨x, y, z⟩ := t
    simp only [addAll, addLog]
    rcases L.addTriangle b x y z with ⟨b', e | u⟩
    · exact .inr ⟨e, [], _, ts, rfl, rfl, rfl⟩
    · rcases ih b' with ⟨h1, h2⟩ | ⟨e, ts1, t, ts2, h1, h2, h3⟩
      · exact .inl ⟨h1, by simp [h2]⟩
      · exact .inr ⟨e, (x, y, z) :: ts1, t, ts2, by simp [h1], h2, by simp [h3]⟩

/-- The log of a run against a list format. -/
def listLog (L : ListFormat I) (ts : List (I × I × I)) : List (Added I L.E) :=
  match L.start with
  | .error _ => []
  | .ok b => addLog L ts b

theorem playList_logged (L : ListFormat I) (ts : List (I × I × I)) (r : Res IErr Unit) :
    playList L.logged ts r = (((playList L ts r).1, listLog L ts), (playList L ts r).2) := by
  cases ts with
  | nil =>
    have : listLog L [] = [] := by
      unfold listLog; cases L.start <;> rfl
    rw [this]
    rcases r with e | u <;> rfl
  | cons t ts =>
    obtain ⟨x, y, z⟩ := t
    simp only [playList, listLog]
    rcases hs : L.start with ⟨e, w⟩ | b0
    · rfl
    · simp only [addLog]
      rcases h : L.addTriangle b0 x y z with ⟨b', e | u⟩
      · rfl
      · simp only [addAll_logged]
        rcases h1 : addAll L ts b' with ⟨b2, e | u⟩
        · cases e <;> simp [finishB, liftBuilderErr, faultOf]
        · rcases r with e | u
          · cases e <;> simp [finishB, liftInternal, liftInner, faultOf]
          · simp [finishB, liftInner, faultOf]
            rcases L.build b2 with ⟨w, e | o⟩ <;> rfl

/-- Outcomes of `playList`. -/
theorem playList_spec (L : ListFormat I) (ts : List (I × I × I)) (r : Res IErr Unit) (hne : ts ≠ []) :
    (∃ e w, L.start = .error (e, w) ∧ listLog L ts = [] ∧
      (playList L ts r).2 = .error (liftBuilderErr e)) ∨
    (∃ b, L.start = .ok b ∧ listLog L ts = ts.map (⟨·, none⟩) ∧
      ∀ e, r = .error e → (playList L ts r).2 = .error (liftInternal e)) ∨
    (∃ b, L.start = .ok b ∧ ∃ e ts1 t ts2, ts = ts1 ++ t :: ts2 ∧
      listLog L ts = ts1.map (⟨·, none⟩) ++ [⟨t, some e⟩] ∧
      (playList L ts r).2 = .error (liftBuilderErr e)) := by
  cases ts with
  | nil => exact absurd rfl hne
  | cons t ts =>
    obtain ⟨x, y, z⟩ := t
    simp only [playList, listLog]
    rcases hs : L.start with ⟨e, w⟩ | b0
    · exact .inl ⟨e, w, rfl, rfl, rfl⟩
    · refine .inr ?_
      simp only [addLog]
      rcases h : L.addTriangle b0 x y z with ⟨b', e | u⟩
      · exact .inr ⟨b0, rfl, e, [], _, ts, rfl, rfl, rfl⟩
      · simp only
        rcases addLog_spec L ts b' with ⟨h1, h2⟩ | ⟨e, ts1, t, ts2, h1, h2, h3⟩
        · refine .inl ⟨b0, rfl, by simp [h2], fun e he => ?_⟩
          rcases h3 : addAll L ts b' with ⟨b2, e' | u⟩
          · rw [h3] at h1; cases h1
          · subst he
            cases e <;> rfl
        · refine .inr ⟨b0, rfl, e, (x, y, z) :: ts1, t, ts2, by simp [h1], by simp [h3], ?_⟩
          rcases h4 : addAll L ts b' with ⟨b2, e' | u⟩
          · rw [h4] at h2; cases h2
            cases e <;> rfl
          · rw [h4] at h2; cases h2

/-! ## Deindexed formats -/

/-- Renames the indices in a call. -/
def Call.map {J : Type} (g : I → J) : Call I → Call J
  | .newFan a b c => .newFan (g a) (g b) (g c)
  | .extend v => .extend (g v)

theorem getVertex3_some {p : PolyList I V} {g : I → V} {a b c : I}
    (ha : p.getVertex a = some (g a)) (hb : p.getVertex b = some (g b))
    (hc : p.getVertex c = some (g c)) : getVertex3 p a b c = some (g a, g b, g c) := by
  simp [getVertex3, ha, hb, hc]

theorem feedB_deindexed {FS F : Type} [Fans FS F] [Fan F V] (p : PolyList I V) (g : I → V) (pre : FS) (cs : List (Call I))
    (h : ∀ c ∈ cs, ∀ i ∈ c.indices, p.getVertex i = some (g i))
    (s : GenericFans FS F) :
    feedB (deindexedFan p pre) cs s = feedB (indexedFan pre) (cs.map (Call.map g)) s := by
  induction cs generalizing s with
  | nil => rfl
  | cons c cs ih =>
    have ih' := ih fun c hc => h c (by simp [hc])
    have h0 := h c (by simp)
    cases c with
    | newFan a b c =>
      simp only [List.map_cons, Call.map, feedB]
      rw [getVertex3_some (h0 a (by simp [Call.indices])) (h0 b (by simp [Call.indices]))
        (h0 c (by simp [Call.indices]))]
      exact ih' _
    | extend v =>
      simp only [List.map_cons, Call.map, feedB]
      rw [h0 v (by simp [Call.indices])]
      exact ih' _

theorem play_deindexed {FS F : Type} [Fans FS F] [Fan F V] (p : PolyList I V) (g : I → V) (pre : FS) (cs : List (Call I))
    (h : ∀ c ∈ cs, ∀ i ∈ c.indices, p.getVertex i = some (g i)) (r : Res IErr Unit) :
    play (deindexedFan p pre) cs r = play (indexedFan pre) (cs.map (Call.map g)) r := by
  rcases cs with _ | ⟨c, cs⟩
  · rcases r with e | u <;> rfl
  · have h0 := h c (by simp)
    cases c with
    | extend v => rcases r with e | u <;> rfl
    | newFan a b c =>
      simp only [List.map_cons, Call.map, play]
      rw [getVertex3_some (h0 a (by simp [Call.indices])) (h0 b (by simp [Call.indices]))
        (h0 c (by simp [Call.indices]))]
      simp only [feedB_deindexed p g pre cs (fun c hc => h c (by simp [hc]))]
      rcases feedB (indexedFan pre) (cs.map (Call.map g)) (GenericFans.new pre (g a) (g b) (g c))
        with ⟨b', e | u⟩
      · cases e <;> rfl
      · rcases r with e | u
        · cases e <;> rfl
        · rfl

theorem HandsOver.map {J : Type} (g : I → J) {cs : List (Call I)} {fans : List (List I)}
    (h : HandsOver cs fans) : HandsOver (cs.map (Call.map g)) (fans.map (List.map g)) := by
  obtain ⟨h1, rfl⟩ := h
  refine ⟨?_, ?_⟩
  · intro f hf
    obtain ⟨f', hf', rfl⟩ := List.mem_map.1 hf
    simpa using h1 f' hf'
  · rw [List.map_flatMap, List.flatMap_map]
    have key : ∀ f ∈ fans, (fanCalls f).map (Call.map g) = fanCalls (f.map g) := by
      intro f hf
      have hf' := h1 f hf
      match f, hf' with
      | a :: b :: c :: ext, _ => simp [fanCalls, Call.map]
    clear h1
    induction fans with
    | nil => rfl
    | cons f fans ih =>
      simp only [List.flatMap_cons]
      rw [key f (by simp), ih fun f hf => key f (by simp [hf])]

theorem StartsNew.map {J : Type} (g : I → J) {cs : List (Call I)} (h : StartsNew cs) :
    StartsNew (cs.map (Call.map g)) := by
  cases cs with
  | nil => exact StartsNew.nil
  | cons c cs =>
    cases c with
    | extend v => exact absurd rfl (h v cs)
    | newFan a b c => intro v l h; cases h

theorem addAll_deindexed {L : Type} [TriList L V] (p : PolyList I V) (g : I → V) (pre : L)
    (ts : List (I × I × I))
    (h : ∀ t ∈ ts, p.getVertex t.1 = some (g t.1) ∧ p.getVertex t.2.1 = some (g t.2.1) ∧
      p.getVertex t.2.2 = some (g t.2.2)) (b : GenericList L) :
    addAll (deindexedList p pre) ts b =
      addAll (indexedList pre) (ts.map fun t => (g t.1, g t.2.1, g t.2.2)) b := by
  induction ts generalizing b with
  | nil => rfl
  | cons t ts ih =>
    have h0 := h t (by simp)
    obtain ⟨x, y, z⟩ := t
    simp only [List.map_cons, addAll]
    rw [getVertex3_some h0.1 h0.2.1 h0.2.2]
    exact ih (fun t ht => h t (by simp [ht])) _

theorem playList_deindexed {L : Type} [TriList L V] (p : PolyList I V) (g : I → V) (pre : L)
    (ts : List (I × I × I))
    (h : ∀ t ∈ ts, p.getVertex t.1 = some (g t.1) ∧ p.getVertex t.2.1 = some (g t.2.1) ∧
      p.getVertex t.2.2 = some (g t.2.2)) (r : Res IErr Unit) :
    playList (deindexedList p pre) ts r =
      playList (indexedList pre) (ts.map fun t => (g t.1, g t.2.1, g t.2.2)) r := by
  cases ts with
  | nil => rcases r with e | u <;> rfl
  | cons t ts =>
    have h0 := h t (by simp)
    obtain ⟨x, y, z⟩ := t
    simp only [List.map_cons, playList]
    rw [getVertex3_some h0.1 h0.2.1 h0.2.2]
    simp only [addAll_deindexed p g pre ts (fun t ht => h t (by simp [ht]))]
    generalize addAll (indexedList pre) (ts.map fun t => (g t.1, g t.2.1, g t.2.2))
      ((GenericList.new pre).newTriangle (g x) (g y) (g z)) = w
    obtain ⟨b', e | u⟩ := w
    · cases e <;> rfl
    · rcases r with e | u
      · cases e <;> rfl
      · rfl

/-! ## Delimited fans -/

section Delimited
variable [DecidableEq I]

theorem pushIndex_vec (b : DelimitedBuilder I (List I)) (v : I) :
    b.pushIndex v = if b.delimiter = v then (b, .error (.err .indexMatchesDelimiter))
      else ({ b with fans := b.fans ++ [v] }, .ok ()) := rfl

/-- The vertices of the fans, each fan preceded by the delimiter. -/
def delimitEach (d : I) (fans : List (List I)) : List I := fans.flatMap (d :: ·)

theorem feedB_delim_ext (pre : List I) (d : I) (ext : List I) (b : DelimitedBuilder I (List I)) :
    (b.delimiter ∉ ext → feedB (delimitedFan pre d) (ext.map .extend) b =
      ({ b with fans := b.fans ++ ext }, .ok ())) ∧
    (b.delimiter ∈ ext → ∃ ext', feedB (delimitedFan pre d) (ext.map .extend) b =
      ({ b with fans := b.fans ++ ext' }, .error (.err .indexMatchesDelimiter))) := by
  induction ext generalizing b with
  | nil => simp [feedB]
  | cons v ext ih =>
    simp only [List.map_cons, feedB, pushIndex_vec]
    by_cases hv : b.delimiter = v
    · simp only [hv, if_true]
      exact ⟨by simp, fun _ => ⟨[], by simp [← hv]⟩⟩
    · simp only [hv, if_false]
      have := ih { b with fans := b.fans ++ [v] }
      simp only [List.mem_cons, hv, false_or]
      refine ⟨fun h => ?_, fun h => ?_⟩
      · rw [this.1 h]; simp
      · obtain ⟨ext', h'⟩ := this.2 h
        exact ⟨v :: ext', by rw [h']; simp⟩

theorem push3_vec (b : DelimitedBuilder I (List I)) (x y z : I) :
    (b.delimiter ∉ [x, y, z] → b.push3 x y z = ({ b with fans := b.fans ++ [x, y, z] }, .ok ())) ∧
    (b.delimiter ∈ [x, y, z] → ∃ l, b.push3 x y z =
      ({ b with fans := b.fans ++ l }, .error (.err .indexMatchesDelimiter))) := by
  obtain ⟨fs, d, n⟩ := b
  simp only [DelimitedBuilder.push3, pushIndex_vec]
  by_cases hx : d = x
  · rw [if_pos hx]
    exact ⟨by simp [hx], fun _ => ⟨[], by simp⟩⟩
  · rw [if_neg hx]
    by_cases hy : d = y
    · simp only [if_pos hy]
      exact ⟨by simp [hy], fun _ => ⟨[x], by simp⟩⟩
    · by_cases hz : d = z
      · simp only [if_neg hy, if_pos hz]
        exact ⟨by simp [hz], fun _ => ⟨[x, y], by simp⟩⟩
      · simp [hx, hy, hz]

theorem feedB_delim_fans (pre : List I) (d : I) (fans : List (List I))
    (hf : ∀ f ∈ fans, 3 ≤ f.length) (b : DelimitedBuilder I (List I)) :
    ((∀ f ∈ fans, b.delimiter ∉ f) → feedB (delimitedFan pre d) (fans.flatMap fanCalls) b =
      ({ b with fans := b.fans ++ delimitEach b.delimiter fans }, .ok ())) ∧
    ((∃ f ∈ fans, b.delimiter ∈ f) → ∃ l, feedB (delimitedFan pre d) (fans.flatMap fanCalls) b =
      ({ b with fans := b.fans ++ l }, .error (.err .indexMatchesDelimiter))) := by
  induction fans generalizing b with
  | nil => simp [feedB, delimitEach]
  | cons f fans ih =>
    have hf' := hf f (by simp)
    match f, hf' with
    | x :: y :: z :: ext, _ =>
      simp only [List.flatMap_cons, fanCalls, List.cons_append, feedB, feedB_append]
      have hp := push3_vec { b with fans := b.fans ++ [b.delimiter] } x y z
      have hsplit : (b.delimiter ∈ x :: y :: z :: ext) ↔
          (b.delimiter ∈ [x, y, z] ∨ b.delimiter ∈ ext) := by simp [or_assoc]
      by_cases h1 : b.delimiter ∈ [x, y, z]
      · obtain ⟨l, hl⟩ := hp.2 h1
        have hl' : ({ b with fans := Fans.push b.fans b.delimiter } :
            DelimitedBuilder I (List I)).push3 x y z = _ := hl
        rw [hl']
        refine ⟨fun h => absurd (hsplit.2 (.inl h1)) (h _ (by simp)), fun _ =>
          ⟨b.delimiter :: l, by simp⟩⟩
      · have hl' : ({ b with fans := Fans.push b.fans b.delimiter } :
            DelimitedBuilder I (List I)).push3 x y z = _ := hp.1 h1
        rw [hl']
        simp only
        have he := feedB_delim_ext pre d ext
          { b with fans := b.fans ++ [b.delimiter] ++ [x, y, z] }
        by_cases h2 : b.delimiter ∈ ext
        · obtain ⟨l, hl⟩ := he.2 h2
          rw [hl]
          refine ⟨fun h => absurd (hsplit.2 (.inr h2)) (h _ (by simp)), fun _ =>
            ⟨b.delimiter :: x :: y :: z :: l, by simp⟩⟩
        · rw [he.1 h2]
          simp only
          have hi := ih (fun f h => hf f (by simp [h]))
            { b with fans := b.fans ++ [b.delimiter] ++ [x, y, z] ++ ext }
          refine ⟨fun h => ?_, fun h => ?_⟩
          · rw [hi.1 fun f hf => h f (by simp [hf])]
            simp [delimitEach]
          · obtain ⟨f, hfm, hfd⟩ := h
            rcases List.mem_cons.1 hfm with rfl | hfm
            · rcases hsplit.1 hfd with h | h
              · exact absurd h h1
              · exact absurd h h2
            · obtain ⟨l, hl⟩ := hi.2 ⟨f, hfm, hfd⟩
              exact ⟨b.delimiter :: x :: y :: z :: ext ++ l, by rw [hl]; simp⟩

theorem delimitEach_eq_intercalate (d : I) (f : List I) (fans : List (List I)) :
    f ++ delimitEach d fans = [d].intercalate (f :: fans) := by
  induction fans generalizing f with
  | nil => simp [delimitEach, List.intercalate]
  | cons g fans ih =>
    have h1 := ih g
    simp only [delimitEach, List.flatMap_cons, List.cons_append] at *
    rw [h1]
    simp [List.intercalate, List.intersperse]

/-- What a successful delimited run appends to the previous content. -/
def delimSep (pre : List I) (d : I) : List I := if pre = [] then [] else [d]

theorem play_delim (pre : List I) (d : I) (cs : List (Call I)) (fans : List (List I))
    (hc : HandsOver cs fans) (r : Res IErr Unit) :
    ((∀ f ∈ fans, d ∉ f) → ∀ cs', recOutcome cs r = .ok cs' →
      play (delimitedFan pre d) cs r =
        (pre ++ delimSep pre d ++ [d].intercalate fans,
          .ok (pre ++ delimSep pre d ++ [d].intercalate fans))) ∧
    ((∀ f ∈ fans, d ∉ f) → ∀ e, recOutcome cs r = .error e →
      (play (delimitedFan pre d) cs r).2 = .error (castFault e)) ∧
    ((∃ f ∈ fans, d ∈ f) →
      (play (delimitedFan pre d) cs r).2 = .error (.err (.fanBuilder .indexMatchesDelimiter))) ∧
    ((∀ a b c, fans.head?.map (List.take 3) = some [a, b, c] → d ∉ [a, b, c]) →
      ∀ e, (play (delimitedFan pre d) cs r).2 = .error (.err e) →
        (play (delimitedFan pre d) cs r).1 = pre) := by
  cases cs with
  | nil =>
    have : fans = [] := by
      rcases hc with ⟨h1, h2⟩
      cases fans with
      | nil => rfl
      | cons f fans =>
        have hf' := h1 f (by simp)
        match f, hf' with
        | a :: b :: c :: ext, _ => simp [fanCalls] at h2
    subst this
    rcases r with e | u
    · refine ⟨fun _ cs' h => (by cases h), fun _ e' h => ?_, by simp, fun _ _ _ => rfl⟩
      cases e <;> cases h <;> rfl
    · refine ⟨fun _ cs' h => (by cases h), fun _ e' h => ?_, by simp, fun _ _ _ => rfl⟩
      cases h; rfl
  | cons c cs =>
    cases c with
    | extend v =>
      rcases hc with ⟨h1, h2⟩
      cases fans with
      | nil => simp at h2
      | cons f fans =>
        have hf' := h1 f (by simp)
        match f, hf' with
        | a :: b :: c :: ext, _ => simp [fanCalls] at h2
    | newFan x y z =>
      obtain ⟨ext, fans', rfl, hf, rfl⟩ := hc.cons
      simp only [play]
      have hfans : (if Fans.len pre > 0 then Fans.push pre d else pre) = pre ++ delimSep pre d := by
        simp only [Fans.len, Fans.push, delimSep]
        cases pre <;> simp
      rw [hfans]
      have hp := push3_vec ⟨pre ++ delimSep pre d, d, pre.length⟩ x y z
      have hsplit : (d ∈ x :: y :: z :: ext) ↔ (d ∈ [x, y, z] ∨ d ∈ ext) := by simp [or_assoc]
      have hlen : Fans.len pre = pre.length := rfl
      rw [hlen]
      by_cases h1 : d ∈ [x, y, z]
      · obtain ⟨l, hl⟩ := hp.2 h1
        rw [hl]
        refine ⟨fun h => absurd (hsplit.2 (.inl h1)) (h _ (by simp)),
          fun h => absurd (hsplit.2 (.inl h1)) (h _ (by simp)), fun _ => rfl, fun h => ?_⟩
        exact absurd h1 (h x y z (by simp))
      · rw [hp.1 h1]
        simp only [feedB_append]
        have he := feedB_delim_ext pre d ext ⟨pre ++ delimSep pre d ++ [x, y, z], d, pre.length⟩
        by_cases h2 : d ∈ ext
        · obtain ⟨l, hl⟩ := he.2 h2
          rw [hl]
          refine ⟨fun h => absurd (hsplit.2 (.inr h2)) (h _ (by simp)),
            fun h => absurd (hsplit.2 (.inr h2)) (h _ (by simp)), fun _ => rfl, fun h => ?_⟩
          intro e _
          simp [finishB, liftBuilderErr, Fans.truncate]
        · rw [he.1 h2]
          simp only
          have hi := feedB_delim_fans pre d fans' hf
            ⟨pre ++ delimSep pre d ++ [x, y, z] ++ ext, d, pre.length⟩
          by_cases h3 : ∃ f ∈ fans', d ∈ f
          · obtain ⟨l, hl⟩ := hi.2 h3
            rw [hl]
            obtain ⟨f, hfm, hfd⟩ := h3
            refine ⟨fun h => absurd hfd (h _ (by simp [hfm])),
              fun h => absurd hfd (h _ (by simp [hfm])), fun _ => rfl, fun h => ?_⟩
            intro e _
            simp [finishB, liftBuilderErr, Fans.truncate]
          · have h3' : ∀ f ∈ fans', d ∉ f := by
              intro f hf hd; exact h3 ⟨f, hf, hd⟩
            rw [hi.1 h3']
            have hcat : pre ++ delimSep pre d ++ [x, y, z] ++ ext ++ delimitEach d fans' =
                pre ++ delimSep pre d ++ [d].intercalate ((x :: y :: z :: ext) :: fans') := by
              rw [← delimitEach_eq_intercalate]; simp
            simp only
            rw [hcat]
            refine ⟨fun _ cs' h => ?_, fun _ e h => ?_, fun h => ?_, fun _ e h => ?_⟩
            · rcases r with e | u
              · cases h
              · rfl
            · rcases r with e | u
              · cases e <;> cases h <;> rfl
              · cases h
            · obtain ⟨f, hfm, hfd⟩ := h
              rcases List.mem_cons.1 hfm with rfl | hfm
              · rcases hsplit.1 hfd with h | h
                · exact absurd h h1
                · exact absurd h h2
              · exact absurd hfd (h3' f hfm)
            · rcases r with e | u
              · cases e with
                | err e => simp [finishB, liftInner, liftInternal, Fans.truncate]
                | panic => cases h
                | ub => cases h
                | timeout => cases h
              · cases h

end Delimited

end Tri
