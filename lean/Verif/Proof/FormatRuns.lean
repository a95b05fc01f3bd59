import Verif.Proof.Logged

/-!
# Runs of the crate's formats on call sequences
-/

namespace Tri

variable {I V C : Type}

/-- Every call sequence is some extensions followed by the calls of fans. -/
theorem calls_split (cs : List (Call I)) :
    ∃ (ext : List I) (fans : List (List I)), (∀ f ∈ fans, 3 ≤ f.length) ∧
      cs = ext.map .extend ++ fans.flatMap fanCalls := by
  induction cs with
  | nil => exact ⟨[], [], by simp, rfl⟩
  | cons c cs ih =>
    obtain ⟨ext, fans, h, e⟩ := ih
    cases c with
    | extend v => exact ⟨v :: ext, fans, h, by simp [e]⟩
    | newFan a b c =>
      refine ⟨[], (a :: b :: c :: ext) :: fans, ?_, by simp [e, fanCalls]⟩
      intro f hf
      rcases List.mem_cons.1 hf with rfl | hf
      · simp
      · exact h f hf

theorem StartsNew.handsOver {cs : List (Call I)} (hcs : StartsNew cs) :
    ∃ fans, HandsOver cs fans := by
  obtain ⟨ext, fans, h, e⟩ := calls_split cs
  cases ext with
  | nil => exact ⟨fans, h, by simpa using e⟩
  | cons v ext => exact absurd e (by simpa using hcs v _)

/-- The calls after the first one, for a non-empty sequence of fans. -/
theorem HandsOver.cons {a b c : I} {cs : List (Call I)} {fans : List (List I)}
    (h : HandsOver (.newFan a b c :: cs) fans) :
    ∃ ext fans', fans = (a :: b :: c :: ext) :: fans' ∧ (∀ f ∈ fans', 3 ≤ f.length) ∧
      cs = ext.map .extend ++ fans'.flatMap fanCalls := by
  obtain ⟨h1, h2⟩ := h
  cases fans with
  | nil => simp at h2
  | cons f fans =>
    have hf := h1 f (by simp)
    match f, hf with
    | a' :: b' :: c' :: ext, _ =>
      simp only [List.flatMap_cons, fanCalls, List.cons_append, List.cons.injEq, Call.newFan.injEq]
        at h2
      obtain ⟨⟨rfl, rfl, rfl⟩, h3⟩ := h2
      exact ⟨ext, fans, rfl, fun f hf => h1 f (by simp [hf]), h3⟩

theorem feedB_append (F : FanFormat I) (a b : List (Call I)) (s : F.B) :
    feedB F (a ++ b) s = match feedB F a s with
      | (s, .ok ()) => feedB F b s
      | (s, .error e) => (s, .error e) := by
  induction a generalizing s with
  | nil => rfl
  | cons c cs ih =>
    cases c with
    | newFan x y z =>
      simp only [List.cons_append, feedB]
      rcases F.newFan s x y z with ⟨s', e | u⟩
      · rfl
      · exact ih s'
    | extend v =>
      simp only [List.cons_append, feedB]
      rcases F.extendFan s v with ⟨s', e | u⟩
      · rfl
      · exact ih s'

/-! ## Fans in a vector -/

section
variable {D : Type}

/-- What a fan-collecting builder over a vector has collected. -/
def GenericFans.collected (g : GenericFans (List (List D)) (List D)) : List (List D) :=
  g.fans ++ [g.currentFan]

theorem feedB_indexed_ext (pre : List (List I)) (ext : List I)
    (g : GenericFans (List (List I)) (List I)) :
    feedB (indexedFan pre) (ext.map .extend) g = ({ g with currentFan := g.currentFan ++ ext }, .ok ()) := by
  induction ext generalizing g with
  | nil => simp [feedB]
  | cons v ext ih =>
    simp only [List.map_cons, feedB]
    rw [ih]
    simp [GenericFans.extendFan, Fan.push]

theorem feedB_indexed_fans (pre : List (List I)) (fans : List (List I))
    (hf : ∀ f ∈ fans, 3 ≤ f.length) (g : GenericFans (List (List I)) (List I)) :
    ∃ g', feedB (indexedFan pre) (fans.flatMap fanCalls) g = (g', .ok ()) ∧
      g'.collected = g.collected ++ fans ∧ g'.initialFanCount = g.initialFanCount := by
  induction fans generalizing g with
  | nil => exact ⟨g, rfl, by simp, rfl⟩
  | cons f fans ih =>
    have hf' := hf f (by simp)
    match f, hf' with
    | a :: b :: c :: ext, _ =>
      simp only [List.flatMap_cons, fanCalls, List.cons_append, feedB, feedB_append,
        feedB_indexed_ext]
      obtain ⟨g', h1, h2, h3⟩ := ih (fun f h => hf f (by simp [h]))
        { (g.newFan a b c) with currentFan := (g.newFan a b c).currentFan ++ ext }
      refine ⟨g', h1, ?_, ?_⟩
      · rw [h2]
        simp [GenericFans.collected, GenericFans.newFan, Fans.push, Fan.new]
      · rw [h3]; rfl

theorem take_collected {g : GenericFans (List (List D)) (List D)} {pre rest : List (List D)}
    (h : g.collected = pre ++ rest) (hr : rest ≠ []) : g.fans.take pre.length = pre := by
  have hl : g.fans = (pre ++ rest).dropLast := by
    rw [← h]; simp [GenericFans.collected]
  rw [hl, List.dropLast_append_of_ne_nil hr, List.take_left]

theorem play_indexed (pre : List (List I)) (cs : List (Call I)) (fans : List (List I))
    (hc : HandsOver cs fans) (r : Res IErr Unit) :
    play (indexedFan pre) cs r = match recOutcome cs r with
      | .ok _ => (pre ++ fans, .ok (pre ++ fans))
      | .error e => ((play (indexedFan pre) cs r).1, .error e) := by
  cases cs with
  | nil => rcases r with e | u <;> rfl
  | cons c cs =>
    cases c with
    | extend v =>
      rcases hc with ⟨h1, h2⟩
      cases fans with
      | nil => simp at h2
      | cons f fans =>
        have hf' := h1 f (by simp)
        match f, hf' with
        | a :: b :: c :: ext, _ => simp [fanCalls] at h2
    | newFan a b c =>
      obtain ⟨ext, fans', rfl, hf, rfl⟩ := hc.cons
      obtain ⟨g', h1, h2, h3⟩ := feedB_indexed_fans pre fans' hf
        { (GenericFans.new pre a b c : GenericFans (List (List I)) (List I)) with
          currentFan := [a, b, c] ++ ext }
      have h4 : g'.fans ++ [g'.currentFan] = pre ++ (a :: b :: c :: ext) :: fans' := by
        have := h2
        simp only [GenericFans.collected, GenericFans.new] at this
        simpa using this
      simp only [play, feedB_append, feedB_indexed_ext]
      have h1' : feedB (indexedFan pre) (fans'.flatMap fanCalls)
        { (GenericFans.new pre a b c : GenericFans (List (List I)) (List I)) with
          currentFan := (GenericFans.new pre a b c : GenericFans (List (List I)) (List I)).currentFan ++ ext }
           = (g', .ok ()) := h1
      rw [h1']
      rcases r with e | u
      · cases e <;> rfl
      · simp only [liftInner, finishB, recOutcome, GenericFans.build, Fans.push, h4]

theorem play_indexed_fail (pre : List (List I)) (cs : List (Call I)) (hcs : StartsNew cs)
    (r : Res IErr Unit) (e : TriErr Empty)
    (h : (play (indexedFan pre) cs r).2 = .error (.err e)) :
    (play (indexedFan pre) cs r).1 = pre := by
  cases cs with
  | nil => rcases r with e | u <;> rfl
  | cons c cs =>
    cases c with
    | extend v => exact absurd rfl (hcs v cs)
    | newFan a b c =>
      obtain ⟨fans, hc⟩ := hcs.handsOver
      obtain ⟨ext, fans', rfl, hf, rfl⟩ := hc.cons
      obtain ⟨g', h1, h2, h3⟩ := feedB_indexed_fans pre fans' hf
        { (GenericFans.new pre a b c : GenericFans (List (List I)) (List I)) with
          currentFan := (GenericFans.new pre a b c :
            GenericFans (List (List I)) (List I)).currentFan ++ ext }
      simp only [play, feedB_append, feedB_indexed_ext, h1] at h ⊢
      rcases r with e' | u
      · cases e' with
        | err e' =>
          simp only [liftInner, finishB, liftInternal, GenericFans.fail, Fans.truncate]
          rw [h3]
          refine take_collected (rest := [[a, b, c] ++ ext] ++ fans') ?_ (by simp)
          rw [h2]
          simp [GenericFans.collected, GenericFans.new, Fan.new]
        | panic => cases h
        | ub => cases h
        | timeout => cases h
      · cases h

end

/-! ## Lists of triangles -/

/-- Adds triangles one after the other, stopping at the first error. -/
def addAll (L : ListFormat I) : List (I × I × I) → L.B → L.B × Res L.E Unit
  | [], b => (b, .ok ())
  | (x, y, z) :: ts, b =>
    match L.addTriangle b x y z with
    | (b, .ok ()) => addAll L ts b
    | (b, .error e) => (b, .error e)

theorem addAll_append (L : ListFormat I) (ts ts' : List (I × I × I)) (b : L.B) :
    addAll L (ts ++ ts') b = match addAll L ts b with
      | (b, .ok ()) => addAll L ts' b
      | (b, .error e) => (b, .error e) := by
  induction ts generalizing b with
  | nil => rfl
  | cons t ts ih =>
    obtain ⟨x, y, z⟩ := t
    simp only [List.cons_append, addAll]
    rcases L.addTriangle b x y z with ⟨b', e | u⟩
    · rfl
    · exact ih b'

/-- The triangles added when a fan with root `v0` and last vertex `v1` is extended. -/
def extTriangles (v0 : I) (v1 : I) (ext : List I) : List (I × I × I) :=
  ((v1 :: ext).zip ext).map fun bc => (v0, bc.1, bc.2)

theorem fanTriangles_cons (a b c : I) (ext : List I) :
    fanTriangles (a :: b :: c :: ext) = (a, b, c) :: extTriangles a c ext := by
  simp [fanTriangles, extTriangles]

theorem feedB_list_ext (L : ListFormat I) (ext : List I) (s : FanToListBuilder I L.B) :
    ∃ s', feedB L.intoFanFormat (ext.map .extend) s =
        (s', (addAll L (extTriangles s.vi0 s.vi1 ext) s.listBuilder).2) ∧
      s'.listBuilder = (addAll L (extTriangles s.vi0 s.vi1 ext) s.listBuilder).1 := by
  induction ext generalizing s with
  | nil => exact ⟨s, rfl, rfl⟩
  | cons v ext ih =>
    simp only [List.map_cons, feedB, extTriangles, List.zip_cons_cons, addAll]
    rcases h : L.addTriangle s.listBuilder s.vi0 s.vi1 v with ⟨b', e | u⟩
    · exact ⟨_, rfl, rfl⟩
    · exact ih ⟨b', s.vi0, v⟩

theorem feedB_list_fans (L : ListFormat I) (fans : List (List I)) (hf : ∀ f ∈ fans, 3 ≤ f.length)
    (s : FanToListBuilder I L.B) :
    ∃ s', feedB L.intoFanFormat (fans.flatMap fanCalls) s =
        (s', (addAll L (fans.flatMap fanTriangles) s.listBuilder).2) ∧
      s'.listBuilder = (addAll L (fans.flatMap fanTriangles) s.listBuilder).1 := by
  induction fans generalizing s with
  | nil => exact ⟨s, rfl, rfl⟩
  | cons f fans ih =>
    have hf' := hf f (by simp)
    match f, hf' with
    | a :: b :: c :: ext, _ =>
      simp only [List.flatMap_cons, fanCalls, List.cons_append, feedB, feedB_append,
        fanTriangles_cons, addAll, addAll_append]
      rcases h : L.addTriangle s.listBuilder a b c with ⟨b', e | u⟩
      · exact ⟨_, rfl, rfl⟩
      · obtain ⟨s1, h1, h2⟩ := feedB_list_ext L ext ⟨b', a, c⟩
        simp only [h1]
        rcases h3 : addAll L (extTriangles a c ext) b' with ⟨b2, e | u⟩
        · simp only [h3] at h1 h2 ⊢
          exact ⟨s1, rfl, h2⟩
        · simp only [h3] at h1 h2 ⊢
          obtain ⟨s2, h4, h5⟩ := ih (fun f h => hf f (by simp [h])) s1
          rw [h2] at h4 h5
          exact ⟨s2, h4, h5⟩

/-- A run with the triangles `ts` against a list format. -/
def playList (L : ListFormat I) (ts : List (I × I × I)) (r : Res IErr Unit) :
    L.W × Res (TriErr L.E) L.O :=
  match ts with
  | [] =>
    match r with
    | .ok () => (L.unused, .error (.err .noVertices))
    | .error e => (L.unused, .error (liftInternal e))
  | (x, y, z) :: ts =>
    match L.start with
    | .error (e, w) => (w, .error (liftBuilderErr e))
    | .ok b =>
      match L.addTriangle b x y z with
      | (b, .error e) => (L.drop b, .error (liftBuilderErr e))
      | (b, .ok ()) =>
        match addAll L ts b with
        | (b, .ok ()) => finishB L.intoFanFormat ⟨b, x, y⟩ (liftInner r)
        | (b, .error e) => finishB L.intoFanFormat ⟨b, x, y⟩ (.error (liftBuilderErr e))

theorem finishB_list (L : ListFormat I) (s s' : FanToListBuilder I L.B)
    (h : s.listBuilder = s'.listBuilder) (r : Res (TriErr L.E) Unit) :
    finishB L.intoFanFormat s r = finishB L.intoFanFormat s' r := by
  rcases r with e | u
  · cases e <;> simp [finishB, h]
  · simp [finishB, h]

theorem play_list (L : ListFormat I) (cs : List (Call I)) (fans : List (List I))
    (hc : HandsOver cs fans) (r : Res IErr Unit) :
    play L.intoFanFormat cs r = playList L (fans.flatMap fanTriangles) r := by
  cases cs with
  | nil =>
    have : fans = [] := by
      rcases hc with ⟨h1, h2⟩
      cases fans with
      | nil => rfl
      | cons f fans =>
        have hf' := h1 f (by simp)
        match f, hf' with
        | a :: b :: c :: ext, _ => simp [fanCalls] at h2
    subst this
    rcases r with e | u <;> rfl
  | cons c cs =>
    cases c with
    | extend v =>
      rcases hc with ⟨h1, h2⟩
      cases fans with
      | nil => simp at h2
      | cons f fans =>
        have hf' := h1 f (by simp)
        match f, hf' with
        | a :: b :: c :: ext, _ => simp [fanCalls] at h2
    | newFan a b c =>
      obtain ⟨ext, fans', rfl, hf, rfl⟩ := hc.cons
      simp only [play, feedB_append, List.flatMap_cons, fanTriangles_cons, List.cons_append, playList]
      rcases hs : L.start with ⟨e, w⟩ | b0
      · rfl
      · simp only
        rcases h : L.addTriangle b0 a b c with ⟨b', e | u⟩
        · rfl
        · simp only [addAll_append]
          obtain ⟨s1, h1, h2⟩ := feedB_list_ext L ext ⟨b', a, c⟩
          simp only [h1]
          rcases h3 : addAll L (extTriangles a c ext) b' with ⟨b2, e | u⟩
          · simp only [h3] at h2 ⊢
            exact finishB_list L _ _ h2 _
          · simp only [h3] at h2 ⊢
            obtain ⟨s2, h4, h5⟩ := feedB_list_fans L fans' hf s1
            rw [h2] at h4 h5
            simp only [h4]
            rcases h6 : addAll L (fans'.flatMap fanTriangles) b2 with ⟨b3, e | u⟩
            · simp only [h6] at h5 ⊢
              exact finishB_list L _ _ h5 _
            · simp only [h6] at h5 ⊢
              exact finishB_list L _ _ h5 _

end Tri
