import Verif.Proof.RunVertex

/-!
# Changes of the query structure
-/

set_option linter.unusedSectionVars false

namespace Tri

variable {I V K : Type} [Field K] [LinearOrder K] [IsStrictOrderedRing K]

attribute [local instance] exact

variable {P : Plane K} {A A' : Abs K} {qs qs' : List (QueryNode K)} {ts ts' : List Trapezoid}

/-- The query structure after a trapezoid has been divided into a new part and a part of the trapezoid
above it. -/
theorem qry_ext {ti tj l r : Nat} {tt tot : Trapezoid} {c1 c2 : Coords K} (hQ : Qry qs ts A)
    (hti : ts[ti]? = some tt) (hto : ts[tj]? = some tot) (hne : ti ≠ tj)
    (hlr : (l = qs.length ∧ r = tot.sink) ∨ (l = tot.sink ∧ r = qs.length))
    (h1 : ∀ (i : Nat) (t : Trapezoid), ts'[i]? = some t → (i = ti ∧ t.sink = qs.length) ∨
      (i ≠ ti ∧ ∃ t0, ts[i]? = some t0 ∧ t0.sink = t.sink))
    (h2 : ∃ t, ts'[ti]? = some t ∧ t.sink = qs.length)
    (h3 : ∀ (i : Nat) (t0 : Trapezoid), i ≠ ti → ts[i]? = some t0 → ∃ t, ts'[i]? = some t ∧ t.sink = t0.sink)
    (hup : ∀ i, (A'.T i).up = (A.T i).up) (hupi : (A.T ti).up ≠ none) :
    Qry (qs.set tt.sink (.branch l r (.X c1 c2)) ++ [.sink ti]) ts' A' := by
  have hq := hQ.snk ti tt hti
  have hlq := lt_of_get hq
  have hqs1 : (qs.set tt.sink (.branch l r (.X c1 c2)) ++ [QueryNode.sink ti])[tt.sink]? =
      some (.branch l r (.X c1 c2)) := by
    rw [List.getElem?_append_left (by simpa using hlq), List.getElem?_set_self hlq]
  have hqs2 : (qs.set tt.sink (.branch l r (.X c1 c2)) ++ [QueryNode.sink ti])[qs.length]? = some (.sink ti) := by
    rw [List.getElem?_append_right (by simp)]; simp
  have hso := hQ.snk tj tot hto
  have hqs3 : (qs.set tt.sink (.branch l r (.X c1 c2)) ++ [QueryNode.sink ti])[tot.sink]? = some (.sink tj) := by
    refine qs_set_same _ _ ?_ hso
    intro h
    rw [h, hq] at hso; cases hso; exact hne rfl
  refine ⟨?_, ?_, ?_, ?_⟩
  · intro i x hx
    rcases h1 i x hx with ⟨rfl, e⟩ | ⟨hi, t0, ht0, e⟩
    · rw [e]; exact hqs2
    · have := hQ.snk i t0 ht0
      rw [← e]
      refine qs_set_same _ _ ?_ this
      intro h
      rw [h, hq] at this; cases this; exact hi rfl
  · intro q i hqi
    rcases getElem?_set_append hqi hlq with ⟨rfl, e⟩ | ⟨rfl, e⟩ | ⟨g1, g2, g3⟩
    · cases e; exact h2
    · cases e
    · obtain ⟨x, hx, e⟩ := hQ.snk' q i g3
      have hi : i ≠ ti := by
        rintro rfl
        rw [hti] at hx; cases hx; exact g1 e.symm
      obtain ⟨t, ht, e'⟩ := h3 i x hi hx
      exact ⟨t, ht, by rw [e', e]⟩
  · refine hQ.tame.replace (q0 := tt.sink) (fun p n => qs_set_same p n) ?_
    rcases hlr with ⟨rfl, rfl⟩ | ⟨rfl, rfl⟩
    · exact .branch hqs1 (.sink hqs2) (.sink hqs3)
    · exact .branch hqs1 (.sink hqs3) (.sink hqs2)
  · obtain ⟨t0, ht0, hup0⟩ := hQ.top
    have h0 : t0 ≠ ti := by rintro rfl; exact hupi hup0
    exact ⟨t0, ht0.replace (q0 := tt.sink) (fun p n => qs_set_same p n) hq
      (fun h => absurd h h0) (fun _ => rfl) (fun h q hq' => hQ.uniq hq' h), by rw [hup]; exact hup0⟩

/-- The query structure after a trapezoid has been divided into itself and a new one. -/
theorem qry_open {ti : Nat} {tt ta tb : Trapezoid} {c1 c2 : Coords K} (hQ : Qry qs ts A)
    (hti : ts[ti]? = some tt) (ha : ta.sink = qs.length) (hb : tb.sink = qs.length + 1)
    (hup : ∀ i < ts.length, (A'.T i).up = (A.T i).up) (hupi : (A.T ti).up ≠ none) :
    Qry (qs.set tt.sink (.branch qs.length (qs.length + 1) (.X c1 c2)) ++ [.sink ti, .sink ts.length])
      (ts.set ti ta ++ [tb]) A' := by
  have hq := hQ.snk ti tt hti
  have hlq := lt_of_get hq
  have hlt := lt_of_get hti
  generalize hqs' : qs.set tt.sink (.branch qs.length (qs.length + 1) (.X c1 c2)) ++
    [QueryNode.sink ti, QueryNode.sink ts.length] = qs'
  have hqs1 : qs'[tt.sink]? = some (.branch qs.length (qs.length + 1) (.X c1 c2)) := by
    rw [← hqs', List.getElem?_append_left (by simpa using hlq), List.getElem?_set_self hlq]
  have hqs2 : qs'[qs.length]? = some (.sink ti) := by
    rw [← hqs', List.getElem?_append_right (by simp)]; simp
  have hqs3 : qs'[qs.length + 1]? = some (.sink ts.length) := by
    rw [← hqs', List.getElem?_append_right (by simp)]; simp
  have hsame : ∀ (p : Nat) (n : QueryNode K), p ≠ tt.sink → qs[p]? = some n → qs'[p]? = some n := by
    rw [← hqs']; exact fun p n => qs_set_same p n
  refine ⟨?_, ?_, ?_, ?_⟩
  · intro i x hx
    rcases getElem?_set_append hx hlt with ⟨rfl, rfl⟩ | ⟨rfl, rfl⟩ | ⟨h1, h2, h3⟩
    · rw [hb]; exact hqs3
    · rw [ha]; exact hqs2
    · have := hQ.snk i x h3
      refine hsame _ _ ?_ this
      intro h
      rw [h, hq] at this; cases this; exact h1 rfl
  · intro q i hqi
    rw [← hqs'] at hqi
    rcases getElem?_set_append2 hqi hlq with ⟨rfl, e⟩ | ⟨rfl, e⟩ | ⟨rfl, e⟩ | ⟨h1, h2, h3⟩
    · cases e
      refine ⟨tb, ?_, hb⟩
      rw [List.getElem?_append_right (by simp)]; simp
    · cases e
      refine ⟨ta, ?_, ha⟩
      rw [List.getElem?_append_left (by simpa using hlt), List.getElem?_set_self hlt]
    · cases e
    · obtain ⟨x, hx, e⟩ := hQ.snk' q i h3
      refine ⟨x, ?_, e⟩
      rw [List.getElem?_append_left (by simpa using lt_of_get hx), List.getElem?_set_ne, hx]
      rintro rfl
      rw [hti] at hx; cases hx
      exact h1 e.symm
  · exact hQ.tame.replace (q0 := tt.sink) hsame (.branch hqs1 (.sink hqs2) (.sink hqs3))
  · obtain ⟨t0, ht0, hup0⟩ := hQ.top
    have h0 : t0 ≠ ti := by rintro rfl; exact hupi hup0
    refine ⟨t0, ht0.replace (q0 := tt.sink) hsame hq
      (fun h => absurd h h0) (fun _ => rfl) (fun h q hq' => hQ.uniq hq' h), ?_⟩
    have : t0 < ts.length := by
      have : ∀ q, Top qs q t0 → t0 < ts.length := by
        intro q h
        induction h with
        | sink h => obtain ⟨x, hx, -⟩ := hQ.snk' _ _ h; exact lt_of_get hx
        | branch _ _ ih => exact ih ‹_› ‹_› ‹_›
      exact this 0 ht0
    rw [hup _ this]; exact hup0

end Tri
