import Verif.Proof.ChainSum
import Verif.Proof.Logged
import Verif.Proof.Mountain
import Mathlib.Algebra.Field.Rat
import Mathlib.Algebra.Order.Field.Rat

/-!
# Properties of the triangulation of one monotone chain
-/

set_option linter.unusedSectionVars false

namespace Tri

variable {I C : Type} [Scalar C]

/-- **C28** A run over one chain `v₀ … v_{k-1}` (the vertices given to the chain builder), whatever
the comparisons of the coordinate type answer and however many passes it is given: it never fails; if
it ends, everything handed to the format is a sequence of fans of at least three vertices with `k - 2`
triangles in total; and for a counterclockwise format the directed sides of those triangles cancel
except for the closed chain itself: `v₀ → … → v_{k-1} → v₀` for a left chain, reversed for a right one.
(`recorder` is an infallible format that lists the calls it gets; `l` is what it already holds.) -/
theorem C28_chain_complete [DecidableEq I] (b : MonoB I C) (M : Mono I C)
    (hb : b.build = .ok (some M)) (w : Winding) (fuel : Nat) (l : List (Call I)) :
    ∃ fans : List (List I), (∀ f ∈ fans, 3 ≤ f.length) ∧
      (Mono.buildFans (m := FBM (recorder I w)) w fuel M (.init l) =
          (.init (l ++ fans.flatMap fanCalls), .error .timeout) ∨
       Mono.buildFans (m := FBM (recorder I w)) w fuel M (.init l) =
          (.init (l ++ fans.flatMap fanCalls), .ok ()) ∧
        (fans.flatMap fanTriangles).length + 2 = b.rest.length + 1 ∧
        (w = .counterclockwise → ∀ u v,
          net ((fans.flatMap fanTriangles).flatMap sides) u v =
            if M.isLeftChain then net (cycleEdges ((b.first :: b.rest).map Prod.fst)) u v
            else net (cycleEdges ((b.first :: b.rest).map Prod.fst)) v u)) := by
  obtain ⟨fs, L', h1, h2, h3, h4⟩ := chain_run b M hb fuel
  replace h2 := h2 w
  replace h4 := h4.imp (fun h => h w) (fun h => And.imp_left (fun h => h w) h)
  have hrun : ∀ r, (Mono.buildFans (m := TrM I) w fuel M).res = r →
      Mono.buildFans (m := FBM (recorder I w)) w fuel M (.init l) =
        (.init (l ++ (fs.map fun f => (fanOf w M.isLeftChain f.bt f.root f.outer).map Prod.fst).flatMap
          fanCalls), r.mapError liftInternal) := by
    intro r hr
    have := congrFun ((interpHom (recorder I w)).buildFans w fuel M) (.init l)
    rw [← this]
    show interp (recorder I w) (Mono.buildFans (m := TrM I) w fuel M) (.init l) = _
    rcases hT : Mono.buildFans (m := TrM I) w fuel M with ⟨cs, r'⟩
    rw [hT] at hr h2
    simp only at hr h2
    subst hr
    unfold interp
    rw [feed_recorder, h2]
    cases r' <;> rfl
  refine ⟨fs.map fun f => (fanOf w M.isLeftChain f.bt f.root f.outer).map Prod.fst, ?_, ?_⟩
  · intro f hf
    simp only [List.mem_map] at hf
    obtain ⟨g, hg, rfl⟩ := hf
    rw [List.length_map]
    exact (fan_length w M.isLeftChain g.bt g.root g.outer (h1 g hg)).2
  · rcases h4 with h4 | ⟨h4, h5⟩
    · exact .inl (hrun _ h4)
    · refine .inr ⟨hrun _ h4, ?_, ?_⟩
      · have hc : ∀ fs : List (FanRec (I × Coords C)), (∀ f ∈ fs, 2 ≤ f.outer.length) →
            ((fs.map fun f => (fanOf w M.isLeftChain f.bt f.root f.outer).map Prod.fst).flatMap
              fanTriangles).length = (fs.flatMap fun f => earsOf f.bt f.root f.outer).length := by
          intro fs h
          induction fs with
          | nil => rfl
          | cons f fs ih =>
            rw [List.map_cons, List.flatMap_cons, List.flatMap_cons, List.length_append,
              List.length_append, ih fun f hf => h f (by simp [hf]), fanTriangles_map, List.length_map,
              (fan_length w M.isLeftChain f.bt f.root f.outer (h f (by simp))).1, earsOf_pairs,
              List.length_map, pairs_length]
        rw [hc fs h1]
        have := h3.length
        rw [List.length_cons] at this
        omega
      · rintro rfl u v
        have ht : (fs.map fun f => (fanOf .counterclockwise M.isLeftChain f.bt f.root f.outer).map
            Prod.fst).flatMap fanTriangles =
            ((fs.map fun f => fanOf .counterclockwise M.isLeftChain f.bt f.root f.outer).flatMap
              fanTriangles).map (mapTri Prod.fst) := by
          rw [List.flatMap_map, List.flatMap_map, List.map_flatMap]
          simp only [fanTriangles_map]
        obtain ⟨T, hp, hrot⟩ := fans_perm M.isLeftChain fs h1
        have hf : ∀ a b : I × Coords C, netFn u v a.1 b.1 = - netFn u v b.1 a.1 :=
          fun a b => netFn_anti u v a.1 b.1
        have hs := h3.esum (f := fun a b => netFn u v a.1 b.1) hf h5
        have e1 : net (((fs.map fun f => (fanOf .counterclockwise M.isLeftChain f.bt f.root f.outer).map
            Prod.fst).flatMap fanTriangles).flatMap sides) u v =
            if M.isLeftChain then esum (fun a b => netFn u v a.1 b.1) (cycleEdges (b.first :: b.rest))
            else - esum (fun a b => netFn u v a.1 b.1) (cycleEdges (b.first :: b.rest)) := by
          rw [← esum_netFn, esum_sides, ht, List.map_map, hs,
            ← sum_earTri (f := fun a b : I × Coords C => netFn u v a.1 b.1) hf, ← sum_rot _ hrot]
          exact (hp.map _).sum_eq
        have e2 : ∀ u v, net (cycleEdges ((b.first :: b.rest).map Prod.fst)) u v =
            esum (fun a b => netFn u v a.1 b.1) (cycleEdges (b.first :: b.rest)) := by
          intro u v
          rw [← esum_netFn, cycleEdges_map, esum_map]
        rw [e1, e2, e2]
        have e3 : esum (fun a b : I × Coords C => netFn v u a.1 b.1) (cycleEdges (b.first :: b.rest)) =
            - esum (fun a b => netFn u v a.1 b.1) (cycleEdges (b.first :: b.rest)) := by
          rw [← e2, ← e2]; unfold net; omega
        rw [e3]

section
attribute [local instance] exact

/-- A left chain of five vertices with a reflex corner, and a run over it that ends. -/
example : ∃ M : Mono Nat Int,
    (MonoB.mk (0, ⟨0, 8⟩) [(1, ⟨-4, 6⟩), (2, ⟨-1, 4⟩), (3, ⟨-4, 2⟩), (4, ⟨0, 0⟩)] true true).build =
      .ok (some M) ∧ M.isLeftChain = true ∧
    (Mono.buildFans (m := FBM (recorder Nat .counterclockwise)) .counterclockwise 9 M (.init [])).2 =
      .ok () := by
  refine ⟨_, rfl, ?_, ?_⟩ <;> decide +kernel

end

section
variable {K : Type} [Field K] [LinearOrder K] [IsStrictOrderedRing K]
attribute [local instance] exact

/-- **C29** (first half) A chain whose inner vertices lie strictly on one side of the line through its
ends is triangulated in at most `k ^ 2 + k` passes (`k` vertices): the run ends without an error, and
giving it more passes changes nothing. -/
theorem C29_mountain_terminates (left : Bool) (x y : I × Coords K) (inner : List (I × Coords K))
    (hm : Mountain left x.2 (inner.map Prod.snd) y.2) (dx dy : Bool) (M : Mono I K)
    (hb : (MonoB.mk x (inner ++ [y]) dx dy).build = .ok (some M)) (w : Winding) (l : List (Call I)) :
    ∃ fans : List (List I), ∀ fuel, (inner.length + 2) ^ 2 + (inner.length + 2) ≤ fuel →
      Mono.buildFans (m := FBM (recorder I w)) w fuel M (.init l) =
        (.init (l ++ fans.flatMap fanCalls), .ok ()) := by
  obtain ⟨hl, v1, v2, tl, hr, hR⟩ := mountain_build left x y inner hm dx dy M hb
  have hL : MountainL left ([v1, x].reverse ++ (v2 :: tl)) :=
    ⟨x, inner, y, by simp [hr], hm⟩
  have hlen : inner.length + 1 = tl.length + 2 := by
    have := congrArg List.length hr; simpa using this
  have hend : ∀ fuel, (inner.length + 2) ^ 2 + (inner.length + 2) ≤ fuel →
      (Mono.buildFans (m := TrM I) w fuel M).res = .ok () := by
    intro fuel hf
    refine buildFans_ends w left MountainL.remove MountainL.hasEar fuel M _ _ _ hR (by simp) hl hL
      (.inl ⟨?_, ?_⟩)
    · intro X a b c Y e
      have := congrArg List.length e
      simp at this; omega
    · have e : [v1, x].length + (v2 :: tl).length = inner.length + 2 := by simp; omega
      rw [e, ← Nat.pow_two]
      simp only [List.length_cons]; omega
  have hsame : ∀ fuel, (inner.length + 2) ^ 2 + (inner.length + 2) ≤ fuel →
      Mono.buildFans (m := TrM I) w fuel M =
        Mono.buildFans (m := TrM I) w ((inner.length + 2) ^ 2 + (inner.length + 2)) M := by
    intro fuel hf
    exact buildFans_mono w _ fuel hf M (by rw [hend _ (Nat.le_refl _)]; simp)
  obtain ⟨fs, L', -, h2, -, -⟩ := chain_run _ M hb ((inner.length + 2) ^ 2 + (inner.length + 2))
  replace h2 := h2 w
  refine ⟨fs.map fun f => (fanOf w M.isLeftChain f.bt f.root f.outer).map Prod.fst, fun fuel hf => ?_⟩
  have := congrFun ((interpHom (recorder I w)).buildFans w fuel M) (.init l)
  rw [← this]
  show interp (recorder I w) (Mono.buildFans (m := TrM I) w fuel M) (.init l) = _
  have hr := hend _ hf
  rw [hsame _ hf] at hr ⊢
  rcases hT : Mono.buildFans (m := TrM I) w ((inner.length + 2) ^ 2 + (inner.length + 2)) M with ⟨cs, r'⟩
  rw [hT] at hr h2
  simp only at hr h2
  subst hr
  unfold interp
  rw [feed_recorder, h2]

/-- A mountain with a reflex corner. -/
example : Mountain true (⟨0, 8⟩ : Coords ℚ) [⟨-4, 6⟩, ⟨-1, 4⟩, ⟨-4, 2⟩] ⟨0, 0⟩ := by
  constructor
  · simp [below]; norm_num
  · simp [orient]

end

/-- The chain of the second half of C29: its vertex `(0, 1)` lies on the line through the ends. -/
def endless : MonoB Nat Int :=
  .mk (0, ⟨0, 3⟩) [(1, ⟨-1, 2⟩), (2, ⟨0, 1⟩), (3, ⟨0, 0⟩)] true true

section
attribute [local instance] exact

/-- Where the run over `endless` gets stuck. -/
def stuck : Mono Nat Int := ⟨[(0, ⟨0, 3⟩), (2, ⟨0, 1⟩), (3, ⟨0, 0⟩)], 2, 2, true⟩

theorem stuck_step (w : Winding) (k : Nat) :
    Mono.buildFans (m := TrM Nat) w (k + 2) stuck = Mono.buildFans w k stuck := rfl

theorem stuck_timeout (w : Winding) (k : Nat) :
    (Mono.buildFans (m := TrM Nat) w k stuck).res = .error .timeout := by
  induction k using Nat.strongRecOn with
  | _ k ih =>
    match k with
    | 0 => rfl
    | 1 => rfl
    | k + 2 => rw [stuck_step]; exact ih k (by omega)

/-- **C29** (second half) There is a chain whose vertices go strictly down for which no number of
passes is enough, even with exact arithmetic. -/
theorem C29_other_chains_can_run_forever (w : Winding) :
    ∃ M, endless.build = .ok (some M) ∧
      ∀ fuel, (Mono.buildFans (m := FBM (recorder Nat w)) w fuel M (.init [])).2 = .error .timeout := by
  refine ⟨_, rfl, ?_⟩
  intro fuel
  generalize hM : (Mono.mk _ 2 2 _ : Mono Nat Int) = M
  have hres : (Mono.buildFans (m := TrM Nat) w fuel M).res = .error .timeout := by
    match fuel with
    | 0 => rfl
    | 1 => subst hM; cases w <;> rfl
    | k + 2 =>
      have : (Mono.buildFans (m := TrM Nat) w (k + 2) M).res =
          (Mono.buildFans (m := TrM Nat) w k stuck).res := by subst hM; cases w <;> rfl
      rw [this]
      exact stuck_timeout w k
  have := congrFun ((interpHom (recorder Nat w)).buildFans w fuel M) (.init [])
  rw [← this]
  show (interp (recorder Nat w) (Mono.buildFans (m := TrM Nat) w fuel M) (.init [])).2 = _
  rcases hT : Mono.buildFans (m := TrM Nat) w fuel M with ⟨cs, r'⟩
  rw [hT] at hres
  simp only at hres
  subst hres
  unfold interp
  rw [feed_recorder]
  rfl

end

end Tri
