import Verif.Proof.Final

/-!
# Sweeping over the trapezoids from top to bottom

`Lev P A zs F`: when the vertices `zs` have been passed, `F` are the trapezoids met by the sweep line, from left to
right.  Every second one is inside.
-/

set_option linter.unusedSectionVars false

namespace Tri

variable {K : Type} [Field K] [LinearOrder K] [IsStrictOrderedRing K]

theorem exists_least {α : Type} (f : α → K) : ∀ l : List α, l ≠ [] → ∃ n ∈ l, ∀ m ∈ l, f n ≤ f m
  | [], h => absurd rfl h
  | [a], _ => ⟨a, by simp, by simp⟩
  | a :: b :: l, _ => by
    obtain ⟨n, hn, h⟩ := exists_least f (b :: l) (by simp)
    by_cases ha : f a ≤ f n
    · refine ⟨a, by simp, fun m hm => ?_⟩
      rcases List.mem_cons.1 hm with rfl | hm
      · exact le_rfl
      · exact ha.trans (h m hm)
    · refine ⟨n, by simp at hn ⊢; tauto, fun m hm => ?_⟩
      rcases List.mem_cons.1 hm with rfl | hm
      · exact (not_le.1 ha).le
      · exact h m hm

variable {P : Plane K} {A : Abs K}

/-- The vertices `zs` are those above `H`. -/
def Above (P : Plane K) (A : Abs K) (H : K) (zs : List Nat) : Prop := ∀ m, m ∈ zs ↔ m < A.N ∧ H < P.h (A.c m)

/-- Going down over the vertices. -/
theorem sweep_rec {motive : List Nat → Prop} (h0 : motive [])
    (hs : ∀ zs n, n < A.N → Above P A (P.h (A.c n)) zs → motive zs → motive (n :: zs)) (hI : Inv P A) (H : K) :
    ∃ zs, Above P A H zs ∧ motive zs := by
  induction hk : ((List.range A.N).filter fun m => H < P.h (A.c m)).length using Nat.strong_induction_on generalizing H with
  | _ k ih =>
    by_cases he : ((List.range A.N).filter fun m => H < P.h (A.c m)) = []
    · refine ⟨[], fun m => ⟨fun h => by simp at h, fun h => ?_⟩, h0⟩
      rw [List.filter_eq_nil_iff] at he
      have := he m (by simpa using h.1)
      simp at this
      exact absurd h.2 (not_lt.2 this)
    · obtain ⟨n, hn, hmin⟩ := exists_least (fun m => P.h (A.c m)) _ he
      have hn' : n < A.N ∧ H < P.h (A.c n) := by simpa using hn
      have hlt : ((List.range A.N).filter fun m => P.h (A.c n) < P.h (A.c m)).length < k := by
        rw [← hk]
        refine filter_length_lt (a := n) ?_ (by simpa using hn'.1) (by simpa using hn'.2) (by simp)
        intro m _ hm
        simp only [decide_eq_true_eq] at hm ⊢
        exact hn'.2.trans hm
      obtain ⟨zs, hz, hm⟩ := ih _ hlt _ rfl
      refine ⟨n :: zs, fun m => ?_, hs zs n hn'.1 hz hm⟩
      rw [List.mem_cons, hz m]
      constructor
      · rintro (rfl | h)
        · exact hn'
        · exact ⟨h.1, hn'.2.trans h.2⟩
      · rintro ⟨h1, h2⟩
        rcases (hmin m (by simpa using ⟨h1, h2⟩)).lt_or_eq with h | h
        · exact .inr ⟨h1, h⟩
        · exact .inl (hI.cinj m h1 n hn'.1 (P.h_inj (hI.cU m h1) (hI.cU n hn'.1) h.symm))

/-- Induction over the vertices from top to bottom. -/
theorem height_ind {motive : Nat → Prop} (hI : Inv P A)
    (hs : ∀ n < A.N, (∀ m < A.N, P.h (A.c n) < P.h (A.c m) → motive m) → motive n) : ∀ n < A.N, motive n := by
  intro n hn
  obtain ⟨zs, hz, hm⟩ := sweep_rec (motive := fun zs => ∀ m ∈ zs, motive m) (by simp)
    (fun zs n hn hz ih m hm => by
      rcases List.mem_cons.1 hm with rfl | hm
      · exact hs m hn fun k hk hlt => ih k ((hz k).2 ⟨hk, hlt⟩)
      · exact ih m hm) hI (P.h (A.c n) - 1)
  exact hm n ((hz n).2 ⟨hn, by linarith⟩)

section path
variable {T : Nat → Trz}

theorem path_det {L R L' R' : Option Nat} {row : List Nat} (hne : row ≠ []) (h : Path T L row R) (h' : Path T L' row R') :
    L = L' ∧ R = R' := by
  induction row generalizing L L' with
  | nil => exact absurd rfl hne
  | cons a l ih =>
    refine ⟨h.1.symm.trans h'.1, ?_⟩
    cases l with
    | nil => exact h.2.symm.trans h'.2
    | cons b l => exact (ih (by simp) h.2 h'.2).2

theorem path_infix_aux {F : List Nat} {R : Option Nat} (hn : (F.map fun i => (T i).left).Nodup)
    {row : List Nat} {R' : Option Nat} :
    ∀ {X Y : List Nat} {L L0 : Option Nat} {a : Nat}, F = X ++ a :: Y → Path T L0 F R → Path T L (a :: row) R' →
    (∀ b ∈ row, b ∈ F) → (∀ b ∈ row, (T b).left ≠ R) → ∃ Y', Y = row ++ Y' := by
  induction row with
  | nil => intros; exact ⟨_, rfl⟩
  | cons b row ih =>
    intro X Y L L0 a hF hp hr hm hs
    have hb := hm b (by simp)
    have hpY : Path T (T a).right Y R := by
      rw [hF, path_append] at hp
      obtain ⟨m, -, -, h⟩ := hp
      exact h
    cases Y with
    | nil =>
      refine absurd ?_ (hs b (by simp))
      rw [hr.2.1]; exact hpY
    | cons y Y =>
      have hy : y ∈ F := by rw [hF]; simp
      have : y = b := List.inj_on_of_nodup_map hn hy hb (by rw [hpY.1, hr.2.1])
      subst this
      obtain ⟨Y', hY'⟩ := ih (X := X ++ [a]) (Y := Y) (L0 := L0) (by rw [hF]; simp) hp hr.2
        (fun c hc => hm c (by simp [hc])) (fun c hc => hs c (by simp [hc]))
      exact ⟨Y', by rw [hY']; simp⟩

/-- A row of trapezoids of `F` is contiguous in `F`. -/
theorem path_infix {F : List Nat} {R L0 : Option Nat} (hn : (F.map fun i => (T i).left).Nodup) (hp : Path T L0 F R)
    {row : List Nat} {L R' : Option Nat} (hne : row ≠ []) (hr : Path T L row R') (hm : ∀ b ∈ row, b ∈ F)
    (hs : ∀ b ∈ row.tail, (T b).left ≠ R) : ∃ X Y, F = X ++ row ++ Y := by
  cases row with
  | nil => exact absurd rfl hne
  | cons a row =>
    obtain ⟨X, Y, hF⟩ := List.append_of_mem (hm a (by simp))
    obtain ⟨Y', hY'⟩ := path_infix_aux hn hF hp hr (fun b hb => hm b (by simp [hb])) hs
    exact ⟨X, Y', by rw [hF, hY']; simp⟩

end path

namespace Whole

theorem up_none (W : Whole P A) {i : Nat} (hi : i < A.M) (h : (A.T i).up = none) :
    (A.T i).left = none ∧ (A.T i).right = none := by
  have := W.inv.bnd i hi
  constructor <;> by_contra h'
  · exact (this (.inl h')).1 h
  · exact (this (.inr h')).1 h

theorem down_none (W : Whole P A) {i : Nat} (hi : i < A.M) (h : (A.T i).down = none) :
    (A.T i).left = none ∧ (A.T i).right = none := by
  have := W.inv.bnd i hi
  constructor <;> by_contra h'
  · exact (this (.inl h')).2 h
  · exact (this (.inr h')).2 h

/-- There is only one trapezoid without upper end. -/
theorem top_unique (W : Whole P A) {w : Coords K} (hw : P.U w) (hh : ∀ n < A.N, P.h (A.c n) < P.h w) {i j : Nat}
    (hi : i < A.M) (hj : j < A.M) (ei : (A.T i).up = none) (ej : (A.T j).up = none) : i = j := by
  have key : ∀ i < A.M, (A.T i).up = none → Region P A i w := fun i hi e => by
    obtain ⟨h1, h2⟩ := W.up_none hi e
    exact ⟨fun d hd => hh d (W.inv.downM i hi d hd).1, by simp [e], by simp [h1], by simp [h2]⟩
  exact W.inv.disj w hw i hi j hj (key i hi ei) (key j hj ej)

/-- The upper end of the left side of a trapezoid whose upper end has been passed. -/
theorem left_mx (W : Whole P A) {H : K} {zs : List Nat} (hz : Above P A H zs) {i s : Nat} (hi : i < A.M)
    (hu : ∀ u, (A.T i).up = some u → u ∈ zs) (hl : (A.T i).left = some s) : A.mx s ∈ zs := by
  have hs := W.inv.leftS i hi s hl
  rcases hup : (A.T i).up with _ | u
  · rw [(W.up_none hi hup).1] at hl; cases hl
  · have := hu u hup
    rcases W.inv.left_up hi hl hup with h | h
    · rw [h]; exact this
    · refine (hz _).2 ⟨(W.inv.mxN s hs).1, ((hz u).1 this).2.trans ?_⟩
      rw [(W.inv.mxN s hs).2]; exact h.2.1

theorem left_mn (W : Whole P A) {H : K} {zs : List Nat} (hz : Above P A H zs) {i s : Nat} (hi : i < A.M)
    (hu : ∀ u, (A.T i).down = some u → u ∉ zs) (hl : (A.T i).left = some s) : A.mn s ∉ zs := by
  rcases hup : (A.T i).down with _ | u
  · rw [(W.down_none hi hup).1] at hl; cases hl
  · have := hu u hup
    rcases W.inv.left_down hi hl hup with h | h
    · rw [h]; exact this
    · intro h'
      exact this ((hz u).2 ⟨(W.inv.downM i hi u hup).1, ((hz _).1 h').2.trans h.1⟩)

end Whole

/-- The trapezoids `F` met when the vertices `zs` have been passed. -/
structure Lev (A : Abs K) (zs F : List Nat) : Prop where
  path : Path A.T none F none
  mem : ∀ i, i ∈ F ↔ i < A.M ∧ (∀ u, (A.T i).up = some u → u ∈ zs) ∧ ∀ d, (A.T i).down = some d → d ∉ zs
  inj : (F.map fun i => (A.T i).left).Nodup
  all : ∀ s < A.S, A.mx s ∈ zs → A.mn s ∉ zs → some s ∈ F.map fun i => (A.T i).left

/-- A point of the plane above all vertices. -/
def Sky (P : Plane K) (A : Abs K) : Prop := ∃ w, P.U w ∧ ∀ n < A.N, P.h (A.c n) < P.h w

theorem lev_init (W : Whole P A) (hsky : Sky P A) {t : Nat} (ht : t < A.M) (hu : (A.T t).up = none) : Lev A [] [t] where
  path := by
    obtain ⟨h1, h2⟩ := W.up_none ht hu
    exact ⟨h1, h2⟩
  mem i := by
    obtain ⟨w, hw, hh⟩ := hsky
    constructor
    · intro h
      have : i = t := by simpa using h
      subst this
      exact ⟨ht, by simp [hu], by simp⟩
    · rintro ⟨h1, h2, -⟩
      have : i = t := W.top_unique hw hh h1 ht (by
        rcases h : (A.T i).up with _ | u
        · rfl
        · exact absurd (h2 u h) (by simp)) hu
      simp [this]
  inj := by simp
  all := by simp

/-- Passing the next vertex. -/
theorem lev_step (W : Whole P A) {zs F : List Nat} {n : Nat} (hn : n < A.N) (hz : Above P A (P.h (A.c n)) zs) (hL : Lev A zs F) :
    ∃ X Y, F = X ++ A.ups n ++ Y ∧ Lev A (n :: zs) (X ++ A.downs n ++ Y) := by
  have hI := W.inv
  obtain ⟨L, R, hX⟩ := hI.nex n hn
  have hnz : n ∉ zs := fun h => lt_irrefl _ ((hz n).1 h).2
  have hupF : ∀ a ∈ A.ups n, a ∈ F := by
    intro a ha
    obtain ⟨h1, h2⟩ := hI.rowU n hn a ha
    refine (hL.mem a).2 ⟨h1, fun u hu => (hz u).2 ⟨(hI.upM a h1 u hu).1, hI.ht a h1 u n hu h2⟩, fun d hd => ?_⟩
    rw [h2] at hd; cases hd; exact hnz
  obtain ⟨X, Y, hF⟩ := path_infix hL.inj hL.path hX.neU hX.pathU hupF (fun b hb => by
    obtain ⟨s, -, h, -⟩ := hX.sepU b hb
    simp [h])
  have hFn : F.Nodup := List.Nodup.of_map _ hL.inj
  have hXY : ∀ i, i ∈ X ++ Y → i ∈ F ∧ i ∉ A.ups n := by
    intro i hi
    rw [hF] at hFn
    have h1 := List.nodup_append.1 hFn
    have h2 := List.nodup_append.1 h1.1
    rcases List.mem_append.1 hi with h | h
    · exact ⟨by rw [hF]; simp [h], fun h' => h2.2.2 i h i h' rfl⟩
    · exact ⟨by rw [hF]; simp [h], fun h' => h1.2.2 i (by simp [h']) i h rfl⟩
  have hin : ∀ i, i ∈ F → i ∈ X ++ Y ∨ i ∈ A.ups n := by
    intro i hi
    rw [hF] at hi
    simp only [List.mem_append] at hi ⊢
    tauto
  obtain ⟨m1, hp1, m2, hp2, hp3⟩ : ∃ m1, Path A.T none X m1 ∧ ∃ m2, Path A.T m1 (A.ups n) m2 ∧ Path A.T m2 Y none := by
    have := hL.path
    rw [hF, List.append_assoc, path_append] at this
    obtain ⟨m1, h1, h2⟩ := this
    rw [path_append] at h2
    exact ⟨m1, h1, h2⟩
  obtain ⟨rfl, rfl⟩ := path_det hX.neU hX.pathU hp2
  refine ⟨X, Y, hF, ?_, ?_, ?_, ?_⟩
  · rw [List.append_assoc, path_append]
    exact ⟨_, hp1, path_append.2 ⟨_, hX.pathD, hp3⟩⟩
  · intro i
    constructor
    · intro hi
      rw [List.append_assoc, List.mem_append, List.mem_append] at hi
      have key : i ∈ X ++ Y → i < A.M ∧ (∀ u, (A.T i).up = some u → u ∈ n :: zs) ∧ ∀ d, (A.T i).down = some d → d ∉ n :: zs := by
        intro hi
        obtain ⟨h1, h2⟩ := hXY i hi
        obtain ⟨h3, h4, h5⟩ := (hL.mem i).1 h1
        refine ⟨h3, fun u hu => List.mem_cons_of_mem _ (h4 u hu), fun d hd => ?_⟩
        rw [List.mem_cons, not_or]
        refine ⟨?_, h5 d hd⟩
        rintro rfl
        exact h2 (hI.downM i h3 d hd).2
      rcases hi with h | h | h
      · exact key (by simp [h])
      · obtain ⟨h1, h2⟩ := hI.rowD n hn i h
        refine ⟨h1, fun u hu => ?_, fun d hd => ?_⟩
        · rw [h2] at hu; cases hu; simp
        · have := hI.ht i h1 n d h2 hd
          rw [List.mem_cons, not_or]
          refine ⟨?_, fun h' => ?_⟩
          · rintro rfl; exact lt_irrefl _ this
          · exact lt_asymm this ((hz d).1 h').2
      · exact key (by simp [h])
    · rintro ⟨h1, h2, h3⟩
      by_cases hup : (A.T i).up = some n
      · have := (hI.upM i h1 n hup).2
        simp [this]
      · have hiF : i ∈ F := (hL.mem i).2 ⟨h1, fun u hu => by
          rcases List.mem_cons.1 (h2 u hu) with rfl | h
          · exact absurd hu hup
          · exact h, fun d hd h => h3 d hd (List.mem_cons_of_mem _ h)⟩
        rcases hin i hiF with h | h
        · simp only [List.mem_append] at h ⊢; tauto
        · exact absurd (List.mem_cons_self) (h3 n (hI.rowU n hn i h).2)
  · obtain ⟨d0, ds, hds⟩ := List.exists_cons_of_ne_nil hX.neD
    obtain ⟨u0, us, hus⟩ := List.exists_cons_of_ne_nil hX.neU
    have hd0 : (A.T d0).left = (A.T u0).left := by
      have h1 := hX.pathD; rw [hds] at h1
      have h2 := hX.pathU; rw [hus] at h2
      rw [h1.1, h2.1]
    have hbase : (X.map (fun i => (A.T i).left) ++ (A.T u0).left :: Y.map (fun i => (A.T i).left)).Nodup := by
      refine List.Nodup.sublist ?_ hL.inj
      rw [hF, hus, List.map_append, List.map_append, List.append_assoc]
      refine List.Sublist.append (List.Sublist.refl _) ?_
      rw [List.map_cons, List.cons_append]
      exact (List.sublist_append_right _ _).cons_cons _
    have hsep : ∀ x ∈ ds.map (fun i => (A.T i).left), ∃ s, s < A.S ∧ x = some s ∧ A.mx s = n := by
      intro x hx
      obtain ⟨a, ha, rfl⟩ := List.mem_map.1 hx
      exact hX.sepD a (by rw [hds]; exact ha)
    have hseps : (ds.map (fun i => (A.T i).left)).Nodup := by
      rcases W.kind n hn with ⟨u, dl, dc, dr, s0, s1, k⟩ | ⟨ul, ur, dl, dr, s0, s1, k⟩ | ⟨ul, uc, ur, d, s0, s1, k⟩
      · have := k.downs; rw [hds] at this; cases this
        have hdc := hI.rowD n hn dc (by rw [k.downs]; simp)
        have := hI.ne dc hdc.1 s0 k.c0
        simp only [List.map_cons, List.map_nil, k.c0, k.r1]
        simp only [List.nodup_cons, List.mem_singleton, List.not_mem_nil, not_false_eq_true, List.nodup_nil, and_self, and_true]
        rw [k.c1] at this
        exact this.symm
      · have := k.downs; rw [hds] at this; cases this; simp
      · have := k.downs; rw [hds] at this; cases this; simp
    rw [hds, List.map_append, List.map_append, List.map_cons, hd0]
    have hperm : (X.map (fun i => (A.T i).left) ++ ((A.T u0).left :: ds.map fun i => (A.T i).left) ++ Y.map fun i => (A.T i).left).Perm
        (ds.map (fun i => (A.T i).left) ++ (X.map (fun i => (A.T i).left) ++ (A.T u0).left :: Y.map (fun i => (A.T i).left))) := by
      rw [List.append_assoc, List.cons_append]
      refine (List.perm_middle).trans ?_
      refine List.Perm.trans ?_ (List.perm_append_comm_assoc _ _ _)
      refine List.perm_middle.symm.trans ?_
      refine List.Perm.append_left _ ?_
      exact List.perm_middle.symm
    rw [hperm.nodup_iff, List.nodup_append]
    refine ⟨hseps, hbase, ?_⟩
    rintro x hx y hy rfl
    obtain ⟨s, hs, rfl, hmx⟩ := hsep x hx
    have hfin : some s ∈ F.map fun i => (A.T i).left := by
      rw [hF, hus]
      simp only [List.map_append, List.map_cons, List.mem_append, List.mem_cons] at hy ⊢
      tauto
    obtain ⟨i, hiF, hil⟩ := List.mem_map.1 hfin
    obtain ⟨h3, h4, -⟩ := (hL.mem i).1 hiF
    exact hnz (hmx ▸ W.left_mx hz h3 h4 hil)
  · intro s hs h1 h2
    rw [List.mem_cons, not_or] at h2
    rcases List.mem_cons.1 h1 with h1 | h1
    · obtain ⟨a, ha, hal⟩ := W.sepD s hs
      rw [h1] at ha
      refine List.mem_map.2 ⟨a, ?_, hal⟩
      simp [List.mem_of_mem_tail ha]
    · obtain ⟨i, hiF, hil⟩ := List.mem_map.1 (hL.all s hs h1 h2.2)
      rcases hin i hiF with h | h
      · exact List.mem_map.2 ⟨i, by simp only [List.mem_append] at h ⊢; tauto, hil⟩
      · obtain ⟨d0, ds, hds⟩ := List.exists_cons_of_ne_nil hX.neD
        rcases path_left hX.pathU h with ⟨-, h'⟩ | h'
        · have hpd := hX.pathD
          rw [hds] at hpd ⊢
          exact List.mem_map.2 ⟨d0, by simp, by rw [hpd.1, ← h', hil]⟩
        · obtain ⟨s', -, h3, h4⟩ := hX.sepU i h'
          rw [hil] at h3; cases h3
          exact absurd h4 h2.1

/-- The labels of a row alternate, from `b` on; `c` would be the next one. -/
def Alt (lab : Nat → Bool) : Bool → List Nat → Bool → Prop
  | b, [], c => b = c
  | b, a :: l, c => lab a = b ∧ Alt lab (!b) l c

theorem alt_append {lab : Nat → Bool} {b c : Bool} {x y : List Nat} :
    Alt lab b (x ++ y) c ↔ ∃ m, Alt lab b x m ∧ Alt lab m y c := by
  induction x generalizing b with
  | nil => simp [Alt]
  | cons a x ih => simp [Alt, ih, and_assoc]

theorem alt_congr {lab lab' : Nat → Bool} {b c : Bool} {x : List Nat} (h : ∀ a ∈ x, lab' a = lab a) :
    Alt lab' b x c ↔ Alt lab b x c := by
  induction x generalizing b with
  | nil => simp [Alt]
  | cons a x ih => simp [Alt, ih fun a ha => h a (by simp [ha]), h a (by simp)]

/-- The rows of vertex `n` carry the same pattern. -/
def LabAt (A : Abs K) (lab : Nat → Bool) (n : Nat) : Prop :=
  ∃ b c, Alt lab b (A.ups n) c ∧ Alt lab b (A.downs n) c

/-- Labels for the trapezoids: outside at the top, alternating at every vertex, outside where there is no side. -/
structure Lab (A : Abs K) (lab : Nat → Bool) : Prop where
  top : ∀ i < A.M, (A.T i).up = none → lab i = false
  at_ : ∀ n < A.N, LabAt A lab n
  left : ∀ i < A.M, (A.T i).left = none → lab i = false
  right : ∀ i < A.M, (A.T i).right = none → lab i = false

/-- The label a trapezoid of a row should have. -/
def altLab (b : Bool) : List Nat → Nat → Bool
  | [], _ => b
  | a :: l, i => if i = a then b else altLab (!b) l i

/-- Whether a list has an odd number of elements. -/
def oddLen : List Nat → Bool
  | [] => false
  | _ :: l => !oddLen l

theorem alt_altLab {b : Bool} {l : List Nat} (hn : l.Nodup) : Alt (altLab b l) b l (b ^^ oddLen l) := by
  induction l generalizing b with
  | nil => simp [Alt, oddLen]
  | cons a l ih =>
    rw [List.nodup_cons] at hn
    refine ⟨by simp [altLab], ?_⟩
    have := ih (b := !b) hn.2
    rw [alt_congr (lab := altLab (!b) l)]
    · convert this using 1
      rw [oddLen]
      cases b <;> cases oddLen l <;> rfl
    · intro c hc
      rw [altLab, if_neg]
      rintro rfl; exact hn.1 hc

theorem alt_end {lab : Nat → Bool} {b c : Bool} {l : List Nat} (h : Alt lab b l c) : c = (b ^^ oddLen l) := by
  induction l generalizing b with
  | nil => simpa [Alt, oddLen] using h.symm
  | cons a l ih =>
    rw [ih h.2, oddLen]
    cases b <;> cases oddLen l <;> rfl

theorem Whole.row_parity (W : Whole P A) {n : Nat} (hn : n < A.N) : oddLen (A.ups n) = oddLen (A.downs n) := by
  rcases W.kind n hn with ⟨u, dl, dc, dr, s0, s1, k⟩ | ⟨ul, ur, dl, dr, s0, s1, k⟩ | ⟨ul, uc, ur, d, s0, s1, k⟩ <;>
    simp [k.ups, k.downs, oddLen]

/-- The first and last of a level are outside. -/
theorem lev_ends {zs F : List Nat} {lab : Nat → Bool} (hL : Lev A zs F) (ha : Alt lab false F true) {i : Nat} (hi : i ∈ F) :
    ((A.T i).left = none → lab i = false) ∧ ((A.T i).right = none → lab i = false) := by
  constructor
  · intro hl
    cases F with
    | nil => simp at hi
    | cons a F =>
      have : i = a := List.inj_on_of_nodup_map hL.inj hi (by simp) (by rw [hl, hL.path.1])
      rw [this]; exact ha.1
  · intro hr
    obtain ⟨X, Y, rfl⟩ := List.append_of_mem hi
    obtain ⟨m, h1, h2⟩ := path_append.1 hL.path
    obtain ⟨b, h3, h4⟩ := alt_append.1 ha
    cases Y with
    | nil =>
      have h5 : (!b) = true := h4.2
      rw [h4.1]; simpa using h5
    | cons y Y =>
      exfalso
      have hy : (A.T y).left = none := by rw [h2.2.1, hr]
      cases X with
      | nil =>
        have hi0 : (A.T i).left = none := hL.path.1
        have := hL.inj
        simp [hi0, hy] at this
      | cons x X =>
        have hx0 : (A.T x).left = none := hL.path.1
        have := hL.inj
        simp [hx0, hy] at this

/-- The levels and labels down to the vertices `zs`. -/
def LabMot (A : Abs K) (zs : List Nat) : Prop :=
  ∃ F lab, Lev A zs F ∧ Alt lab false F true ∧ (∀ n ∈ zs, LabAt A lab n) ∧
    ∀ i < A.M, (∀ u, (A.T i).up = some u → u ∈ zs) → ((A.T i).up = none → lab i = false) ∧
      ((A.T i).left = none → lab i = false) ∧ ((A.T i).right = none → lab i = false)

/-- There are labels. -/
theorem exists_lab (W : Whole P A) (hsky : Sky P A) : ∃ lab, Lab A lab := by
  obtain ⟨t, ht, hu⟩ := W.top
  have hI := W.inv
  have hlow : ∃ H : K, ∀ n < A.N, H < P.h (A.c n) := by
    by_cases hN : A.N = 0
    · exact ⟨0, fun n hn => by omega⟩
    · obtain ⟨n, -, h⟩ := exists_least (fun n => P.h (A.c n)) (List.range A.N) (by simpa using hN)
      exact ⟨P.h (A.c n) - 1, fun m hm => by have := h m (by simpa using hm); linarith⟩
  obtain ⟨H, hH⟩ := hlow
  have hstep : ∀ zs n, n < A.N → Above P A (P.h (A.c n)) zs → LabMot A zs → LabMot A (n :: zs) := by
    intro zs n hn hz hm
    obtain ⟨F, lab, hL, ha, h1, h2⟩ := hm
    obtain ⟨X, Y, hF, hL'⟩ := lev_step W hn hz hL
    have hnz : n ∉ zs := fun h => lt_irrefl _ ((hz n).1 h).2
    obtain ⟨L, R, hX⟩ := hI.nex n hn
    rw [hF, List.append_assoc] at ha
    obtain ⟨b, ha1, ha2⟩ := alt_append.1 ha
    obtain ⟨c, ha2, ha3⟩ := alt_append.1 ha2
    let lab' : Nat → Bool := fun i => if i ∈ A.downs n then altLab b (A.downs n) i else lab i
    have hold : ∀ i < A.M, (A.T i).up ≠ some n → lab' i = lab i := by
      intro i hi hup
      have : i ∉ A.downs n := fun h => hup (hI.rowD n hn i h).2
      simp [lab', this]
    have hFold : ∀ i ∈ F, lab' i = lab i := by
      intro i hi
      obtain ⟨h3, h4, -⟩ := (hL.mem i).1 hi
      exact hold i h3 fun h => hnz (h4 n h)
    have hd : Alt lab' b (A.downs n) c := by
      rw [alt_congr (lab := altLab b (A.downs n)) (fun a ha => by simp [lab', ha])]
      have := alt_altLab (b := b) hX.nodupD
      rw [alt_end ha2, W.row_parity hn]
      exact this
    have hu : Alt lab' b (A.ups n) c :=
      (alt_congr fun a ha => hFold a (by rw [hF]; simp [ha])).2 ha2
    have ha' : Alt lab' false (X ++ A.downs n ++ Y) true := by
      rw [List.append_assoc, alt_append]
      refine ⟨b, (alt_congr fun a ha => hFold a (by rw [hF]; simp [ha])).2 ha1, alt_append.2 ⟨c, hd, ?_⟩⟩
      exact (alt_congr fun a ha => hFold a (by rw [hF]; simp [ha])).2 ha3
    refine ⟨_, lab', hL', ha', ?_, ?_⟩
    · intro m hm
      rcases List.mem_cons.1 hm with rfl | hm
      · exact ⟨b, c, hu, hd⟩
      · obtain ⟨b', c', h3, h4⟩ := h1 m hm
        have hmN := (hz m).1 hm
        refine ⟨b', c', (alt_congr fun a ha => ?_).2 h3, (alt_congr fun a ha => ?_).2 h4⟩
        · obtain ⟨h5, h6⟩ := hI.rowU m hmN.1 a ha
          exact hold a h5 fun h => lt_asymm (hI.ht a h5 n m h h6) hmN.2
        · obtain ⟨h5, h6⟩ := hI.rowD m hmN.1 a ha
          refine hold a h5 fun h => ?_
          rw [h6] at h; cases h
          exact hnz hm
    · intro i hi hup
      by_cases h' : (A.T i).up = some n
      · have hmem : i ∈ X ++ A.downs n ++ Y := by simp [(hI.upM i hi n h').2]
        exact ⟨by simp [h'], lev_ends hL' ha' hmem⟩
      · rw [hold i hi h']
        exact h2 i hi fun u hiu => by
          rcases List.mem_cons.1 (hup u hiu) with rfl | h
          · exact absurd hiu h'
          · exact h
  have h0 : LabMot A [] := ⟨[t], fun _ => false, lev_init W hsky ht hu, ⟨rfl, rfl⟩, by simp, by simp⟩
  obtain ⟨zs, hz, F, lab, hL, ha, h1, h2⟩ := sweep_rec h0 hstep hI H
  have hall : ∀ n < A.N, n ∈ zs := fun n hn => (hz n).2 ⟨hn, hH n hn⟩
  have h3 : ∀ i < A.M, ∀ u, (A.T i).up = some u → u ∈ zs := fun i hi u hu => hall u (hI.upM i hi u hu).1
  exact ⟨lab, fun i hi => (h2 i hi (h3 i hi)).1, fun n hn => h1 n (hall n hn), fun i hi => (h2 i hi (h3 i hi)).2.1,
    fun i hi => (h2 i hi (h3 i hi)).2.2⟩
/-- The levels alternate. -/
theorem exists_lev (W : Whole P A) (hsky : Sky P A) {lab : Nat → Bool} (hlab : Lab A lab) (H : K) :
    ∃ zs F, Above P A H zs ∧ Lev A zs F ∧ Alt lab false F true := by
  obtain ⟨t, ht, hu⟩ := W.top
  have hstep : ∀ zs n, n < A.N → Above P A (P.h (A.c n)) zs → (∃ F, Lev A zs F ∧ Alt lab false F true) →
      ∃ F, Lev A (n :: zs) F ∧ Alt lab false F true := by
    intro zs n hn hz hm
    obtain ⟨F, hL, ha⟩ := hm
    obtain ⟨X, Y, hF, hL'⟩ := lev_step W hn hz hL
    refine ⟨_, hL', ?_⟩
    rw [hF, List.append_assoc] at ha
    obtain ⟨b, ha1, ha2⟩ := alt_append.1 ha
    obtain ⟨c, ha2, ha3⟩ := alt_append.1 ha2
    obtain ⟨b', c', h3, h4⟩ := hlab.at_ n hn
    obtain ⟨L, R, hX⟩ := W.inv.nex n hn
    obtain ⟨u0, us, hus⟩ := List.exists_cons_of_ne_nil hX.neU
    have hb : b' = b := by rw [hus] at h3 ha2; rw [← h3.1, ha2.1]
    subst hb
    have hc : c' = c := by rw [alt_end h3, alt_end ha2]
    subst hc
    rw [List.append_assoc, alt_append]
    exact ⟨b', ha1, alt_append.2 ⟨c', h4, ha3⟩⟩
  obtain ⟨zs, hz, F, hL, ha⟩ := sweep_rec (motive := fun zs => ∃ F, Lev A zs F ∧ Alt lab false F true)
    ⟨[t], lev_init W hsky ht hu, ⟨hlab.top t ht hu, rfl⟩⟩ hstep W.inv H
  exact ⟨zs, F, hz, hL, ha⟩

end Tri
