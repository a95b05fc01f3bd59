import Mathlib.Tactic.Linarith
import Verif.Spec.Geometry

/-!
# What the trapezoidation needs to know about the plane

`Plane` collects the facts about the points and edges of a valid input on which the correctness of the
trapezoidation rests.  Points have a height `h`, in the order of the library; `X e v` is the abscissa of
edge `e` at the height of the point `v`.
-/

set_option linter.unusedSectionVars false

namespace Tri

variable {K : Type} [Field K] [LinearOrder K] [IsStrictOrderedRing K]

attribute [local instance] exact

/-- Points and edges in general position. -/
structure Plane (K : Type) [Field K] [LinearOrder K] [IsStrictOrderedRing K] where
  U : Coords K → Prop
  E : Coords K × Coords K → Prop
  h : Coords K → K
  X : Coords K × Coords K → Coords K → K
  h_lt : ∀ {u v}, U u → U v → (below u v ↔ h u < h v)
  h_inj : ∀ {u v}, U u → U v → h u = h v → u = v
  lo_U : ∀ {e}, E e → U e.1
  hi_U : ∀ {e}, E e → U e.2
  E_lt : ∀ {e}, E e → h e.1 < h e.2
  X_lo : ∀ {e}, E e → X e e.1 = e.1.x
  X_hi : ∀ {e}, E e → X e e.2 = e.2.x
  X_ne : ∀ {e v}, E e → U v → h e.1 < h v → h v < h e.2 → X e v ≠ v.x
  nc : ∀ {e f u v}, E e → E f → e ≠ f → U u → U v → h e.1 ≤ h u → h u ≤ h e.2 → h f.1 ≤ h u →
    h u ≤ h f.2 → h e.1 ≤ h v → h v ≤ h e.2 → h f.1 ≤ h v → h v ≤ h f.2 → X e u < X f u → X e v ≤ X f v
  nc_eq : ∀ {e f v}, E e → E f → e ≠ f → U v → h e.1 ≤ h v → h v ≤ h e.2 → h f.1 ≤ h v → h v ≤ h f.2 →
    X e v = X f v → (v = e.1 ∨ v = e.2) ∧ (v = f.1 ∨ v = f.2)
  left_iff : ∀ {e v}, E e → U v → h e.1 < h v → h v < h e.2 →
    (isLeftOfLine e.1 e.2 v = true ↔ v.x < X e v)
  left_hi : ∀ {e f m}, E e → E f → e ≠ f → e.2 = f.2 → U m → h e.1 ≤ h m → h f.1 ≤ h m → h m < h e.2 →
    (isLeftOfLine e.1 e.2 f.1 = true ↔ X f m < X e m)
  left_lo : ∀ {e f m}, E e → E f → e ≠ f → e.1 = f.1 → U m → h m ≤ h e.2 → h m ≤ h f.2 → h e.1 < h m →
    (isLeftOfLine e.1 e.2 f.2 = true ↔ X f m < X e m)
  deg : ∀ {e f g v}, E e → E f → E g → (v = e.1 ∨ v = e.2) → (v = f.1 ∨ v = f.2) → (v = g.1 ∨ v = g.2) →
    e = f ∨ f = g ∨ e = g

namespace Plane

variable (P : Plane K)

/-- `v` is at a height at which `e` exists. -/
def In (e : Coords K × Coords K) (v : Coords K) : Prop := P.h e.1 ≤ P.h v ∧ P.h v ≤ P.h e.2

/-- `e` is left of `f` somewhere. -/
def Lt (e f : Coords K × Coords K) : Prop := ∃ u, P.U u ∧ P.In e u ∧ P.In f u ∧ P.X e u < P.X f u

variable {P}

theorem Lt.ne {e f : Coords K × Coords K} (h : P.Lt e f) : e ≠ f := by
  rintro rfl
  obtain ⟨u, -, -, -, h⟩ := h
  exact lt_irrefl _ h

theorem Lt.le {e f : Coords K × Coords K} (h : P.Lt e f) (he : P.E e) (hf : P.E f) {v : Coords K}
    (hv : P.U v) (h1 : P.In e v) (h2 : P.In f v) : P.X e v ≤ P.X f v := by
  have hne := h.ne
  obtain ⟨u, hu, i1, i2, hx⟩ := h
  exact P.nc he hf hne hu hv i1.1 i1.2 i2.1 i2.2 h1.1 h1.2 h2.1 h2.2 hx

theorem Lt.lt {e f : Coords K × Coords K} (h : P.Lt e f) (he : P.E e) (hf : P.E f) {v : Coords K}
    (hv : P.U v) (h1 : P.In e v) (h2 : P.In f v) (hn : v ≠ e.1 ∧ v ≠ e.2 ∨ v ≠ f.1 ∧ v ≠ f.2) :
    P.X e v < P.X f v := by
  rcases (h.le he hf hv h1 h2).lt_or_eq with h' | h'
  · exact h'
  · have := P.nc_eq he hf h.ne hv h1.1 h1.2 h2.1 h2.2 h'
    tauto

theorem ne_of_h {u v : Coords K} (h : P.h u < P.h v) : u ≠ v := by
  rintro rfl; exact lt_irrefl _ h

theorem ne_of_h' {u v : Coords K} (h : P.h u < P.h v) : v ≠ u := (ne_of_h h).symm

theorem In.lo {e : Coords K × Coords K} (he : P.E e) : P.In e e.1 := ⟨le_refl _, (P.E_lt he).le⟩

theorem In.hi {e : Coords K × Coords K} (he : P.E e) : P.In e e.2 := ⟨(P.E_lt he).le, le_refl _⟩

end Plane

end Tri
