import Verif.Spec.Float
import Verif.Model.GridSearch
import Mathlib.Order.Lattice

/-!
# The numbers of the program as rounded numbers

`F.D` are the representable numbers of a format `F` with the arithmetic of the processor: every operation is the exact
one followed by rounding.  With these instances `gridAlgo` of `Model/GridSearch.lean` is the search on a grid in floating
point arithmetic, without further changes.  Overflow, underflow, NaN and infinities are not modelled.
-/

namespace PathPlanning
open Spec

/-- A floating point format: a rounding with unit roundoff `u`. -/
structure Fmt where
  fl : ℝ → ℝ
  u : ℝ
  ok : Rounding fl u
  u_lt : u < 1

namespace Fmt

theorem fl_zero (F : Fmt) : F.fl 0 = 0 := by
  have := F.ok.err 0
  simp only [sub_zero, abs_zero, mul_zero] at this
  exact abs_eq_zero.1 (le_antisymm this (abs_nonneg _))

theorem u_nonneg (F : Fmt) : 0 ≤ F.u := by
  have := F.ok.err 1
  rw [abs_one, mul_one] at this
  exact (abs_nonneg _).trans this

/-- Representable numbers: the values of a variable of type `double`. -/
def D (F : Fmt) : Type := {x : ℝ // F.fl x = x}

noncomputable instance (F : Fmt) : LinearOrder F.D := inferInstanceAs (LinearOrder {x : ℝ // F.fl x = x})

/-- The value of an expression whose exact value is `x`. -/
def rd (F : Fmt) (x : ℝ) : F.D := ⟨F.fl x, F.ok.idem x⟩

noncomputable instance (F : Fmt) : Zero F.D := ⟨⟨0, F.fl_zero⟩⟩
/-- `a + b` -/
noncomputable instance (F : Fmt) : Add F.D := ⟨fun a b => F.rd (a.1 + b.1)⟩
/-- `a * b` -/
noncomputable instance (F : Fmt) : Mul F.D := ⟨fun a b => F.rd (a.1 * b.1)⟩
/-- Conversion of `int` to `double`. -/
noncomputable instance (F : Fmt) : IntCast F.D := ⟨fun n => F.rd n⟩

end Fmt

/-- `M_SQRT2` (DirectNeighborhood.hpp:131 etc.): the representable number nearest to the square root of two. -/
noncomputable def sqrt2F (F : Fmt) : F.D := F.rd (Real.sqrt 2)

/-- `HeuristicL2::compute` (Heuristics.hpp:199-201): `res * hypot(dx, dy)`; differences of cell coordinates are exact,
`hypot` is taken to be correctly rounded. -/
noncomputable def hL2F (F : Fmt) {w h : Nat} (res : F.D) (n g : GNode w h) : F.D :=
  res * F.rd (Real.sqrt (dX n g ^ 2 + dY n g ^ 2))

/-- `NoHeuristic`. -/
noncomputable def hZeroF (F : Fmt) {w h : Nat} (_n _g : GNode w h) : F.D := 0

end PathPlanning
