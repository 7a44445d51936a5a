import Mathlib.Analysis.SpecialFunctions.Pow.Real
import Mathlib.Data.Int.Log
import Mathlib.Algebra.Order.Round

/-!
# Specification of rounded arithmetic

What IEEE 754 promises of an operation on `double`: the result is the exact result rounded to a representable number.
`Rounding` lists the properties of such a rounding that are used; `binary p` is the rounding to nearest with `p` binary
digits (53 for `double`, 24 for `float`) and unbounded exponents.  Overflow and underflow are not modelled: the numbers of
this library (coordinates and costs in metres, at most a few thousand additions) stay far from both.
-/

namespace PathPlanning.Spec

/-- `fl` rounds real numbers to representable ones with relative error at most `u`. -/
structure Rounding (fl : ℝ → ℝ) (u : ℝ) : Prop where
  /-- order is preserved -/
  mono : Monotone fl
  /-- representable numbers (values of `fl`) are not changed -/
  idem : ∀ x, fl (fl x) = fl x
  /-- relative error -/
  err : ∀ x, |fl x - x| ≤ u * |x|

/-- Rounding to a whole number: monotone, exact for whole numbers, off by at most one half.  Ties may be broken either
way, in particular to even. -/
structure WholeRounding (r : ℝ → ℤ) : Prop where
  mono : Monotone r
  int : ∀ n : ℤ, r n = n
  err : ∀ x, |(r x : ℝ) - x| ≤ 1 / 2

/-- Exponent of the last digit of a `p`-digit number of the size of `x > 0`. -/
noncomputable def lastExp (p : ℕ) (x : ℝ) : ℤ := Int.log 2 x - (p - 1)

/-- Nearest number with `p` binary digits, for `x > 0`. -/
noncomputable def binaryPos (r : ℝ → ℤ) (p : ℕ) (x : ℝ) : ℝ := r (x / 2 ^ lastExp p x) * 2 ^ lastExp p x

/-- Nearest number with `p` binary digits; `r` decides ties. -/
noncomputable def binary (r : ℝ → ℤ) (p : ℕ) (x : ℝ) : ℝ :=
  if 0 < x then binaryPos r p x else if x < 0 then - binaryPos r p (-x) else 0

end PathPlanning.Spec
