import Mathlib.Analysis.SpecialFunctions.Trigonometric.Basic

/-!
# Specification of an orientation clamp that is computed with rounding errors
-/

namespace PathPlanning.Spec

/-- `c` is an orientation in `[-π, π]` equivalent to `θ`. -/
def Normalised (θ c : ℝ) : Prop := -Real.pi ≤ c ∧ c ≤ Real.pi ∧ ∃ k : ℤ, c = θ + k * (2 * Real.pi)

/-- The clamp of `θ`, as computed, is off by at most `e` from an equivalent orientation in `[-π, π]`. -/
def ClampedNear (clamp : ℝ → ℝ) (e θ : ℝ) : Prop := ∃ c, Normalised θ c ∧ |clamp θ - c| ≤ e

/-- Position of the orientation `c` of `[-π, π]` on the circle, counted in sectors of which there are `n`. -/
noncomputable def sectorPos (n : Nat) (c : ℝ) : ℝ := (c + Real.pi) / (2 * Real.pi) * n

end PathPlanning.Spec
