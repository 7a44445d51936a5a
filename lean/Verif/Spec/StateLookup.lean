import Mathlib.Analysis.SpecialFunctions.Trigonometric.Basic

/-!
# Specification: which state a pose belongs to

Independent of the code: a pose is on the map if its position lies in the rectangle
`[0,w) × [0,h)` of the cells; it belongs to the cell of which its position lies in the unit
square; the orientations are cut into `n` equal sectors, counted from `-π`.
-/

namespace PathPlanning.Spec

/-- The position is on a map of `w × h` unit cells. -/
def OnCells (w h : ℕ) (x y : ℝ) : Prop := 0 ≤ x ∧ x < w ∧ 0 ≤ y ∧ y < h

/-- The position lies in the unit square of cell `(i, j)`. -/
def InUnitCell (i j : ℕ) (x y : ℝ) : Prop := (i : ℝ) ≤ x ∧ x < i + 1 ∧ (j : ℝ) ≤ y ∧ y < j + 1

/-- Modulo full turns the angle `θ` lies in the sector number `t` of `n` sectors of width `2π/n`,
counted counterclockwise from `-π`; `t = n` is the angle `π` itself. -/
def InSector (n t : ℕ) (θ : ℝ) : Prop :=
  ∃ k : ℤ, θ + k * (2 * Real.pi) ≤ Real.pi ∧
    -Real.pi + 2 * Real.pi / n * t ≤ θ + k * (2 * Real.pi) ∧
    θ + k * (2 * Real.pi) < -Real.pi + 2 * Real.pi / n * (t + 1)

end PathPlanning.Spec
