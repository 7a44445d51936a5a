import Verif.Model.Table

/-!
# Specification: what a cost table holds

A table file with dimension `d` and `n` angles is meant to hold, for every layer `a < n` and every cell
`(x, y)` of the `d × d` square, the cost of driving to the middle of the square (heading 0) from cell
`(x, y)` with heading `a · 2π/n`; layer by layer, row by row, each layer preceded by its heading.
-/

noncomputable section

namespace PathPlanning.Spec

/-- The entry of a file for layer `a`, row `y`, column `x`. -/
def tableEntry (f : Table.File) (a x y : Nat) : ℝ :=
  f.body.getD (a * (f.dim * f.dim + 1) + 1 + (y * f.dim + x)) 0

/-- Position of `current` in the frame of `goal`, in cells of the search map. -/
def relX (current goal : Pose) : ℝ :=
  (current.x - goal.x) * Real.cos goal.theta + (current.y - goal.y) * Real.sin goal.theta
/-- See `relX`. -/
def relY (current goal : Pose) : ℝ :=
  (current.y - goal.y) * Real.cos goal.theta - (current.x - goal.x) * Real.sin goal.theta

end PathPlanning.Spec
