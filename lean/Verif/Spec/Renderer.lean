import Mathlib.Algebra.Order.Field.Basic

/-!
# Specification: where a map cell appears in the rendered image

An image of `rows` pixel rows shows every cell as a square of `n × n` pixels, row 0 of the map at the bottom.
-/

namespace PathPlanning.Spec

/-- Pixel `(r, c)` (row, column) belongs to the square of the cell `(x, y)`. -/
def InSquare (n rows : Int) (x y r c : Int) : Prop :=
  (n * x ≤ c ∧ c < n * x + n) ∧ (rows - n * y - n ≤ r ∧ r < rows - n * y)

/-- Pixel on the raster between the cells: first column or lowest row of a square. -/
def OnRaster (n rows : Int) (r c : Int) : Prop := n ∣ c ∨ n ∣ rows - 1 - r

end PathPlanning.Spec
