import Mathlib.Data.Real.Basic

/-!
# Specification: where a cell of the map and a point of a curve appear in the picture

One pixel per cell, row 0 of the map at the bottom.
-/

namespace PathPlanning.Spec

/-- Column and row of the pixel showing cell `(x, y)` in a picture with `rows` rows. -/
def pixelOf (rows x y : Int) : Int × Int := (x, rows - 1 - y)

/-- The pixel lies inside of a picture of `rows × cols` pixels. -/
def InPicture (rows cols : Int) (p : Int × Int) : Prop := 0 ≤ p.1 ∧ p.1 < cols ∧ 0 ≤ p.2 ∧ p.2 < rows

/-- The corners of the arrow for a pose `(x, y, θ)`: the point `a` ahead of it and `b` to its left. -/
noncomputable def ahead (x y c s a b : ℝ) : ℝ × ℝ := (x + a * c - b * s, y + a * s + b * c)

end PathPlanning.Spec
