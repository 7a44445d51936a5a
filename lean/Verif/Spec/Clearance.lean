import Verif.Model.Vec

/-!
# Specification: a point and a cell of the grid

Cell `(i,j)` is the square `[i,i+1) × [j,j+1)` of the plane (coordinates in cells), so a point lies in
the cell of its rounded-down coordinates.
-/

noncomputable section

namespace PathPlanning.Spec

/-- The point lies in the cell. -/
def PtInCell (p : P2) (c : Int × Int) : Prop :=
  (c.1 : ℝ) ≤ p.x ∧ p.x < c.1 + 1 ∧ (c.2 : ℝ) ≤ p.y ∧ p.y < c.2 + 1

/-- Two cells at most `d` rows and `d` columns apart. -/
def CellsWithin (d : Int) (a b : Int × Int) : Prop := |a.1 - b.1| ≤ d ∧ |a.2 - b.2| ≤ d

end PathPlanning.Spec
