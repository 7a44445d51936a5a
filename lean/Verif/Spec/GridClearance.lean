import Verif.Spec.Clearance
import Verif.Spec.GridPath
import Verif.Spec.Route
import Verif.Spec.DistTrans

/-!
# Specification: a disc moving along the straight lines between the centres of the cells of a path
-/

noncomputable section

namespace PathPlanning.Spec

/-- Centre of a cell, in cells. -/
def cellCentre (c : Int × Int) : P2 := ⟨(c.1 : ℝ) + 1 / 2, (c.2 : ℝ) + 1 / 2⟩

/-- `p` lies on the straight line from `a` to `b`. -/
def OnStep (a b p : P2) : Prop :=
  ∃ t : ℝ, 0 ≤ t ∧ t ≤ 1 ∧ p.x = a.x + t * (b.x - a.x) ∧ p.y = a.y + t * (b.y - a.y)

/-- `p` is passed when the cells of the list are visited one after the other, from centre to centre in straight lines. -/
def OnCellPath (l : List (Int × Int)) (p : P2) : Prop :=
  (∃ c ∈ l, p = cellCentre c) ∨ ∃ u v, [u, v] <:+: l ∧ OnStep (cellCentre u) (cellCentre v) p

/-- A disc of radius `r` (in cells) around `p` has a point in the cell. -/
def DiscMeets (r : ℝ) (p : P2) (c : Int × Int) : Prop :=
  ∃ z : P2, PtInCell z c ∧ (z.x - p.x) ^ 2 + (z.y - p.y) ^ 2 ≤ r ^ 2

/-- No obstacle cell lies within `d` rows and columns of the cell. -/
def FarFrom (d : Int) (obstacle : Int × Int → Prop) (c : Int × Int) : Prop := ∀ o, obstacle o → ¬ CellsWithin d o c

/-- A disc of radius `r` follows the path and never touches an obstacle cell. -/
def DiscClear (r : ℝ) (obstacle : Int × Int → Prop) (l : List (Int × Int)) : Prop :=
  ∀ p o, OnCellPath l p → obstacle o → ¬ DiscMeets r p o

/-- The radii the three neighbourhoods leave to a disc on a map grown by `d` cells: straight steps of width 1, steps of width 1 to the eight
neighbours, steps of width `D`. -/
def Fits (adj : Int × Int → Int × Int → Prop) (d : Int) (r : ℝ) : Prop :=
  0 ≤ d ∧ 0 ≤ r ∧ ((adj = Adj4 1 ∧ r < d + 1 / 2) ∨ (adj = Adj8 1 ∧ r < d + 1 / 2 ∧ r ^ 2 < 2 * (d : ℝ) ^ 2) ∨
    ∃ D : Int, 0 ≤ D ∧ (adj = Adj4 D ∨ adj = Adj8 D) ∧ r < d + (1 - D) / 2)

end PathPlanning.Spec
