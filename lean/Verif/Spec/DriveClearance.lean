import Verif.Spec.Clearance
import Verif.Spec.Steering
import Mathlib.Algebra.Order.Floor.Ring

/-!
# Specification: points of a driven stretch, and how far an arc bulges from its chord
-/

noncomputable section

namespace PathPlanning.Spec

/-- The point `p` lies on the stretch driven from `a`: `ds` metres with steering angle `φ` in direction
`dir`. -/
def OnDrive (L res φ dir ds : ℝ) (a : SNode) (p : P2) : Prop :=
  ∃ (x y θ : ℝ → ℝ) (s : ℝ), BicycleMotion L res φ dir x y θ ∧ x 0 = a.x ∧ y 0 = a.y ∧ θ 0 = a.theta ∧
    0 ≤ s ∧ s ≤ ds ∧ p.x = x s ∧ p.y = y s

/-- `ds² |tan φ| / (8 L)` metres in whole cells, rounded up: how far an arc of length `ds` bulges from
its chord. -/
def arcMargin (L res φ ds : ℝ) : Int := ⌈ds ^ 2 * abs (Real.tan φ) / (8 * L * res)⌉

/-- The cell is not an occupied cell of the map (it may lie outside of the map). -/
def NotOccupied (m : GridMap ℝ) (c : Int × Int) : Prop :=
  m.isInMap c.1 c.2 = true → m.isOccupied ⟨c.1.toNat, c.2.toNat⟩ = .ok false

/-- The pose is more than 32 cells away from the right and the upper border (and at most 32 outside of the
others): only there the line test looks at the line. -/
def FarFromEdge (m : GridMap ℝ) (k : SNode) : Prop := m.isInMap (⌊k.x⌋ + 32) (⌊k.y⌋ + 32) = true

/-- Everything within `d` rows and columns of an obstacle is an occupied cell of the map. -/
def Inflated (m : GridMap ℝ) (d : Int) (obstacle : Int × Int → Prop) : Prop :=
  ∀ o c, obstacle o → CellsWithin d o c →
    m.isInMap c.1 c.2 = true ∧ m.isOccupied ⟨c.1.toNat, c.2.toNat⟩ = .ok true

end PathPlanning.Spec
