import Verif.Model.Vec

/-!
# What a robot footprint is (independent of the construction in the code)
-/

noncomputable section

namespace PathPlanning.Spec

/-- The point with robot coordinates `(u, v)` (ahead, to the left) for a robot at the origin with
orientation `theta`, in map cells. -/
def robotPt (theta u v : ℝ) : P2 :=
  ⟨u * Real.cos theta - v * Real.sin theta, u * Real.sin theta + v * Real.cos theta⟩

/-- The cell offset of a point: both coordinates without their fractional part. -/
def cellOf (p : P2) : Int × Int := (truncC p.x, truncC p.y)

/-- The cell `c` contains a point of the robot's rectangle: `backward ≤ u ≤ forward`,
`|v| ≤ width/2`. -/
def InFootprint (forward backward width theta : ℝ) (c : Int × Int) : Prop :=
  ∃ u v : ℝ, backward ≤ u ∧ u ≤ forward ∧ |v| ≤ width / 2 ∧ c = cellOf (robotPt theta u v)

/-- `t` is the angle `theta` reduced to `[0, 2π)`. -/
def Reduced (theta t : ℝ) : Prop :=
  0 ≤ t ∧ t < 2 * Real.pi ∧ ∃ k : Int, t = theta + k * (2 * Real.pi)

end PathPlanning.Spec
