import Verif.Model.Steering
import Mathlib.Analysis.SpecialFunctions.Trigonometric.Deriv

/-!
# Specification: motion of a car-like vehicle
-/

namespace PathPlanning.Spec

/-- A motion of the kinematic bicycle model, parametrised by the arc length `s` in metres: wheel base `L` (metres),
steering angle `φ`, `dir = 1` forwards, `-1` backwards; positions in cells of size `res` metres. -/
structure BicycleMotion (L res φ dir : ℝ) (x y θ : ℝ → ℝ) : Prop where
  dx : ∀ s, HasDerivAt x (dir * Real.cos (θ s) / res) s
  dy : ∀ s, HasDerivAt y (dir * Real.sin (θ s) / res) s
  dθ : ∀ s, HasDerivAt θ (dir * Real.tan φ / L) s

/-- Driving `ds` metres with steering angle `φ` (radians) in direction `dir` leads from `a` to `b`, headings modulo full
turns. -/
def DrivesTo (L res φ dir ds : ℝ) (a b : SNode) : Prop :=
  ∃ x y θ : ℝ → ℝ, BicycleMotion L res φ dir x y θ ∧
    x 0 = a.x ∧ y 0 = a.y ∧ θ 0 = a.theta ∧
    x ds = b.x ∧ y ds = b.y ∧ ∃ k : Int, b.theta = θ ds + k * (2 * Real.pi)

/-- Sign of the driving direction. -/
def driveSign (reversed forward : Bool) : ℝ := if forward = reversed then -1 else 1

/-- Euclidean distance of two nodes in cells. -/
noncomputable def nodeDist (a b : SNode) : ℝ := Real.sqrt ((a.x - b.x) ^ 2 + (a.y - b.y) ^ 2)

end PathPlanning.Spec
