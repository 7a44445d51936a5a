import Verif.Spec.HybridRS
import Verif.Spec.DriveClearance

/-!
# Specification: driving along a hybrid path without touching an obstacle
-/

noncomputable section
namespace PathPlanning.Spec

/-- The vehicle drives from `x` to `y` (one stretch with constant steering angle) and touches no cell with an obstacle. -/
def SafeDrive (L res φ dir ds : ℝ) (obstacle : Int × Int → Prop) (x y : SNode) : Prop :=
  DrivesTo L res φ dir ds x y ∧ ∀ p c, OnDrive L res φ dir ds x p → PtInCell p c → ¬ obstacle c

/-- A forward motion "turn, straight, turn" of radius 1.3 m leads the car from `k` to `kg` without touching a cell with an
obstacle, and `ps` are its way points, 15 cm apart. -/
def SafeWay (m : GridMap ℝ) (obstacle : Int × Int → Prop) (k kg : SNode) (ps : List Pose) : Prop :=
  ∃ o o' t1 L t3, 0 ≤ t1 ∧ 0 ≤ L ∧ 0 ≤ t3 ∧ t1 + t3 < Real.pi ∧
    SameConfig (driveAll (13 / 10 / m.res) (poseOf k) (cscForward o o' t1 L t3)) (poseOf kg) ∧
    List.Forall₂ SameConfig ps (waypoints (13 / 10 / m.res) (15 / 100 / m.res) (poseOf k) (cscForward o o' t1 L t3)) ∧
    ∀ p c, OnMotion (13 / 10 / m.res) (poseOf k) (cscForward o o' t1 L t3) p → PtInCell p c → ¬ obstacle c

/-- A path that ends with an expansion and can be driven without touching an obstacle.  `safe x y` is a safe stretch; the
stretch begins at a pose in the state of the pose before - at this pose itself, for the first one and if `ex`. -/
def SafeHybridPath (clamp : ℝ → ℝ) (adv : SNode → ℝ → SNode → Prop) (m : GridMap ℝ) (skips : Nat) (start goal : Pose) (ex : Prop)
    (safe : SNode → SNode → Prop) (obstacle : Int × Int → Prop) (q : List SNode) : Prop :=
  ∃ l k e es kg, q = l ++ [{ k with theta := e.theta }] ++ (e :: es).map wayNode ∧ l ≠ [] ∧ SameConfig e (poseOf k) ∧
    (∃ k0, l.head? = some k0 ∧ StartPose start goal k0) ∧
    (∀ x y, [x, y] <:+: l ++ [k] → ∃ x', SameState clamp x' x ∧ (ex → x' = x) ∧ safe x' y) ∧
    (∀ x y, [x, y] <+: l ++ [k] → safe x y) ∧
    GoalPose clamp adv m skips start goal kg ∧ SafeWay m obstacle k kg (e :: es)

end PathPlanning.Spec
