import Verif.Spec.Steering

/-!
# Specification: driving along a path
-/

namespace PathPlanning.Spec

/-- Every pose of the path says how to *leave* it: driving from it with its own steering angle and in its own direction for `ds`
metres leads exactly to the next pose. -/
def CommandsLeave (L res ds : ℝ) (q : List SNode) : Prop :=
  ∀ x y, [x, y] <:+: q → DrivesTo L res ((x.steer : ℝ) / 180 * Real.pi) (driveSign false x.forward) ds x y

/-- Every pose of the path (but the first) says how it was *reached*: driving from the pose before with the steering angle and in the
direction of the new pose. -/
def CommandsReach (L res ds : ℝ) (q : List SNode) : Prop :=
  ∀ x y, [x, y] <:+: q → DrivesTo L res ((y.steer : ℝ) / 180 * Real.pi) (driveSign false y.forward) ds x y

end PathPlanning.Spec
