import Verif.Spec.HybridClearance
import Verif.Spec.HybridHistory

/-!
# Specification: driving along the paths of later searches without touching an obstacle
-/

noncomputable section
namespace PathPlanning.Spec

/-- A path of a later search without expansion that can be driven safely: it begins at a start pose of this search, and every stretch is
safe from a pose in the state of the pose before - from this pose itself, for the first one. -/
def SafeLaterPath (clamp : ℝ → ℝ) (Start : SNode → Prop) (safe : SNode → SNode → Prop) (q : List SNode) : Prop :=
  (∃ k0, q.head? = some k0 ∧ Start k0) ∧
    (∀ x y, [x, y] <:+: q → ∃ x', SameState clamp x' x ∧ safe x' y) ∧ ∀ x y, [x, y] <+: q → safe x y

/-- The same with an expansion as last part. -/
def SafeLaterHybridPath (clamp : ℝ → ℝ) (adv : SNode → ℝ → SNode → Prop) (m : GridMap ℝ) (skips : Nat) (Start : SNode → Prop)
    (goal : Pose) (safe : SNode → SNode → Prop) (obstacle : Int × Int → Prop) (q : List SNode) : Prop :=
  ∃ l k e es kg, q = l ++ [{ k with theta := e.theta }] ++ (e :: es).map wayNode ∧ l ≠ [] ∧ SameConfig e (poseOf k) ∧
    SafeLaterPath clamp Start safe (l ++ [k]) ∧
    LaterGoal clamp adv m skips Start goal kg ∧ SafeWay m obstacle k kg (e :: es)

/-- The expansion leads from the start pose itself safely to the goal; its way points are the end of the path (all of it, if nothing of
an earlier search is put before them). -/
def SafeLaterStartWay (clamp : ℝ → ℝ) (adv : SNode → ℝ → SNode → Prop) (m : GridMap ℝ) (skips : Nat) (Start : SNode → Prop)
    (goal : Pose) (obstacle : Int × Int → Prop) (q : List SNode) : Prop :=
  ∃ k e es kg, Start k ∧ SameConfig e (poseOf k) ∧ LaterGoal clamp adv m skips Start goal kg ∧
    SafeWay m obstacle k kg (e :: es) ∧
    (q = (e :: es).map wayNode ∨ ∃ l, q = l ++ [{ k with theta := e.theta }] ++ (e :: es).map wayNode)

end PathPlanning.Spec
