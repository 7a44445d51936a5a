import Verif.Spec.HybridDuring
import Verif.Spec.HybridRS
import Verif.Spec.SteerDuringMap

/-!
# Specification: steering searches with Reeds-Shepp expansion on a grid map that changes (C121)
-/

noncomputable section
namespace PathPlanning.Spec

/-- A path found in iteration number `i`, whose last part is an expansion: at least one step of the neighbourhood leads from the start
to the forward node `k`; every step was accepted by the map of one of the iterations `0 … i`.  From `k` the way points `e :: es` lead to
the goal pose; the cells of this motion have been tested on the map of iteration `i` itself. -/
def HybridPathAt (clamp : ℝ → ℝ) (adv : SNode → ℝ → SNode → Prop) (m : GridMap ℝ) (datas : Nat → List UInt8) (i skips : Nat)
    (start goal : Pose) (ex : Prop) (q : List SNode) : Prop :=
  ∃ l k e es kg, q = l ++ [{ k with theta := e.theta }] ++ (e :: es).map wayNode ∧ l ≠ [] ∧
    (∃ k0, l.head? = some k0 ∧ StartPose start goal k0) ∧
    (∀ y ∈ l ++ [k], ReachAt adv m datas (i + 1) skips start goal y) ∧
    (∀ x y, [x, y] <:+: l ++ [k] → ∃ x' c, SameState clamp x' x ∧ ReachAt adv m datas (i + 1) skips start goal x' ∧
      RoadStepAt adv m datas (i + 1) skips x' c y) ∧
    (∀ x y, [x, y] <+: l ++ [k] → ∃ c, RoadStepAt adv m datas (i + 1) skips x c y) ∧
    (ex → ∀ x y, [x, y] <:+: l ++ [k] → ∃ c, RoadStepAt adv m datas (i + 1) skips x c y) ∧
    l.length < (m.width + 63) * (m.height + 63) * 64 ∧
    ptOccupied m ⌊start.x⌋ ⌊start.y⌋ = .ok false ∧ ptOccupied m ⌊goal.x⌋ ⌊goal.y⌋ = .ok false ∧
    k.forward = true ∧ GoalPoseAt clamp adv m datas (i + 1) skips start goal kg ∧ SameConfig e (poseOf k) ∧
    ForwardWay (shown m (datas i)) (poseOf k) (poseOf kg) (e :: es)

end PathPlanning.Spec
