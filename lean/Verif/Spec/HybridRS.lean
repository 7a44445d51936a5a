import Verif.Spec.HybridSearch
import Verif.Spec.SteerSearch
import Verif.Spec.Expansion
import Verif.Spec.MotionClear

/-!
# Specification: steering searches with Reeds-Shepp expansion
-/

noncomputable section
namespace PathPlanning.Spec

/-- `ps` are the way points (15 cm apart) of a forward motion "turn, straight, turn" with radius 1.3 m and turned angles below 180
degrees in total, which leads a car exactly from `p` to `q`, and whose cells - driven from `p` - have been tested. -/
def ForwardWay (m : GridMap ℝ) (p q : Pose) (ps : List Pose) : Prop :=
  ∃ o o' t1 L t3, 0 ≤ t1 ∧ 0 ≤ L ∧ 0 ≤ t3 ∧ t1 + t3 < Real.pi ∧
    SameConfig (driveAll (13 / 10 / m.res) p (cscForward o o' t1 L t3)) q ∧
    MotionClear (Sampling.mapIf m) (13 / 10 / m.res) p (cscForward o o' t1 L t3) ∧
    List.Forall₂ SameConfig ps (waypoints (13 / 10 / m.res) (15 / 100 / m.res) p (cscForward o o' t1 L t3))

/-- The pose of a node. -/
def poseOf (k : SNode) : Pose := ⟨k.x, k.y, k.theta⟩

/-- A way point as node of a path: driven to forwards, with steering angle 0. -/
def wayNode (p : Pose) : SNode := ⟨p.x, p.y, p.theta, true, 0, 0, 0⟩

/-- A path whose last part is an expansion: at least one step of the neighbourhood leads from the start to the forward node `k`, from
there the way points `e :: es` lead to the goal pose.  `k` is shown with the heading of `e` (the same direction). -/
def HybridPath (clamp : ℝ → ℝ) (adv : SNode → ℝ → SNode → Prop) (m : GridMap ℝ) (skips : Nat) (start goal : Pose) (ex : Prop)
    (q : List SNode) : Prop :=
  ∃ l k e es kg, q = l ++ [{ k with theta := e.theta }] ++ (e :: es).map wayNode ∧ l ≠ [] ∧
    (∃ k0, l.head? = some k0 ∧ StartPose start goal k0) ∧
    (∀ y ∈ l ++ [k], RoadReach adv m skips start goal y) ∧
    (∀ x y, [x, y] <:+: l ++ [k] → ∃ x' c, SameState clamp x' x ∧ RoadReach adv m skips start goal x' ∧ RoadStep adv m skips x' c y) ∧
    (∀ x y, [x, y] <+: l ++ [k] → ∃ c, RoadStep adv m skips x c y) ∧
    (ex → ∀ x y, [x, y] <:+: l ++ [k] → ∃ c, RoadStep adv m skips x c y) ∧
    l.length < (m.width + 63) * (m.height + 63) * 64 ∧
    ptOccupied m ⌊start.x⌋ ⌊start.y⌋ = .ok false ∧ ptOccupied m ⌊goal.x⌋ ⌊goal.y⌋ = .ok false ∧
    k.forward = true ∧ GoalPose clamp adv m skips start goal kg ∧ SameConfig e (poseOf k) ∧
    ForwardWay m (poseOf k) (poseOf kg) (e :: es)

end PathPlanning.Spec
