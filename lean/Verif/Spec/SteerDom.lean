import Verif.Spec.SteerSearch

/-!
# Specification: roads and rival roads of a steering search
-/

namespace PathPlanning.Spec

/-- A road: it begins at a start pose; every further pose is one the neighbourhood offers at the pose before it (`next k ps c k'`: at
pose `k`, reached by the poses `ps`, latest first, it offers `k'` for cost `c`), lies on the padded map (without the outermost
left and bottom lines), and the line test accepts the way there.  The second component is the sum of the costs times the resolution. -/
inductive Road (next : SNode → List SNode → ℝ → SNode → Prop) (m : GridMap ℝ) (skips : Nat) (start goal : Pose) :
    List SNode → ℝ → Prop
  | start {k : SNode} : StartPose start goal k → Road next m skips start goal [k] 0
  | step {l : List SNode} {k k' : SNode} {c d : ℝ} : Road next m skips start goal (l ++ [k]) d → next k l.reverse c k' →
      InsidePad m.width m.height k' → LineOk m skips k k' → Road next m skips start goal (l ++ [k] ++ [k']) (d + c * m.res)

/-- The road `l ++ [k]` of cost `D` has a rival: another road, at most as expensive, that ends in the same state (cell, driving
direction, heading slot) with another pose, or having come by other poses, of which the last `h` count.  (The
start counts as a pose of heading slot 15.) -/
def RoadRival (clamp : ℝ → ℝ) (next : SNode → List SNode → ℝ → SNode → Prop) (m : GridMap ℝ) (skips : Nat) (start goal : Pose)
    (h : Nat) (l : List SNode) (k : SNode) (D : ℝ) : Prop :=
  ∃ l2 k2 D2, Road next m skips start goal (l2 ++ [k2]) D2 ∧ D2 ≤ D ∧
    (SameState clamp k2 k ∨ (l2 = [] ∧ ⌊k2.x⌋ = ⌊k.x⌋ ∧ ⌊k2.y⌋ = ⌊k.y⌋ ∧ k2.forward = k.forward ∧
      angle2index clamp 32 k.theta = .ok 15)) ∧
    ¬ (k2 = k ∧ l2.reverse.take h = l.reverse.take h)

/-- Why a steering search may overlook the road `q` of cost `D` into the goal region (`isg`): a part of it has a rival, or the goal pose has been
replaced by a reached pose of its cell (heading slot 15) that does not accept the end of the road. -/
def Overlooked (clamp : ℝ → ℝ) (next : SNode → List SNode → ℝ → SNode → Prop) (adv : SNode → ℝ → SNode → Prop)
    (isg : SNode → SNode → Option SNode → Bool) (m : GridMap ℝ) (skips : Nat) (start goal : Pose) (h : Nat)
    (q : List SNode) (D : ℝ) : Prop :=
  (∃ l k D1, (l ++ [k]) <+: q ∧ Road next m skips start goal (l ++ [k]) D1 ∧ D1 ≤ D ∧
    RoadRival clamp next m skips start goal h l k D1) ∨
  ∃ kg, RoadReach adv m skips start goal kg ∧ ⌊kg.x⌋ = ⌊goal.x⌋ ∧ ⌊kg.y⌋ = ⌊goal.y⌋ ∧
    angle2index clamp 32 kg.theta = .ok 15 ∧ kg ≠ goalNode goal kg.forward ∧
    ∃ l k, q = l ++ [k] ∧ isg kg k l.getLast? = false

/-- The road ends at a pose that passes the goal test against the requested goal. -/
def RoadToGoal (isg : SNode → SNode → Option SNode → Bool) (goal : Pose) (q : List SNode) : Prop :=
  ∃ l k f, q = l ++ [k] ∧ isg (goalNode goal f) k l.getLast? = true

end PathPlanning.Spec
