import Verif.Model.SteerSearch
import Verif.Spec.KinSearch
import Verif.Spec.Steering
import Verif.Props.DynLine

/-!
# Specification of searches with a steering neighbourhood
-/

namespace PathPlanning.Spec

/-- The pose lies on the padded map, but not on its outermost lines to the left and at the bottom. -/
def InsidePad (w h : Nat) (k : SNode) : Prop :=
  -31 ≤ ⌊k.x⌋ ∧ ⌊k.x⌋ < w + 32 ∧ -31 ≤ ⌊k.y⌋ ∧ ⌊k.y⌋ < h + 32

/-- The pose lies on one of these lines. -/
def OnEdge (w h : Nat) (k : SNode) : Prop :=
  -32 ≤ ⌊k.x⌋ ∧ ⌊k.x⌋ < w + 32 ∧ -32 ≤ ⌊k.y⌋ ∧ ⌊k.y⌋ < h + 32 ∧ (⌊k.x⌋ = -32 ∨ ⌊k.y⌋ = -32)

/-- The poses agree in cell, driving direction and heading slot (32 slots). -/
def SameState (clamp : ℝ → ℝ) (a b : SNode) : Prop :=
  ⌊a.x⌋ = ⌊b.x⌋ ∧ ⌊a.y⌋ = ⌊b.y⌋ ∧ a.forward = b.forward ∧
    angle2index clamp 32 a.theta = angle2index clamp 32 b.theta

/-- A map (and the length `D`, in cells, of the longest step) for which all integer arithmetic stays in range. -/
structure SteerMapOk (m : GridMap ℝ) (D : ℝ) : Prop where
  size : m.width * m.height < 2 ^ 32
  len : m.width * m.height ≤ m.data.length
  w : (m.width : ℝ) + 64 + D < 2 ^ 31
  h : (m.height : ℝ) + 64 + D < 2 ^ 31
  D : 0 ≤ D
  res : 0 ≤ m.res

/-- The coordinates fit into an `int`. -/
def IntPose (p : Pose) : Prop := -2147483648 ≤ ⌊p.x⌋ ∧ ⌊p.x⌋ < 2147483648 ∧ -2147483648 ≤ ⌊p.y⌋ ∧ ⌊p.y⌋ < 2147483648

end PathPlanning.Spec

namespace PathPlanning.Spec

/-- The cells the line test of the map manager looks at are not occupied: the cell of the start pose (coordinates truncated),
and, if both poses are more than 32 cells away from the upper right border, every `(skips+1)`-th cell of the digital line
between them. -/
def LineOk (m : GridMap ℝ) (skips : Nat) (k k' : SNode) : Prop :=
  ptFreeOrUnknown m (truncC k.x) (truncC k.y) = .ok true ∧
  (m.isInMap (⌊k.x⌋ + 32) (⌊k.y⌋ + 32) = true → m.isInMap (⌊k'.x⌋ + 32) (⌊k'.y⌋ + 32) = true →
    ∀ z, Tested skips m k.x k.y k'.x k'.y z → ptFreeOrUnknown m z.1 z.2 = .ok true)

/-- What `DynamicSteeringNeighborhood` offers at pose `k`. -/
def DynAdv (clamp : ℝ → ℝ) (P : DynP) (so : SOpts) (k : SNode) (c : ℝ) (k' : SNode) : Prop :=
  ∃ i step : Nat, i < 6 ∧ (P.allowForward = false → 3 ≤ i) ∧ (P.allowBackward = false → i < 3) ∧ step ≤ P.steerSteps ∧
    dynAdvance clamp P so k i step = some (c, k') ∧ 0 ≤ c

/-- What `SteeringNeighborhood` offers at pose `k` (for some predecessors `ps` and some content of an uninitialised
variable). -/
def SteerAdv (clamp : ℝ → ℝ) (P : SteerP) (so : SOpts) (k : SNode) (c : ℝ) (k' : SNode) : Prop :=
  ∃ (i step : Nat) (g : Int) (ps : List SNode), i < P.size ∧ step ≤ P.steerSteps ∧
    advance clamp P so g k ps i step = some (c, k') ∧ 0 ≤ c

/-- A step the search may take: the neighbourhood (`adv`) offers it, it ends on the padded map, and the line test
succeeds. -/
def RoadStep (adv : SNode → ℝ → SNode → Prop) (m : GridMap ℝ) (skips : Nat) (k : SNode) (c : ℝ) (k' : SNode) : Prop :=
  adv k c k' ∧ (InsidePad m.width m.height k' ∨ OnEdge m.width m.height k') ∧ LineOk m skips k k'

/-- The pose with which the search begins: the lower left corner of the cell of the requested start, with the requested
heading - but the heading of the goal, if the goal is in the same cell. -/
def StartPose (start goal : Pose) (k : SNode) : Prop :=
  k.x = ⌊start.x⌋ ∧ k.y = ⌊start.y⌋ ∧ k.steer = 0 ∧ k.custom = 0 ∧ k.depth = 0 ∧
    k.theta = if ⌊start.x⌋ = ⌊goal.x⌋ ∧ ⌊start.y⌋ = ⌊goal.y⌋ then goal.theta else start.theta

/-- Poses that can be reached by such steps. -/
inductive RoadReach (adv : SNode → ℝ → SNode → Prop) (m : GridMap ℝ) (skips : Nat) (start goal : Pose) : SNode → Prop
  | start {k} : StartPose start goal k → RoadReach adv m skips start goal k
  | step {k c k'} : RoadReach adv m skips start goal k → RoadStep adv m skips k c k' → InsidePad m.width m.height k' →
      RoadReach adv m skips start goal k'

/-- The pose the goal test compares with: the corner of the cell of the requested goal, with the requested heading - or a
reached pose in this cell with a heading in slot 15 (around 0), whatever the requested heading. -/
def GoalPose (clamp : ℝ → ℝ) (adv : SNode → ℝ → SNode → Prop) (m : GridMap ℝ) (skips : Nat) (start goal : Pose)
    (k : SNode) : Prop :=
  (k.x = ⌊goal.x⌋ ∧ k.y = ⌊goal.y⌋ ∧ k.theta = goal.theta ∧ k.steer = 0 ∧ k.custom = 0 ∧ k.depth = 0) ∨
  (RoadReach adv m skips start goal k ∧ ⌊k.x⌋ = ⌊goal.x⌋ ∧ ⌊k.y⌋ = ⌊goal.y⌋ ∧ angle2index clamp 32 k.theta = .ok 15)

/-- The pose the goal test compares with at the beginning. -/
noncomputable def goalNode (goal : Pose) (f : Bool) : SNode := ⟨⌊goal.x⌋, ⌊goal.y⌋, goal.theta, f, 0, 0, 0⟩

/-- A set `T` of poses that contains the start and cannot be left - up to the size of the cells - by steps of the
neighbourhood, and of which no pose reaches the goal. -/
structure DeadEnd (clamp : ℝ → ℝ) (adv : SNode → ℝ → SNode → Prop) (m : GridMap ℝ) (skips : Nat)
    (next : SNode → ℝ → SNode → Prop) (isg : SNode → SNode → Option SNode → Bool) (start goal : Pose)
    (T : SNode → Prop) : Prop where
  /-- both driving directions at the start, unless it is occupied -/
  init : ptOccupied m ⌊start.x⌋ ⌊start.y⌋ = .ok false → ∀ f, ∃ k, T k ∧ StartPose start goal k ∧ k.forward = f
  /-- only reachable poses -/
  reach : ∀ k, T k → RoadReach adv m skips start goal k
  /-- every step leads to a state of which a pose is in the set, or back to the start (which is stored with heading slot 15) -/
  closed : ∀ k c k', T k → next k c k' → RoadStep adv m skips k c k' → InsidePad m.width m.height k' →
    ∃ k'', T k'' ∧ (SameState clamp k'' k' ∨ (StartPose start goal k'' ∧ ⌊k''.x⌋ = ⌊k'.x⌋ ∧ ⌊k''.y⌋ = ⌊k'.y⌋ ∧
      k''.forward = k'.forward ∧ angle2index clamp 32 k'.theta = .ok 15))
  /-- no pose reaches the goal -/
  noGoal : ptOccupied m ⌊goal.x⌋ ⌊goal.y⌋ = .ok false → ∀ k, T k → ∀ f,
    (∃ pv, isg (goalNode goal f) k pv = false) ∧
    ¬ (⌊k.x⌋ = ⌊goal.x⌋ ∧ ⌊k.y⌋ = ⌊goal.y⌋ ∧ angle2index clamp 32 k.theta = .ok 15 ∧ ¬ StartPose start goal k)

end PathPlanning.Spec
