import Verif.Spec.KinDuringMap
import Verif.Spec.SteerSearch

/-!
# Specification of steering searches on a grid map that changes (C120)
-/

namespace PathPlanning.Spec

/-- A step that the map of one of the first `E` moments accepts. -/
def RoadStepAt (adv : SNode → ℝ → SNode → Prop) (m : GridMap ℝ) (datas : Nat → List UInt8) (E skips : Nat) (k : SNode) (c : ℝ)
    (k' : SNode) : Prop :=
  ∃ j < E, RoadStep adv (shown m (datas j)) skips k c k'

/-- Poses that can be reached by such steps. -/
inductive ReachAt (adv : SNode → ℝ → SNode → Prop) (m : GridMap ℝ) (datas : Nat → List UInt8) (E skips : Nat)
    (start goal : Pose) : SNode → Prop
  | start {k : SNode} : StartPose start goal k → ReachAt adv m datas E skips start goal k
  | step {k : SNode} {c : ℝ} {k' : SNode} : ReachAt adv m datas E skips start goal k → RoadStepAt adv m datas E skips k c k' →
      InsidePad m.width m.height k' → ReachAt adv m datas E skips start goal k'

/-- The pose the goal test compares with. -/
def GoalPoseAt (clamp : ℝ → ℝ) (adv : SNode → ℝ → SNode → Prop) (m : GridMap ℝ) (datas : Nat → List UInt8) (E skips : Nat)
    (start goal : Pose) (k : SNode) : Prop :=
  (k.x = ⌊goal.x⌋ ∧ k.y = ⌊goal.y⌋ ∧ k.theta = goal.theta ∧ k.steer = 0 ∧ k.custom = 0 ∧ k.depth = 0) ∨
  (ReachAt adv m datas E skips start goal k ∧ ⌊k.x⌋ = ⌊goal.x⌋ ∧ ⌊k.y⌋ = ⌊goal.y⌋ ∧ angle2index clamp 32 k.theta = .ok 15)

/-- A set `T` of poses that contains the start and cannot be left - up to the size of the cells - by steps that the maps of all
of the first `E` moments accept, and of which no pose reaches the goal. -/
structure DeadEndAll (clamp : ℝ → ℝ) (adv : SNode → ℝ → SNode → Prop) (m : GridMap ℝ) (datas : Nat → List UInt8) (E skips : Nat)
    (next : SNode → ℝ → SNode → Prop) (isg : SNode → SNode → Option SNode → Bool) (start goal : Pose)
    (T : SNode → Prop) : Prop where
  /-- both driving directions at the start, unless it was occupied at the beginning -/
  init : ptOccupied m ⌊start.x⌋ ⌊start.y⌋ = .ok false → ∀ f, ∃ k, T k ∧ StartPose start goal k ∧ k.forward = f
  /-- only reachable poses -/
  reach : ∀ k, T k → ReachAt adv m datas E skips start goal k
  /-- every step leads to a state of which a pose is in the set, or back to the start (which is stored with heading slot 15) -/
  closed : ∀ k c k', T k → next k c k' → adv k c k' → (∀ j < E, LineOk (shown m (datas j)) skips k k') →
    InsidePad m.width m.height k' →
    ∃ k'', T k'' ∧ (SameState clamp k'' k' ∨ (StartPose start goal k'' ∧ ⌊k''.x⌋ = ⌊k'.x⌋ ∧ ⌊k''.y⌋ = ⌊k'.y⌋ ∧
      k''.forward = k'.forward ∧ angle2index clamp 32 k'.theta = .ok 15))
  /-- no pose reaches the goal -/
  noGoal : ptOccupied m ⌊goal.x⌋ ⌊goal.y⌋ = .ok false → ∀ k, T k → ∀ f,
    (∃ pv, isg (goalNode goal f) k pv = false) ∧
    ¬ (⌊k.x⌋ = ⌊goal.x⌋ ∧ ⌊k.y⌋ = ⌊goal.y⌋ ∧ angle2index clamp 32 k.theta = .ok 15 ∧ ¬ StartPose start goal k)

/-- The callback only adds obstacles: a cell that is occupied at one moment is occupied at the next. -/
def OnlyBlocked (m : GridMap ℝ) (datas : Nat → List UInt8) : Prop :=
  ∀ j x y, x < m.width → y < m.height → (shown m (datas j)).isOccupied ⟨x, y⟩ = .ok true →
    (shown m (datas (j + 1))).isOccupied ⟨x, y⟩ = .ok true

end PathPlanning.Spec
