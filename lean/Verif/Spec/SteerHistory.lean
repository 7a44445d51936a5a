import Verif.Model.SteerHistory
import Verif.Spec.SteerSearch
import Verif.Spec.KinHistory

/-!
# Specification of later searches with a steering neighbourhood
-/

noncomputable section
namespace PathPlanning.Spec

variable {m : GridMap ℝ}

/-- Labels and contents of the nodes after `setMap` and any number of searches, each with its own start, goal or goal test and options,
and each left at any point: at its end, by an exception (of a map operation, or of the lookup of the goal), by an interruption or the
time limit.  The contents of the map, the heuristic and the goal test may have been other ones (`A'`).  The initialisation of a search
writes only the heading, the direction and the depth of nodes. -/
inductive PadUsed (A : KAlgo (PadCell m.width m.height) SNode ℝ) (P : OpenList (PadCell m.width m.height) ℝ) :
    Labels (PadCell m.width m.height) ℝ → (PadCell m.width m.height → SNode) → Prop
  | setMap : PadUsed A P (fun _ => Label.fresh A.zero) initContent
  | left {lab old kin cfg pc st} {A' : KAlgo (PadCell m.width m.height) SNode ℝ} : PadUsed A P lab old →
      (∀ n, (kin n).x = (old n).x ∧ (kin n).y = (old n).y ∧ (kin n).steer = (old n).steer) →
      A'.zero = A.zero → A'.add = A.add → A'.moves = A.moves → A'.lookup = A.lookup →
      During A' P cfg lab kin pc st → PadUsed A P st.s.lab st.kin

/-- The pose with which a later search begins: a pose in the cell of the requested start, with the requested heading - but the heading
of the goal, if the goal is in the same cell.  The position in the cell and the steering angle are what an earlier search has left there
(`old`). -/
def LaterStart {w h : Nat} (old : PadCell w h → SNode) (start goal : Pose) (k : SNode) : Prop :=
  ∃ n : PadCell w h, n.x = ⌊start.x⌋ ∧ n.y = ⌊start.y⌋ ∧ n.t = 15 ∧ k.x = (old n).x ∧ k.y = (old n).y ∧ k.steer = (old n).steer ∧
    k.custom = (old n).custom ∧ k.depth = (old n).depth ∧ k.forward = n.fwd ∧
    k.theta = if ⌊start.x⌋ = ⌊goal.x⌋ ∧ ⌊start.y⌋ = ⌊goal.y⌋ then goal.theta else start.theta

/-- The pose with which a later search from a configuration `node` begins: like `LaterStart`, but the depth is zero. -/
def LaterConfig {w h : Nat} (old : PadCell w h → SNode) (node : SNode) (k : SNode) : Prop :=
  ∃ n : PadCell w h, n.x = ⌊node.x⌋ ∧ n.y = ⌊node.y⌋ ∧ n.t = 15 ∧ k.x = (old n).x ∧ k.y = (old n).y ∧ k.steer = (old n).steer ∧
    k.custom = (old n).custom ∧ k.depth = 0 ∧ k.forward = n.fwd ∧ k.theta = node.theta

/-- Poses that can be reached from a pose with `Start` by legal steps. -/
inductive RoadFrom (adv : SNode → ℝ → SNode → Prop) (m : GridMap ℝ) (skips : Nat) (Start : SNode → Prop) : SNode → Prop
  | start {k} : Start k → RoadFrom adv m skips Start k
  | step {k c k'} : RoadFrom adv m skips Start k → RoadStep adv m skips k c k' → InsidePad m.width m.height k' →
      RoadFrom adv m skips Start k'

/-- The pose the goal test of a later search compares with: some pose in the cell of the requested goal; with the requested heading,
or with a heading in slot 15 if this search has reached it. -/
def LaterGoal (clamp : ℝ → ℝ) (adv : SNode → ℝ → SNode → Prop) (m : GridMap ℝ) (skips : Nat) (Start : SNode → Prop) (goal : Pose)
    (k : SNode) : Prop :=
  ⌊k.x⌋ = ⌊goal.x⌋ ∧ ⌊k.y⌋ = ⌊goal.y⌋ ∧
    (k.theta = goal.theta ∨ (RoadFrom adv m skips Start k ∧ angle2index clamp 32 k.theta = .ok 15))

end PathPlanning.Spec
