import Verif.Model.KinCustom
import Verif.Spec.SteerSearch

/-!
# Specification: goal tests on nodes with poses
-/

namespace PathPlanning.Spec

variable {N K C : Type} {P : OpenList N C}

/-- Asked about a node that holds pose `k`, the goal test may hand it to the search with weight `w`. -/
def PoseAccepted (T : KGoalTest N K C P) (k : K) (w : C) : Prop :=
  ∃ st n, st.kin n = k ∧ (T.terminate st n).1 = some w

/-- Asked about a node that holds pose `k`, the goal test always hands it to the search. -/
def PoseAlwaysAccepted (T : KGoalTest N K C P) (k : K) : Prop :=
  ∀ st n, st.kin n = k → (T.terminate st n).1 ≠ none

/-- The goal test stops the search only at nodes it also hands to the search. -/
def StopsAtAccepted (T : KGoalTest N K C P) : Prop :=
  ∀ st n, (T.terminate st n).2 = true → (T.terminate st n).1 ≠ none

/-- A set `X` of poses that contains the start with both driving directions, unless it is occupied, and cannot be left - up
to the size of the cells - by steps of the neighbourhood (`next`). -/
structure Enclosed (clamp : ℝ → ℝ) (adv : SNode → ℝ → SNode → Prop) (m : GridMap ℝ) (skips : Nat)
    (next : SNode → ℝ → SNode → Prop) (start : Pose) (X : SNode → Prop) : Prop where
  init : ptOccupied m ⌊start.x⌋ ⌊start.y⌋ = .ok false → ∀ f, ∃ k, X k ∧ StartPose start start k ∧ k.forward = f
  reach : ∀ k, X k → RoadReach adv m skips start start k
  /-- every step leads to a state of which a pose is in the set, or back to the start (stored with heading slot 15) -/
  closed : ∀ k c k', X k → next k c k' → RoadStep adv m skips k c k' → InsidePad m.width m.height k' →
    ∃ k'', X k'' ∧ (SameState clamp k'' k' ∨ (StartPose start start k'' ∧ ⌊k''.x⌋ = ⌊k'.x⌋ ∧ ⌊k''.y⌋ = ⌊k'.y⌋ ∧
      k''.forward = k'.forward ∧ angle2index clamp 32 k'.theta = .ok 15))

end PathPlanning.Spec
