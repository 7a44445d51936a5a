import Verif.Spec.KinCustom
import Verif.Spec.SteerDuringMap

/-!
# Specification of searches with a goal test on a map that changes (C122)
-/

namespace PathPlanning.Spec

/-- A set `X` of poses that contains the start with both driving directions, unless it is occupied at the beginning, and cannot be
left - up to the size of the cells - by steps of the neighbourhood (`next`) that the maps of all of the first `E` moments
accept. -/
structure EnclosedAll (clamp : ℝ → ℝ) (adv : SNode → ℝ → SNode → Prop) (m : GridMap ℝ) (datas : Nat → List UInt8) (E skips : Nat)
    (next : SNode → ℝ → SNode → Prop) (start : Pose) (X : SNode → Prop) : Prop where
  init : ptOccupied m ⌊start.x⌋ ⌊start.y⌋ = .ok false → ∀ f, ∃ k, X k ∧ StartPose start start k ∧ k.forward = f
  reach : ∀ k, X k → ReachAt adv m datas E skips start start k
  /-- every step leads to a state of which a pose is in the set, or back to the start (stored with heading slot 15) -/
  closed : ∀ k c k', X k → next k c k' → adv k c k' → (∀ j < E, LineOk (shown m (datas j)) skips k k') →
    InsidePad m.width m.height k' →
    ∃ k'', X k'' ∧ (SameState clamp k'' k' ∨ (StartPose start start k'' ∧ ⌊k''.x⌋ = ⌊k'.x⌋ ∧ ⌊k''.y⌋ = ⌊k'.y⌋ ∧
      k''.forward = k'.forward ∧ angle2index clamp 32 k'.theta = .ok 15))

end PathPlanning.Spec
