import Verif.Model.HybridHistory
import Verif.Spec.HybridRS
import Verif.Spec.SteerHistory

/-!
# Specification: later searches with analytic expansion
-/

noncomputable section
namespace PathPlanning.Spec

variable {N K C X : Type}

/-- The expansion found a way `e :: es` from the pose of the start node `s` itself.  The search then looks for the predecessors of `s`: if
no earlier search has stored one, this is undefined behaviour.  Otherwise the result is undefined behaviour again, or the way itself, or
the way after a list of poses that begins at a start pose - the stored poses of the nodes on the way of an *earlier* search. -/
def ExpandsStartLater (A : KAlgo N K C) (E : KExp X K C) (start goal : List N) (lab : Labels N C) (kin0 : N → K) (x x' : X)
    (r : CRes (List K)) : Prop :=
  ∃ x1 s h kg e es, s ∈ start ∧ AskedFor A E start goal kin0 x x1 (kin0 s) h kg ∧ E.expand x1 (kin0 s) h kg = .ok (true, x') ∧
    E.get x' = e :: es ∧ ((lab s).prev = none → r = .ub) ∧
    (r = .ub ∨ r = .ok (e :: es) ∨
      ∃ l, r = .ok (l ++ [E.turn (kin0 s) e] ++ e :: es) ∧ ∃ s' ∈ start, l.head? = some (kin0 s'))

/-- A path whose last part is an expansion, found after other searches: like `HybridPath`. -/
def LaterHybridPath (clamp : ℝ → ℝ) (adv : SNode → ℝ → SNode → Prop) (m : GridMap ℝ) (skips : Nat) (Start : SNode → Prop)
    (start goal : Pose) (q : List SNode) : Prop :=
  ∃ l k e es kg, q = l ++ [{ k with theta := e.theta }] ++ (e :: es).map wayNode ∧ l ≠ [] ∧
    (∃ k0, l.head? = some k0 ∧ Start k0) ∧
    (∀ y ∈ l ++ [k], RoadFrom adv m skips Start y) ∧
    (∀ x y, [x, y] <:+: l ++ [k] → ∃ x' c, SameState clamp x' x ∧ RoadFrom adv m skips Start x' ∧ RoadStep adv m skips x' c y) ∧
    (∀ x y, [x, y] <+: l ++ [k] → ∃ c, RoadStep adv m skips x c y) ∧
    l.length < (m.width + 63) * (m.height + 63) * 64 ∧
    ptOccupied m ⌊start.x⌋ ⌊start.y⌋ = .ok false ∧ ptOccupied m ⌊goal.x⌋ ⌊goal.y⌋ = .ok false ∧
    k.forward = true ∧ LaterGoal clamp adv m skips Start goal kg ∧ SameConfig e (poseOf k) ∧
    ForwardWay m (poseOf k) (poseOf kg) (e :: es)

/-- The result of a later search that found a way from the start pose `k` itself: undefined behaviour, or the way points of the way,
possibly after a list of other poses that begins at a start pose.  The cells of the start and of the goal are not occupied. -/
def LaterStartWay (clamp : ℝ → ℝ) (adv : SNode → ℝ → SNode → Prop) (m : GridMap ℝ) (skips : Nat) (Start : SNode → Prop)
    (start goal : Pose) (r : CRes (List SNode)) : Prop :=
  ∃ k kg e es, Start k ∧ ⌊k.x⌋ = ⌊start.x⌋ ∧ ⌊k.y⌋ = ⌊start.y⌋ ∧
    ptOccupied m ⌊start.x⌋ ⌊start.y⌋ = .ok false ∧ ptOccupied m ⌊goal.x⌋ ⌊goal.y⌋ = .ok false ∧ k.forward = true ∧ LaterGoal clamp adv m skips Start goal kg ∧ SameConfig e (poseOf k) ∧
    ForwardWay m (poseOf k) (poseOf kg) (e :: es) ∧
    (r = .ub ∨ r = .ok ((e :: es).map wayNode) ∨
      ∃ l, r = .ok (l ++ [{ k with theta := e.theta }] ++ (e :: es).map wayNode) ∧ ∃ k0, l.head? = some k0 ∧ Start k0)

end PathPlanning.Spec
