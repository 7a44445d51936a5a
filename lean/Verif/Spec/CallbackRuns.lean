import Mathlib.Order.Interval.Finset.Nat
import Mathlib.Data.Finset.Card
import Mathlib.Algebra.Order.Group.Int

/-!
# Specification: which calls of a schedule count
-/

namespace PathPlanning.Spec

/-- The `k`-th call (`k ≥ 1`) of a schedule "from the `start`-th call on every `steps` calls": all the calls up to number
`max(1, start)`, then every `steps`-th one. -/
def Fires (steps start : Int) (k : Nat) : Prop := (k : Int) ≤ max 1 start ∨ steps ∣ (k : Int) - max 1 start

instance (steps start : Int) (k : Nat) : Decidable (Fires steps start k) := by unfold Fires; infer_instance

/-- How many of the `m` calls after the `k`-th one count. -/
def firesAmong (steps start : Int) (k m : Nat) : Nat := ((Finset.Ioc k (k + m)).filter (Fires steps start)).card

/-- For consecutive groups of `ms` calls after the first `k` ones: how many of each group count. -/
def invocations (steps start : Int) : Nat → List Nat → List Nat
  | _, [] => []
  | k, m :: ms => firesAmong steps start k m :: invocations steps start (k + m) ms

end PathPlanning.Spec
