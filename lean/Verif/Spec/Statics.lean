import Verif.Model.Statics
import Verif.Spec.SteerSearch

/-!
# Specification: what a program has done with the shared parameters
-/

namespace PathPlanning.Spec

/-- The value of `distance_step` after `ops`: the last one assigned, 0.4 if none. -/
noncomputable def stepNow (ops : List StatOp) : ℝ :=
  ((ops.filterMap fun o => match o with | .setStep d => some d | _ => none).getLast?).getD (4 / 10)

/-- The other parameters assigned last. -/
noncomputable def paramsNow (ops : List StatOp) : DynParams :=
  ((ops.filterMap fun o => match o with | .setParams p => some p | _ => none).getLast?).getD DynStat.initial.par

/-- The map search object `i` was given last. -/
def mapOf (i : Nat) (ops : List StatOp) : Option (GridMap ℝ) :=
  (ops.filterMap fun o => match o with | .setMap j m => if j = i then some m else none | _ => none).getLast?

/-- No search object is given a map in `ops`. -/
def NoSetMap (ops : List StatOp) : Prop := ∀ i m, StatOp.setMap i m ∉ ops

end PathPlanning.Spec
