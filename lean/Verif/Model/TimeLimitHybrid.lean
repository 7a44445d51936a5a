import Verif.Model.TimeLimit
import Verif.Model.HybridHistory

/-!
# Model of the time limit of a steering search with an analytic expansion

As `Model/TimeLimit.lean`.
-/

namespace PathPlanning

variable {K : Type} [Field K] [LinearOrder K] [FloorRing K]
variable {N S C X : Type} [DecidableEq N] [LinearOrder C] [Fintype N]

/-- `setTimeLimit(limit)` (SearchAlgorithm.hpp:140-142) followed by `findPathPose` (SearchAlgorithm.hpp:331-343) with an analytic expansion,
on nodes with labels `lab` and contents `kin`; `now` is the reading at line 377. -/
def xFindTimedOn (A : KAlgo N S C) (E : KExp X S C) (P : OpenList N C) (cfg : SCfg N C) (limit : K) (now : Int) (clock : Nat → Int)
    (lab : Labels N C) (kin : N → S) (x : X) (fuel : Nat) : Option (CRes (List S) × KSt N S C P × X) :=
  match stampAbort limit now with
  | .ok stamp => xFindOn A E P { cfg with abort := clockAbort stamp clock } lab kin x fuel
  | .throw e => some (.throw e, kInitOn A P cfg lab kin, x)
  | .ub => some (.ub, kInitOn A P cfg lab kin, x)

end PathPlanning
