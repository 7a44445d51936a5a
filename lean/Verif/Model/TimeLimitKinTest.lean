import Verif.Model.TimeLimit
import Verif.Model.CustomHistory

/-!
# Model of the time limit of a steering search with a goal test

As `Model/TimeLimit.lean`.
-/

namespace PathPlanning

variable {K : Type} [Field K] [LinearOrder K] [FloorRing K]
variable {N S C : Type} [DecidableEq N] [LinearOrder C] [Fintype N]

/-- `setTimeLimit(limit)` (SearchAlgorithm.hpp:140-142) followed by `findPathMapPose` or `findPathMapNode` with a goal test
(SearchAlgorithm.hpp:345-370) and a steering neighbourhood, on nodes with labels `lab` and contents `kin`; `now` is the reading at
line 377. -/
def kFindTimedTestOn (A : KAlgo N S C) (P : OpenList N C) (cfg : SCfg N C) (T : KGoalTest N S C P) (limit : K) (now : Int)
    (clock : Nat → Int) (lab : Labels N C) (kin : N → S) (fuel : Nat) : Option (CRes (List N) × KSt N S C P) :=
  match stampAbort limit now with
  | .ok stamp => kFindTestOn A P { cfg with abort := clockAbort stamp clock } T lab kin fuel
  | .throw e => some (.throw e, kInitOn A P cfg lab kin)
  | .ub => some (.ub, kInitOn A P cfg lab kin)

end PathPlanning
