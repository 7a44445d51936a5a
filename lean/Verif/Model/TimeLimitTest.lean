import Verif.Model.TimeLimit

/-!
# Model of the time limit of a search with a goal test

As `Model/TimeLimit.lean`.
-/

namespace PathPlanning

variable {K : Type} [Field K] [LinearOrder K] [FloorRing K]
variable {N C : Type} [DecidableEq N] [LinearOrder C] [Fintype N]

/-- `setTimeLimit(limit)` (SearchAlgorithm.hpp:140-142) followed by `findPathMapPose` or `findPathMapNode` with a goal test
(SearchAlgorithm.hpp:345-370); `now` is the reading at line 377. -/
def findTimedTest (A : Algo N C) (P : OpenList N C) (cfg : SCfg N C) (T : GoalTest N C P) (limit : K) (now : Int) (clock : Nat → Int)
    (lab : Labels N C) (fuel : Nat) : Option (CRes (List N) × SSt N C P) :=
  match stampAbort limit now with
  | .ok stamp => findPathCustom A P { cfg with abort := clockAbort stamp clock } T lab fuel
  | .throw e => some (.throw e, initSearch A P { cfg with goal := [], heurGoal := T.heurGoal } lab)
  | .ub => some (.ub, initSearch A P { cfg with goal := [], heurGoal := T.heurGoal } lab)

end PathPlanning
