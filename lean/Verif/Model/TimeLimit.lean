import Verif.Model.Search
import Verif.Model.KinHistory

/-!
# Model of the time limit

In `Model/Search.lean` the moment at which the limit strikes is an arbitrary predicate on the number of expansions.  Here that predicate is
computed from the argument of `setTimeLimit` and the readings of the clock.

Simplification: the clock counts nanoseconds (as `std::chrono::high_resolution_clock` of libstdc++ and libc++ does); the product with
1e3 is exact.
-/

namespace PathPlanning

/-- Values of `int64_t`. -/
def inI64 (z : Int) : Prop := -9223372036854775808 ≤ z ∧ z < 9223372036854775808

instance (z : Int) : Decidable (inI64 z) := by unfold inI64; infer_instance

section
variable {K : Type} [Field K] [LinearOrder K] [FloorRing K]

/-- `stamp_abort_` (SearchAlgorithm.hpp:376-380): `none` without a limit.  The conversion to `int64_t` milliseconds, their conversion to ticks of
the clock and the sum are undefined behaviour if they do not fit. -/
def stampAbort (limit : K) (now : Int) : CRes (Option Int) :=
  if 0 < limit then
    let ms := truncC (limit * 1000)
    if ¬ inI64 ms then .ub
    else if ¬ inI64 (ms * 1000000) then .ub
    else if ¬ inI64 (now + ms * 1000000) then .ub
    else .ok (some (now + ms * 1000000))
  else .ok none

/-- The test at the beginning of a round (SearchAlgorithm.hpp:386-392); `clock k` is the reading in the round before which `k` nodes have
been expanded. -/
def clockAbort (stamp : Option Int) (clock : Nat → Int) (k : Nat) : Bool :=
  match stamp with
  | none => false
  | some s => decide (s ≤ clock k)

variable {N C : Type} [DecidableEq N] [LinearOrder C] [Fintype N]

/-- `setTimeLimit(limit)` (SearchAlgorithm.hpp:140-142) followed by `findPathPose` on given start and goal nodes
(SearchAlgorithm.hpp:331-343); `now` is the reading at line 377. -/
def findTimed (A : Algo N C) (P : OpenList N C) (cfg : SCfg N C) (limit : K) (now : Int) (clock : Nat → Int) (lab : Labels N C)
    (fuel : Nat) : Option (CRes (List N) × SSt N C P) :=
  match stampAbort limit now with
  | .ok stamp => findPathNodes A P { cfg with abort := clockAbort stamp clock } lab fuel
  | .throw e => some (.throw e, initSearch A P cfg lab)
  | .ub => some (.ub, initSearch A P cfg lab)

/-- The same with a steering neighbourhood: `setTimeLimit(limit)` followed by `findPathPose` on a freshly initialised map
(SearchAlgorithm.hpp:331-343). -/
def kFindTimed {S : Type} (A : KAlgo N S C) (P : OpenList N C) (cfg : SCfg N C) (limit : K) (now : Int) (clock : Nat → Int) (kin : N → S)
    (fuel : Nat) : Option (CRes (List S)) :=
  match stampAbort limit now with
  | .ok stamp => kFindPath A P { cfg with abort := clockAbort stamp clock } kin fuel
  | .throw e => some (.throw e)
  | .ub => some .ub

/-- The same on nodes with labels `lab` and contents `kin`, with the nodes and counters afterwards. -/
def kFindTimedOn {S : Type} (A : KAlgo N S C) (P : OpenList N C) (cfg : SCfg N C) (limit : K) (now : Int) (clock : Nat → Int)
    (lab : Labels N C) (kin : N → S) (fuel : Nat) : Option (CRes (List N) × KSt N S C P) :=
  match stampAbort limit now with
  | .ok stamp => kFindOn A P { cfg with abort := clockAbort stamp clock } lab kin fuel
  | .throw e => some (.throw e, kInitOn A P cfg lab kin)
  | .ub => some (.ub, kInitOn A P cfg lab kin)

end
end PathPlanning
