import Verif.Model.Schedule
import Verif.Model.KinSearch

/-!
# Searches together with the calls of their intermission callback

Sources: `/repo/include/cslibs_path_planning/generic/SearchAlgorithm.hpp:234-281, 331-446`, `Intermission.hpp:28-46`.

`Intermission::call(intermission)` (SearchAlgorithm.hpp:435) is a static member template; its two variables are static variables of the
function (Intermission.hpp:29-30).  The type of the callback is always `boost::function<void()>`, so there is one pair of variables for
all search objects of the program with the same `INTERMISSION_N_STEPS` and `INTERMISSION_START_STEPS`: they are threaded through all
searches here.  What the callback does to the map is in `Model/DuringSearch.lean`; here it does nothing but being counted.  Threads
that search at the same time are not modelled.
-/

namespace PathPlanning

/-- `m` calls of `CallbackIntermission<steps, start>::call` (Intermission.hpp:28-38): how often the callback is invoked, and the
variables afterwards; for `steps = 0` the bodies are empty (41-46). -/
def interCalls (steps : Int) : Nat → InterSt → Nat × InterSt
  | 0, i => (0, i)
  | m + 1, i =>
    if steps = 0 then (0, i)
    else
      let r := interCall steps i
      let q := interCalls steps m r.2
      ((if r.1 then 1 else 0) + q.1, q.2)

section
variable {N C : Type} [DecidableEq N] [LinearOrder C] [Fintype N]

/-- The loop of `findPathImp` (SearchAlgorithm.hpp:383-436) with the call at its end (435): `n` is how often the callback has been
invoked. -/
def searchLoopCB (steps : Int) (A : Algo N C) {P : OpenList N C} (cfg : SCfg N C) (test : SSt N C P → N → CRes (TestOut N C P)) :
    Nat → Nat → InterSt → SSt N C P → Option ((CRes (List N) × SSt N C P) × Nat × InterSt)
  | 0, _, _, _ => none
  | fuel + 1, n, i, st =>
    match iterate A cfg test st with
    | .done r st' => some ((r, st'), n, i)
    | .more st' =>
      let c := interCalls steps 1 i
      searchLoopCB steps A cfg test fuel (n + c.1) c.2 st'

/-- `findPath(from, to, intermission)` on given start and goal nodes (SearchAlgorithm.hpp:234-250, 331-343). -/
def findPathNodesCB (steps : Int) (A : Algo N C) (P : OpenList N C) (cfg : SCfg N C) (lab : Labels N C) (fuel : Nat) (i : InterSt) :
    Option ((CRes (List N) × SSt N C P) × Nat × InterSt) :=
  searchLoopCB steps A cfg (poseTest A cfg) fuel 0 i (initSearch A P cfg lab)

/-- `findPath(from, goal_test, intermission)` on given start nodes (SearchAlgorithm.hpp:267-281, 345-356). -/
def findPathCustomCB (steps : Int) (A : Algo N C) (P : OpenList N C) (cfg : SCfg N C) (T : GoalTest N C P) (lab : Labels N C)
    (fuel : Nat) (i : InterSt) : Option ((CRes (List N) × SSt N C P) × Nat × InterSt) :=
  searchLoopCB steps A { cfg with goal := [], heurGoal := T.heurGoal } (customTest A T) fuel 0 i
    (initSearch A P { cfg with goal := [], heurGoal := T.heurGoal } lab)

end

section
variable {N K C : Type} [DecidableEq N] [LinearOrder C] [Fintype N]

/-- The same loop for the nodes with contents of `Model/KinSearch.lean` (SearchAlgorithm.hpp:383-436). -/
def kLoopCB (steps : Int) (A : KAlgo N K C) {P : OpenList N C} (cfg : SCfg N C) :
    Nat → Nat → InterSt → KSt N K C P → Option ((CRes (List N) × KSt N K C P) × Nat × InterSt)
  | 0, _, _, _ => none
  | fuel + 1, n, i, st =>
    match kIterate A cfg st with
    | .done r st' => some ((r, st'), n, i)
    | .more st' =>
      let c := interCalls steps 1 i
      kLoopCB steps A cfg fuel (n + c.1) c.2 st'

/-- `findPath(from, to, intermission)` with such nodes (SearchAlgorithm.hpp:234-250, 331-343). -/
def kFindPathCB (steps : Int) (A : KAlgo N K C) (P : OpenList N C) (cfg : SCfg N C) (kin : N → K) (fuel : Nat) (i : InterSt) :
    Option ((CRes (List N) × KSt N K C P) × Nat × InterSt) :=
  kLoopCB steps A cfg fuel 0 i (kInit A P cfg kin)

end

/-- The searches of a program one after the other, on whatever objects: each one gets the variables as the one before has left them
and reports how often it has invoked its callback.  `none`: one of them does not end. -/
def runSearches : List (InterSt → Option (Nat × InterSt)) → InterSt → Option (List Nat × InterSt)
  | [], i => some ([], i)
  | j :: js, i =>
    match j i with
    | none => none
    | some (n, i') => (runSearches js i').map fun r => (n :: r.1, r.2)

end PathPlanning
