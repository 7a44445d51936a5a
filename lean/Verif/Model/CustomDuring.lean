import Verif.Model.DuringSearch

/-!
# A search with a user's goal test during which the map changes

Source: `/repo/include/cslibs_path_planning/generic/SearchAlgorithm.hpp:253-281, 345-446`.

`findPath(from, goal_test, intermission)` runs the same loop (372-446) as the search between poses; the goal test is asked once per
iteration (414), before the neighbours are looked up (432).  See `Model/DuringSearch.lean` for what the callback may change.
-/

namespace PathPlanning

variable {N C : Type} [DecidableEq N] [LinearOrder C] [Fintype N]

/-- The loop of `findPathImp` (SearchAlgorithm.hpp:383-436) with a goal test (414) on a map that the callback changes (435). -/
def searchLoopTDuring (A : Algo N C) (maps : Nat → N → List (N × C)) {P : OpenList N C} (cfg : SCfg N C) (T : GoalTest N C P) :
    Nat → SSt N C P → Option (CRes (List N) × SSt N C P)
  | 0, _ => none
  | fuel + 1, st =>
    match iterate (A.withSucc (maps st.expansions)) cfg (customTest (A.withSucc (maps st.expansions)) T) st with
    | .done r st' => some (r, st')
    | .more st' => searchLoopTDuring A maps cfg T fuel st'

/-- `findPath(from, goal_test, intermission)` on given start nodes (SearchAlgorithm.hpp:345-370, 372-446); the member `goal` is
empty. -/
def findPathCustomDuring (A : Algo N C) (maps : Nat → N → List (N × C)) (P : OpenList N C) (cfg : SCfg N C) (T : GoalTest N C P)
    (lab : Labels N C) (fuel : Nat) : Option (CRes (List N) × SSt N C P) :=
  searchLoopTDuring A maps { cfg with goal := [], heurGoal := T.heurGoal } T fuel
    (initSearch A P { cfg with goal := [], heurGoal := T.heurGoal } lab)

end PathPlanning
