import Verif.Model.Search
import Verif.Model.GridSearch

/-!
# A search during which the map changes

Source: `/repo/include/cslibs_path_planning/generic/SearchAlgorithm.hpp:372-446`.

`findPathImp` calls `Intermission::call(intermission)` at the end of every iteration (435).  The callback is the caller's; it
may write to the map the search holds a pointer to (`evaluator.cpp:562` passes `draw`, which handles mouse and keyboard
events, and those draw obstacles into the map).  The search reads the map only while it looks for free neighbours (432), so
all neighbours of one node are judged with the same map: `maps k` gives them for the expansion number `k` (the first is 0).

Simplifications: the callback changes only which cells are free, not size, resolution or the labels in the nodes, and it does
not call the search object (other than reading it); another thread writing to the map is not modelled.
-/

namespace PathPlanning

variable {N C : Type} [DecidableEq N] [LinearOrder C] [Fintype N]

/-- The search with other free neighbours: only `iterateFreeNeighbors` (SearchAlgorithm.hpp:432) reads the map. -/
def Algo.withSucc (A : Algo N C) (s : N → List (N × C)) : Algo N C := { A with succ := s }

/-- The loop of `findPathImp` (SearchAlgorithm.hpp:383-436) on a map that the callback changes (435): an iteration that begins
after `k` expansions sees the neighbours `maps k`. -/
def searchLoopDuring (A : Algo N C) (maps : Nat → N → List (N × C)) {P : OpenList N C} (cfg : SCfg N C) :
    Nat → SSt N C P → Option (CRes (List N) × SSt N C P)
  | 0, _ => none
  | fuel + 1, st =>
    match iterate (A.withSucc (maps st.expansions)) cfg (poseTest (A.withSucc (maps st.expansions)) cfg) st with
    | .done r st' => some (r, st')
    | .more st' => searchLoopDuring A maps cfg fuel st'

/-- `findPath(from, to, intermission)` on given start and goal nodes (SearchAlgorithm.hpp:331-343, 372-446). -/
def findPathDuring (A : Algo N C) (maps : Nat → N → List (N × C)) (P : OpenList N C) (cfg : SCfg N C) (lab : Labels N C)
    (fuel : Nat) : Option (CRes (List N) × SSt N C P) :=
  searchLoopDuring A maps cfg fuel (initSearch A P cfg lab)

end PathPlanning
