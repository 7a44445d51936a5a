import Verif.Model.Search

/-!
# The open-list policies

Source: `/repo/include/cslibs_path_planning/generic/NodeManager.hpp`.
-/

namespace PathPlanning

variable {N C : Type}

/-- `QueueManager` (NodeManager.hpp:26-65): `push_back` / `front`, `pop_front` on a
`std::deque`; `remove` does nothing. -/
def QueueManager : OpenList N C where
  O := List N
  empty := []
  add o n _ := o ++ [n]
  next
    | [] => none
    | n :: o => some (n, o)

/-- `StackManager` (NodeManager.hpp:71-118, 134-137): `GenericManager` over `std::stack`;
`clear` pops until empty. -/
def StackManager : OpenList N C where
  O := List N
  empty := []
  add o n _ := n :: o
  next
    | [] => none
    | n :: o => some (n, o)

/-- Position of a first entry with the smallest key. -/
def bestEntry [LinearOrder C] : (N × WithTop C) → List (N × WithTop C) → N × WithTop C
  | e, [] => e
  | e, f :: fs => if f.2 < e.2 then bestEntry f fs else bestEntry e fs

/-- An ideal `PriorityQueueManager` (NodeManager.hpp:124-127): a multiset of entries ordered by
the total cost at insertion.  The container itself (`DynamicPrioritySet`, package
cslibs_navigation_utilities) is not part of /repo; this is the reference implementation used to show
that the contract assumed of it (`Lawful`, `MinFirst`) can be met. -/
def PriorityManager [DecidableEq N] [LinearOrder C] : OpenList N C where
  O := List (N × WithTop C)
  empty := []
  add o n k := o ++ [(n, k)]
  next
    | [] => none
    | e :: o => some ((bestEntry e o).1, (e :: o).erase (bestEntry e o))

end PathPlanning
