import Verif.Model.GridMap

/-!
# `SearchAlgorithm::getCost`
(`/repo/include/cslibs_path_planning/generic/SearchAlgorithm.hpp:136-138, 615-627`)

`processNeighbor` does not call it: the summand is commented out (SearchAlgorithm.hpp:633), hence the searches of
`Model/Search.lean` have no such parameter.
-/

namespace PathPlanning

/-- `getCost(node)` for the node of cell `c` (SearchAlgorithm.hpp:616-626); `hasCost` is `has_cost_`. -/
def getCost {K : Type} [Field K] [LinearOrder K] (hasCost : Bool) (m : GridMap K) (c : UCell) : CRes K :=
  if hasCost then do
    let v ← m.getValue c
    let cost : K := (v.toNat : K) / 254 * 2
    if cost < 0 then .throw "negative costs are not allowed" else pure cost
  else .ok 0

end PathPlanning
