import Verif.Prelude

/-!
# Model of the public `findPath` functions: reversed searches
-/

namespace PathPlanning

/-- Reverse the path of a search that ends normally. -/
def reverseResult {α : Type} : CRes (List α) → CRes (List α)
  | .ok p => .ok p.reverse
  | .throw e => .throw e
  | .ub => .ub

/-- `findPath(from, to)` (SearchAlgorithm.hpp:208-251): with a reversed neighbourhood the search begins at `to`, and the path is
turned round.  `search` is `findPathPose`; `none` = not finished with the given fuel.  (`reverse`, lines 298-310, does the same for
both kinds of nodes: the `forward` fields are not changed.) -/
def findPathBetween {Q α : Type} (reversed : Bool) (search : Q → Q → Option (CRes (List α))) (src dst : Q) :
    Option (CRes (List α)) :=
  if reversed then (search dst src).map reverseResult else search src dst

/-- `findPath(from, goal_test)` and `findPathWithStartConfiguration(from, goal_test)` (SearchAlgorithm.hpp:253-295): the path is
turned round, but the search begins at `from` in any case.  `search` is `findPathMapPose` or `findPathMapNode`. -/
def findPathToTest {Q α : Type} (reversed : Bool) (search : Q → Option (CRes (List α))) (src : Q) : Option (CRes (List α)) :=
  if reversed then (search src).map reverseResult else search src

end PathPlanning
