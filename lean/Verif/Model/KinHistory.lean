import Verif.Model.KinSearch

/-!
# Model of later searches over nodes with stored poses

`Model/KinSearch.lean` starts a search on freshly initialised nodes.  `findPath` never resets the nodes: marks, distances,
predecessors and contents of an earlier search stay, until `setMap` is called.
-/

namespace PathPlanning

section
variable {N K C : Type} [DecidableEq N] [LinearOrder C]
variable (A : KAlgo N K C)

/-- `init()`, `initStartPose` and `initGoalPose` (SearchAlgorithm.hpp:447-492, 528-570) on nodes with labels `lab`: only the open
list and the candidates are emptied; the start nodes get distance 0 and are marked open.  `kin` are the contents of the nodes
after the headings of start and goal have been written. -/
def kInitOn (P : OpenList N C) (cfg : SCfg N C) (lab : Labels N C) (kin : N → K) : KSt N K C P where
  s := initSearch (A.alg lab kin) P cfg lab
  kin := kin

/-- `findPathPose` (SearchAlgorithm.hpp:331-343) on such nodes: the result and the nodes afterwards. -/
def kFindOn [Fintype N] (P : OpenList N C) (cfg : SCfg N C) (lab : Labels N C) (kin : N → K) (fuel : Nat) :
    Option (CRes (List N) × KSt N K C P) :=
  kLoop A cfg fuel (kInitOn A P cfg lab kin)

end
end PathPlanning
