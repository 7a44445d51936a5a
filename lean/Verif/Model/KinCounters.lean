import Verif.Model.SteerSearch
import Verif.Model.Counters

/-!
# Counters of a search that stores poses in its nodes

Source: `/repo/include/cslibs_path_planning/generic/SearchAlgorithm.hpp`.
-/

namespace PathPlanning

section
variable {N K C : Type} [DecidableEq N] [LinearOrder C] [Fintype N]

/-- `findPathPose` (SearchAlgorithm.hpp:331-343) on a new object and freshly initialised nodes, and the getters afterwards
(`getExpansions`, `getMultiExpansions`, `getTouchedNodes`, SearchAlgorithm.hpp:176-188).
Simplification: the counters are natural numbers, not `int`; after an exception those of the last complete expansion. -/
def kFindPathStats (A : KAlgo N K C) (P : OpenList N C) (cfg : SCfg N C) (kin : N → K) (fuel : Nat) :
    Option (CRes (List K) × Stats) :=
  (kLoop A cfg fuel (kInit A P cfg kin)).map fun r =>
    (match r.1 with
      | .ok p => .ok (p.map r.2.kin)
      | .throw e => .throw e
      | .ub => .ub,
     ⟨r.2.s.expansions, r.2.s.multi, r.2.s.touched⟩)

end

noncomputable section

/-- The same for a search between poses on the chunk manager (`initStartPose`, `initGoalPose`, SearchAlgorithm.hpp:462-492, 528-570);
`init()` has reset the counters before an exception of the initialisation (SearchAlgorithm.hpp:335, 447-452). -/
def padFindPathStats (clamp : ℝ → ℝ) {m : GridMap ℝ} (A : KAlgo (PadCell m.width m.height) SNode ℝ)
    (P : OpenList (PadCell m.width m.height) ℝ) (cfg : SCfg (PadCell m.width m.height) ℝ) (start goal : Pose)
    (fuel : Nat) : Option (CRes (List SNode) × Stats) :=
  match padInit clamp m start goal with
  | .throw e => some (.throw e, ⟨0, 0, 0⟩)
  | .ub => some (.ub, ⟨0, 0, 0⟩)
  | .ok (sp, s, gp, g) =>
    kFindPathStats A P { cfg with start := s, goal := g } (padContent sp s gp g start goal) fuel

end
end PathPlanning
