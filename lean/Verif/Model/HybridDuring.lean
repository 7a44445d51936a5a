import Verif.Model.HybridSearch
import Verif.Model.KinDuringMap

/-!
# A steering search with analytic expansion during which the map changes

Source: `/repo/include/cslibs_path_planning/generic/SearchAlgorithm.hpp:372-446, 572-613`, `ReedsSheppExpansion.hpp`.

`Model/KinDuringMap.lean` with an analytic expansion: the callback `intermission` is called at the end of an iteration (435); so the
attempt to expand analytically (574-587) and the steps of the neighbourhood, which belong to the same iteration, see the same map.

Simplifications: those of `Model/KinDuringMap.lean` and `Model/HybridSearch.lean`; `canExpand` gets the map as argument and keeps
nothing of it.
-/

namespace PathPlanning

section
variable {N K C X : Type} [DecidableEq N] [LinearOrder C] [Fintype N]

/-- The loop of `findPathImp` (SearchAlgorithm.hpp:383-436): an iteration that begins after `k` expansions judges steps with
`us k` and tries the analytic expansion `Es k`.  The last component is the number of expansions before the last iteration. -/
def xSearchDuring (A : KAlgo N K C) (us : Nat → K → K → CRes Bool) (Es : Nat → KExp X K C) {P : OpenList N C} (cfg : SCfg N C) :
    Nat → KSt N K C P → X → Option (CRes (List K) × X × Nat)
  | 0, _, _ => none
  | fuel + 1, st, x =>
    match xIterate (A.withUsable (us st.s.expansions)) (Es st.s.expansions) cfg st x with
    | .done r x' => some (r, x', st.s.expansions)
    | .more st' x' => xSearchDuring A us Es cfg fuel st' x'

/-- `findPathPose(from, to, intermission)` on given start and goal nodes (SearchAlgorithm.hpp:331-343, 372-446). -/
def xFindPathDuring (A : KAlgo N K C) (us : Nat → K → K → CRes Bool) (Es : Nat → KExp X K C) (P : OpenList N C) (cfg : SCfg N C)
    (kin : N → K) (x : X) (fuel : Nat) : Option (CRes (List K) × X × Nat) :=
  xSearchDuring A us Es cfg fuel (kInit A P cfg kin) x

end

/-- `findPathPose(from, to, intermission)` with a steering neighbourhood on the chunk manager and Reeds-Shepp expansion
(SearchAlgorithm.hpp:331-343, 372-446, ReedsSheppExpansion.hpp:40-142): start and goal nodes are chosen with the map `m` as it is when
the search begins; `datas k` are the values of its cells during iteration number `k`. -/
noncomputable def padFindPathXDuring (clamp : ℝ → ℝ) {m : GridMap ℝ} (A : KAlgo (PadCell m.width m.height) SNode ℝ) (skips : Nat)
    (b : Bres ℝ) (n : Int) (ef eb : Bool) (datas : Nat → List UInt8) (P : OpenList (PadCell m.width m.height) ℝ)
    (cfg : SCfg (PadCell m.width m.height) ℝ) (start goal : Pose) (x : RSExp.St) (fuel : Nat) :
    Option (CRes (List SNode) × RSExp.St × Nat) :=
  match padInit clamp m start goal with
  | .throw e => some (.throw e, x, 0)
  | .ub => some (.ub, x, 0)
  | .ok (sp, s, gp, g) =>
    xFindPathDuring A (fun k => steerUsable (shown m (datas k)) skips b) (fun k => rsExp clamp n ef eb (shown m (datas k))) P
      { cfg with start := s, goal := g } (padContent sp s gp g start goal) x fuel

end PathPlanning
