import Verif.Model.KinCustom
import Verif.Model.KinDuringMap

/-!
# A search with a goal test over nodes with stored poses, during which the map changes

Source: `/repo/include/cslibs_path_planning/generic/SearchAlgorithm.hpp:268-281, 345-356, 372-446`.

`findPath(from, goal_test, intermission)` runs the loop of `Model/KinCustom.lean` and calls `intermission` at the end of every
iteration (435).  As in `Model/KinDuringMap.lean` an iteration that begins after `k` expansions sees the map `us k`.  The goal test
may change too: `KGoalTest.terminate` looks at everything the search holds, also at the number of expansions.

Simplifications: those of `Model/KinDuringMap.lean` and `Model/KinCustom.lean`.
-/

namespace PathPlanning

section
variable {N K C : Type} [DecidableEq N] [LinearOrder C] [Fintype N]

/-- The loop of `findPathImp` (SearchAlgorithm.hpp:383-436) with a goal test, on a map that the callback changes (435). -/
def kLoopTDuring (A : KAlgo N K C) (us : Nat → K → K → CRes Bool) {P : OpenList N C} (cfg : SCfg N C) (T : KGoalTest N K C P) :
    Nat → KSt N K C P → Option (CRes (List N) × KSt N K C P)
  | 0, _ => none
  | fuel + 1, st =>
    match kIterateT (A.withUsable (us st.s.expansions)) cfg T st with
    | .done r st' => some (r, st')
    | .more st' => kLoopTDuring A us cfg T fuel st'

/-- `findPathMapPose` with a goal test and an intermission on given start nodes (SearchAlgorithm.hpp:345-356): the result and the
state of the search at the end. -/
def kFindTestDuring (A : KAlgo N K C) (us : Nat → K → K → CRes Bool) (P : OpenList N C) (cfg : SCfg N C) (T : KGoalTest N K C P)
    (kin : N → K) (fuel : Nat) : Option (CRes (List K) × KSt N K C P) :=
  (kLoopTDuring A us cfg T fuel (kInit A P cfg kin)).map fun r =>
    (match r.1 with
    | .ok p => .ok (p.map r.2.kin)
    | .throw e => .throw e
    | .ub => .ub, r.2)

end

/-- `findPath(from, goal_test, intermission)` (SearchAlgorithm.hpp:268-281) with a steering neighbourhood on the chunk manager: the
start nodes are chosen with the map `m` as it is when the search begins; `datas k` are the values of its cells during the
expansion number `k`.  The result and the number of expansions. -/
noncomputable def padFindTestDuring (clamp : ℝ → ℝ) {m : GridMap ℝ} (A : KAlgo (PadCell m.width m.height) SNode ℝ) (skips : Nat)
    (b : Bres ℝ) (datas : Nat → List UInt8) (P : OpenList (PadCell m.width m.height) ℝ)
    (cfg : SCfg (PadCell m.width m.height) ℝ) (T : KGoalTest (PadCell m.width m.height) SNode ℝ P) (reversed : Bool)
    (start : Pose) (fuel : Nat) : Option (CRes (List SNode) × Nat) :=
  match padStartNodes clamp m start.x start.y with
  | .throw e => some (.throw e, 0)
  | .ub => some (.ub, 0)
  | .ok (sp, s) =>
    (kFindTestDuring A (fun k => steerUsable (shown m (datas k)) skips b) P { cfg with start := s } T
        (padStart sp s start.theta) fuel).map fun r =>
      (match r.1 with
      | .ok q => .ok (if reversed then q.reverse else q)
      | .throw e => .throw e
      | .ub => .ub, r.2.s.expansions)

end PathPlanning
