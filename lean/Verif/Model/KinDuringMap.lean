import Verif.Model.SteerSearch

/-!
# A steering search during which the map changes

Source: `/repo/include/cslibs_path_planning/generic/SearchAlgorithm.hpp:372-446`, `SteeringNeighborhood.hpp:284-346`,
`DynamicSteeringNeighborhood.h`.

As in `Model/DuringSearch.lean`: `findPathImp` calls the caller's `intermission` at the end of every iteration (435), and the
callback may write to the map.  The steering neighbourhoods read the map only in `map.contains` and `map.isFreeOrUnknown`
(SteeringNeighborhood.hpp:310-314), so all moves of one node are judged with the same map: `us k` for the expansion number `k`
(the first is 0).

Simplifications: the callback changes only the values of the cells, not size, resolution or the nodes, and it does not call the
search object (other than reading it); another thread writing to the map is not modelled.
-/

namespace PathPlanning

variable {N K C : Type} [DecidableEq N] [LinearOrder C] [Fintype N]

/-- The search with another map: only the tests of SteeringNeighborhood.hpp:310-314 read it. -/
def KAlgo.withUsable (A : KAlgo N K C) (a : K → K → CRes Bool) : KAlgo N K C := { A with usable := a }

/-- The loop of `findPathImp` (SearchAlgorithm.hpp:383-436) on a map that the callback changes (435): an iteration that begins
after `k` expansions sees the map `us k`. -/
def kLoopDuring (A : KAlgo N K C) (us : Nat → K → K → CRes Bool) {P : OpenList N C} (cfg : SCfg N C) :
    Nat → KSt N K C P → Option (CRes (List N) × KSt N K C P)
  | 0, _ => none
  | fuel + 1, st =>
    match kIterate (A.withUsable (us st.s.expansions)) cfg st with
    | .done r st' => some (r, st')
    | .more st' => kLoopDuring A us cfg fuel st'

/-- `findPath(from, to, intermission)` on given start and goal nodes (SearchAlgorithm.hpp:331-343, 372-446): the result and the
number of expansions. -/
def kFindPathDuring (A : KAlgo N K C) (us : Nat → K → K → CRes Bool) (P : OpenList N C) (cfg : SCfg N C) (kin : N → K)
    (fuel : Nat) : Option (CRes (List K) × Nat) :=
  (kLoopDuring A us cfg fuel (kInit A P cfg kin)).map fun r =>
    (match r.1 with
      | .ok p => .ok (p.map r.2.kin)
      | .throw e => .throw e
      | .ub => .ub, r.2.s.expansions)

/-- The map with other values in its cells. -/
def shown (m : GridMap ℝ) (data : List UInt8) : GridMap ℝ := { m with data := data }

/-- `findPathPose(from, to, intermission)` with a steering neighbourhood on the chunk manager (SearchAlgorithm.hpp:331-343,
372-446): start and goal nodes are chosen with the map `m` as it is when the search begins; `datas k` are the values of its
cells during the expansion number `k`. -/
noncomputable def padFindPathDuring (clamp : ℝ → ℝ) {m : GridMap ℝ} (A : KAlgo (PadCell m.width m.height) SNode ℝ) (skips : Nat)
    (b : Bres ℝ) (datas : Nat → List UInt8) (P : OpenList (PadCell m.width m.height) ℝ)
    (cfg : SCfg (PadCell m.width m.height) ℝ) (start goal : Pose) (fuel : Nat) : Option (CRes (List SNode) × Nat) :=
  match padInit clamp m start goal with
  | .throw e => some (.throw e, 0)
  | .ub => some (.ub, 0)
  | .ok (sp, s, gp, g) =>
    kFindPathDuring A (fun k => steerUsable (shown m (datas k)) skips b) P { cfg with start := s, goal := g }
      (padContent sp s gp g start goal) fuel

end PathPlanning
