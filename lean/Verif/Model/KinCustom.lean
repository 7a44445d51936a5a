import Verif.Model.SteerSearch

/-!
# Model of searches with a user supplied goal test over nodes with stored poses

Sources: `/repo/include/cslibs_path_planning/generic/SearchAlgorithm.hpp:253-295, 345-445, 462-526`.

`Model/Search.lean` has the goal test for searches whose nodes are cells; here the nodes carry the poses written during
the search (`Model/KinSearch.lean`), and the test may look at them.  `findPathWithStartConfiguration` starts from a node
instead of a pose.
-/

namespace PathPlanning

/-- A goal test object for nodes with poses (SearchAlgorithm.hpp:253-295).  Simplification as in `GoalTest`: `terminate`
calls `addGoalCandidate` at most once, for the node it is given. -/
structure KGoalTest (N K C : Type) (P : OpenList N C) where
  /-- `terminate(current)`: the weight handed to `addGoalCandidate(current, weight)` if that is called, and the value
  returned.  It may look at everything the search holds. -/
  terminate : KSt N K C P → N → Option C × Bool
  /-- `getHeuristicGoal()` (SearchAlgorithm.hpp:352, 366): the heuristic of a node with respect to the node returned, whose
  content may be one of those of the map -/
  heurGoal : Option ((N → K) → N → C)

section
variable {N K C : Type} [DecidableEq N] [LinearOrder C]
variable (A : KAlgo N K C) {P : OpenList N C}

/-- The settings during a search with a goal test: `goal` is empty (`init`, SearchAlgorithm.hpp:460), `heuristic_goal` is
that of the test. -/
def tCfg (cfg : SCfg N C) (T : KGoalTest N K C P) (kin : N → K) : SCfg N C :=
  { cfg with goal := [], heurGoal := T.heurGoal.map fun H => H kin }

/-- The state after `terminate(current)` (SearchAlgorithm.hpp:416, 190-196). -/
def kTest (T : KGoalTest N K C P) (st : KSt N K C P) (cur : N) : KSt N K C P :=
  match (T.terminate st cur).1 with
  | some w => { st with s := addCandidate (A.alg st.s.lab st.kin) st.s cur w }
  | none => st

/-- One iteration of the loop of `findPathImp` (SearchAlgorithm.hpp:383-435) with a goal test.  `result` is empty during the
whole search (`init`, SearchAlgorithm.hpp:454), so a terminating test leads to line 437. -/
def kIterateT [Fintype N] (cfg : SCfg N C) (T : KGoalTest N K C P) (st : KSt N K C P) : KIter N K C P :=
  match P.next st.s.opn with
  | none => .done (finish cfg st.s) st
  | some (cur, o) =>
    if cfg.abort st.s.expansions then .done (finish cfg st.s) st
    else
      let st1 : KSt N K C P := { st with s := popNode (A.alg st.s.lab st.kin) (tCfg cfg T st.kin) st.s cur o }
      let st2 := kTest A T st1 cur
      if (T.terminate st1 cur).2 then .done (finish cfg st2.s) st2
      else if cfg.useCands && !st2.s.cands.isEmpty &&
          decide ((A.alg st2.s.lab st2.kin).addW st2.s.firstW cfg.oversearch <
            (A.alg st2.s.lab st2.kin).total (st2.s.lab cur)) then
        .done (finish cfg st2.s) st2
      else
        match kExpand A [] cur A.moves st2 with
        | .throw e => .done (.throw e) st2
        | .ub => .done .ub st2
        | .ok st' => .more st'

/-- `findPathImp` (SearchAlgorithm.hpp:372-445) with a goal test. -/
def kLoopT [Fintype N] (cfg : SCfg N C) (T : KGoalTest N K C P) :
    Nat → KSt N K C P → Option (CRes (List N) × KSt N K C P)
  | 0, _ => none
  | fuel + 1, st =>
    match kIterateT A cfg T st with
    | .done r st' => some (r, st')
    | .more st' => kLoopT cfg T fuel st'

/-- `findPathMapPose` and `findPathMapNode` on given start nodes (SearchAlgorithm.hpp:345-370): `kin` are the contents of
the nodes after `initStartPose` or `initStartNode`. -/
def kFindTest [Fintype N] (P : OpenList N C) (cfg : SCfg N C) (T : KGoalTest N K C P) (kin : N → K) (fuel : Nat) :
    Option (CRes (List K) × KSt N K C P) :=
  (kLoopT A cfg T fuel (kInit A P cfg kin)).map fun r =>
    (match r.1 with
    | .ok p => .ok (p.map r.2.kin)
    | .throw e => .throw e
    | .ub => .ub, r.2)

end

noncomputable section

/-- Contents of the nodes after `initStartPose` (SearchAlgorithm.hpp:462-492) on a fresh map: the heading of the pose is
written to the nodes `s` of `sp` that are not occupied. -/
def padStart {w h : Nat} (sp s : List (PadCell w h)) (theta : ℝ) (n : PadCell w h) : SNode :=
  { initContent n with
    forward := if n ∈ sp then n.fwd else true
    theta := if n ∈ s then theta else slotTheta 32 n.t }

/-- Contents of the nodes after `initStartNode` (SearchAlgorithm.hpp:495-526) on a fresh map: of the node given only
`x`, `y` (in `getPoses`) and `theta` are read, `*s = node` is commented out (line 504); `depth` is set to 0. -/
def padStartNode {w h : Nat} (sp s : List (PadCell w h)) (node : SNode) (n : PadCell w h) : SNode :=
  { initContent n with
    forward := if n ∈ sp then n.fwd else true
    theta := if n ∈ s then node.theta else slotTheta 32 n.t
    depth := if n ∈ s then 0 else (initContent n).depth }

/-- The start nodes: those of `getPoses` that are not occupied (SearchAlgorithm.hpp:466-478, 499-512). -/
def padStartNodes (clamp : ℝ → ℝ) (m : GridMap ℝ) (x y : ℝ) :
    CRes (List (PadCell m.width m.height) × List (PadCell m.width m.height)) := do
  let sp ← getPoses clamp m.width m.height ⟨x, y, 0⟩
  let s ← notOccupied m sp
  pure (sp, s)

variable {m : GridMap ℝ}

/-- `findPath(from, goal_test)` (SearchAlgorithm.hpp:253-281) after `setMap`; `reversed` is `NeighborhoodType::reversed`,
then the path is turned round. -/
def padFindTest (clamp : ℝ → ℝ) (A : KAlgo (PadCell m.width m.height) SNode ℝ)
    (P : OpenList (PadCell m.width m.height) ℝ) (cfg : SCfg (PadCell m.width m.height) ℝ)
    (T : KGoalTest (PadCell m.width m.height) SNode ℝ P) (reversed : Bool) (start : Pose) (fuel : Nat) :
    Option (CRes (List SNode)) :=
  match padStartNodes clamp m start.x start.y with
  | .throw e => some (.throw e)
  | .ub => some .ub
  | .ok (sp, s) =>
    (kFindTest A P { cfg with start := s } T (padStart sp s start.theta) fuel).map fun r =>
      match r.1 with
      | .ok q => .ok (if reversed then q.reverse else q)
      | .throw e => .throw e
      | .ub => .ub

/-- `findPathWithStartConfiguration(from, goal_test)` (SearchAlgorithm.hpp:283-295) after `setMap`. -/
def padFindConfig (clamp : ℝ → ℝ) (A : KAlgo (PadCell m.width m.height) SNode ℝ)
    (P : OpenList (PadCell m.width m.height) ℝ) (cfg : SCfg (PadCell m.width m.height) ℝ)
    (T : KGoalTest (PadCell m.width m.height) SNode ℝ P) (reversed : Bool) (node : SNode) (fuel : Nat) :
    Option (CRes (List SNode)) :=
  match padStartNodes clamp m node.x node.y with
  | .throw e => some (.throw e)
  | .ub => some .ub
  | .ok (sp, s) =>
    (kFindTest A P { cfg with start := s } T (padStartNode sp s node) fuel).map fun r =>
      match r.1 with
      | .ok q => .ok (if reversed then q.reverse else q)
      | .throw e => .throw e
      | .ub => .ub

end
end PathPlanning
