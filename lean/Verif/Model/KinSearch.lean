import Verif.Model.Search

/-!
# Model of the search over nodes whose pose is written during the search

Sources: `/repo/include/cslibs_path_planning/generic/SearchAlgorithm.hpp`,
`SteeringNeighborhood.hpp`, `DynamicSteeringNeighborhood.h`.

`Model/Search.lean` models searches in which a node is a cell with a fixed pose.  The steering
neighbourhoods store a continuous pose in the node *after* `processNeighbor` has put it on the open list,
and read it when the node is expanded, when the goal is tested and when the path is assembled.  Here the
content of the nodes (`x, y, theta, forward, steering_angle, custom, depth`) is a component `kin : N → K`
of the state of the search.  `processNeighbor`, `popNode`, the goal test, `backtrack` and the choice of the
best candidate are those of `Model/Search.lean`, used with the heuristic, the goal test and the distance of
the contents at the time of the call.

Simplifications: only searches between poses (`findPathPose`) with `NoExpansion`.  If a map operation throws,
the changes made by the current call of `iterateFreeNeighbors` are not part of the final state (the exception
leaves `findPath`).
-/

namespace PathPlanning

/-- What the search uses of map manager, neighbourhood, heuristic and arithmetic. -/
structure KAlgo (N K C : Type) where
  /-- `0.0` -/
  zero : C
  /-- addition of costs -/
  add : C → C → C
  /-- `advance(reference, …, i, step, …)` for the pairs `(i, step)` of the double loop, in that order
  (SteeringNeighborhood.hpp:298-308, DynamicSteeringNeighborhood.h:306-316): from the content of the
  reference and of its predecessors the cost (already multiplied by the resolution,
  SearchAlgorithm.hpp:632-633) and the new content; `none` if the cost is negative -/
  moves : List (K → List K → Option (C × K))
  /-- number of predecessors `advance` may look at -/
  predDepth : Nat
  /-- `map.contains(to)` and `map.isFreeOrUnknown(reference, to)` (SteeringNeighborhood.hpp:310-314) -/
  usable : K → K → CRes Bool
  /-- `map.lookup(to_x, to_y, to_theta, steering_angle, forward)`; `none` is `NULL`
  (SteeringNeighborhood.hpp:315-319) -/
  lookup : K → CRes (Option N)
  /-- `Heuristic::compute` -/
  heur : K → K → C
  /-- `NeighborhoodType::isGoal(goal, reference)`, with the content of `reference->prev` -/
  isGoal : K → K → Option K → Bool
  /-- `hypot(g->x - current->x, g->y - current->y)` (SearchAlgorithm.hpp:593) -/
  distTo : K → K → C
  /-- `goal_candidate_function`, a predicate on the path (SearchAlgorithm.hpp:597-603) -/
  accept : Option (List K → Bool)

section
variable {N K C : Type} [DecidableEq N] [LinearOrder C]

/-- The contents of the first `k` nodes reached through `prev` (SteeringNeighborhood.hpp:238-253). -/
def kPreds (lab : Labels N C) (kin : N → K) (n : N) : Nat → List K
  | 0 => []
  | k + 1 => match (lab n).prev with
    | none => []
    | some p => kin p :: kPreds lab kin p k

/-- The search operations on the contents `kin` (and predecessors in `lab`). -/
def KAlgo.alg (A : KAlgo N K C) (lab : Labels N C) (kin : N → K) : Algo N C where
  zero := A.zero
  add := A.add
  succ _ := []
  heur n g := A.heur (kin n) (kin g)
  isGoal g n := A.isGoal (kin g) (kin n) ((lab n).prev.map kin)
  distTo g n := A.distTo (kin g) (kin n)

/-- The goal candidate function sees the contents of the nodes of the path. -/
def KAlgo.cfg (A : KAlgo N K C) (cfg : SCfg N C) (kin : N → K) : SCfg N C :=
  { cfg with accept := A.accept.map fun f p => f (p.map kin) }

/-- State of the search object and of the nodes. -/
structure KSt (N K C : Type) (P : OpenList N C) where
  s : SSt N C P
  kin : N → K

variable (A : KAlgo N K C) {P : OpenList N C}

/-- `processNeighbor(reference, n, cost) == PR_ADDED_TO_OPEN_LIST` (SearchAlgorithm.hpp:628-669). -/
def processAdds (st : SSt N C P) (cur nb : N) (cost : C) : Bool :=
  let closer : Bool := decide ((st.lab cur).dist.map (fun a => A.add a cost) < (st.lab nb).dist)
  !((st.lab nb).closed && !closer) && (!(st.lab nb).opn || closer)

/-- One iteration of the double loop of `iterateFreeNeighbors` (SteeringNeighborhood.hpp:299-342,
DynamicSteeringNeighborhood.h:307-350).  Adding the reference itself fails `assert(neighbor != current)`
(SearchAlgorithm.hpp:644).  The heuristic inside `processNeighbor` sees the old content of `n`. -/
def kTry (goal : List N) (cur : N) (mv : K → List K → Option (C × K)) (st : KSt N K C P) :
    CRes (KSt N K C P) :=
  match mv (st.kin cur) (kPreds st.s.lab st.kin cur A.predDepth) with
  | none => .ok st
  | some (c, k) =>
    (A.usable (st.kin cur) k).bind fun u =>
      if u then
        (A.lookup k).bind fun r =>
          match r with
          | none => .ok st
          | some n =>
            let s' := processNeighbor (A.alg st.s.lab st.kin) goal st.s cur n c
            if processAdds A st.s cur n c then
              if n = cur then .ub
              else .ok { s := s', kin := fun m => if m = n then k else st.kin m }
            else .ok { s := s', kin := st.kin }
      else .ok st

/-- The double loop. -/
def kExpand (goal : List N) (cur : N) :
    List (K → List K → Option (C × K)) → KSt N K C P → CRes (KSt N K C P)
  | [], st => .ok st
  | mv :: ms, st => (kTry A goal cur mv st).bind (kExpand goal cur ms)

/-- Result of one iteration of the main loop. -/
inductive KIter (N K C : Type) (P : OpenList N C) where
  | more (st : KSt N K C P)
  | done (r : CRes (List N)) (st : KSt N K C P)

/-- One iteration of the loop of `findPathImp` (SearchAlgorithm.hpp:383-435). -/
def kIterate [Fintype N] (cfg : SCfg N C) (st : KSt N K C P) : KIter N K C P :=
  match P.next st.s.opn with
  | none => .done (finish cfg st.s) st
  | some (cur, o) =>
    if cfg.abort st.s.expansions then .done (finish cfg st.s) st
    else
      let s1 := popNode (A.alg st.s.lab st.kin) cfg st.s cur o
      match goalLoop (A.alg s1.lab st.kin) (A.cfg cfg st.kin) cur cfg.goal s1 with
      | .throw e => .done (.throw e) { st with s := s1 }
      | .ub => .done .ub { st with s := s1 }
      | .ok t =>
        if t.term then
          if t.result ≠ [] then .done (.ok t.result) { st with s := t.st }
          else .done (finish cfg t.st) { st with s := t.st }
        else if cfg.useCands && !t.st.cands.isEmpty &&
            decide ((A.alg t.st.lab st.kin).addW t.st.firstW cfg.oversearch <
              (A.alg t.st.lab st.kin).total (t.st.lab cur)) then
          .done (finish cfg t.st) { st with s := t.st }
        else
          match kExpand A cfg.goal cur A.moves { st with s := t.st } with
          | .throw e => .done (.throw e) { st with s := t.st }
          | .ub => .done .ub { st with s := t.st }
          | .ok st' => .more st'

/-- `findPathImp` (SearchAlgorithm.hpp:372-445); `none`: not finished after `fuel` iterations. -/
def kLoop [Fintype N] (cfg : SCfg N C) : Nat → KSt N K C P → Option (CRes (List N) × KSt N K C P)
  | 0, _ => none
  | fuel + 1, st =>
    match kIterate A cfg st with
    | .done r st' => some (r, st')
    | .more st' => kLoop cfg fuel st'

/-- `init()`, `initStartPose` and `initGoalPose` on freshly initialised nodes
(SearchAlgorithm.hpp:447-492, 528-570): `kin` are the contents of the nodes after the start and the goal
heading have been written. -/
def kInit (P : OpenList N C) (cfg : SCfg N C) (kin : N → K) : KSt N K C P where
  s := initSearch (A.alg (fun _ => Label.fresh A.zero) kin) P cfg
    (freshLabels (A.alg (fun _ => Label.fresh A.zero) kin))
  kin := kin

/-- `findPathPose` on given start and goal nodes (SearchAlgorithm.hpp:331-343).  The result is the list of
nodes copied by `backtrack`, with their contents at that moment. -/
def kFindPath [Fintype N] (P : OpenList N C) (cfg : SCfg N C) (kin : N → K) (fuel : Nat) :
    Option (CRes (List K)) :=
  (kLoop A cfg fuel (kInit A P cfg kin)).map fun r =>
    match r.1 with
    | .ok p => .ok (p.map r.2.kin)
    | .throw e => .throw e
    | .ub => .ub

end
end PathPlanning
