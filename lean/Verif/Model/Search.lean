import Verif.Prelude
import Mathlib.Data.Fintype.Card
import Mathlib.Order.WithBot

/-!
# Model of the generic best-first search

Sources: `/repo/include/cslibs_path_planning/generic/SearchAlgorithm.hpp`
(`GenericSearchAlgorithm`), `Common.hpp` (`Node`), `Heuristics.hpp` (`HeuristicNode`).

A node (`NodeT*`) is an element of a finite type `N`; the fields the search writes are a `Label`.
Costs (`double`, together with `INFINITY`) are `WithTop C` for an arbitrary linearly ordered type
`C` with an arbitrary addition `add` (so that rounding addition is an instance).  The map, the
neighbourhood and the heuristic enter through `Algo`, the open list through `OpenList`.

Simplifications: poses inside nodes (`theta`, `center_x`, ...) are not part of a label;
`boost::this_thread::interruption_point()` is not modelled; the wall clock is an arbitrary
function `abort` of the number of expansions.
-/

namespace PathPlanning

/-- What the search uses of map, neighbourhood, heuristic and arithmetic. -/
structure Algo (N C : Type) where
  /-- `0.0` -/
  zero : C
  /-- addition of costs -/
  add : C → C → C
  /-- neighbours for which `iterateFreeNeighbors` calls `processNeighbor`, in that order, with
  the cost `delta * res` (e.g. DirectNeighborhood.hpp:46-63, SearchAlgorithm.hpp:632-633) -/
  succ : N → List (N × C)
  /-- value `Heuristic::compute(current, goal, res)` stores in `current->h`; constant `0.0`
  for `NoHeuristic`, whose nodes have no field `h` -/
  heur : N → N → C
  /-- `NeighborhoodType::isGoal(goal, reference)` -/
  isGoal : N → N → Bool
  /-- `hypot(g->x - current->x, g->y - current->y)` (SearchAlgorithm.hpp:593) -/
  distTo : N → N → C

/-- The policy class holding the open nodes (`add`, `next`, `empty`, `clear`;
NodeManager.hpp).  `add` sees the total cost of the node at the time of insertion. -/
structure OpenList (N C : Type) where
  O : Type
  /-- state after `clear()` -/
  empty : O
  add : O → N → WithTop C → O
  /-- `none` iff `empty()` -/
  next : O → Option (N × O)

/-- Fields of `Node` / `HeuristicNode` written by the search (Common.hpp:105-108,
Heuristics.hpp:64).  The bits of `marked` are separate Booleans (see `Model/Marks.lean`). -/
structure Label (N C : Type) where
  dist : WithTop C
  h : C
  opn : Bool
  closed : Bool
  watched : Bool
  expanded : Bool
  prev : Option N

/-- `Node::init` / `HeuristicNode::init` (Common.hpp:85-103, Heuristics.hpp:45-54). -/
def Label.fresh {N C : Type} (z : C) : Label N C :=
  { dist := ⊤, h := z, opn := false, closed := false, watched := false, expanded := false,
    prev := none }

/-- Per-search constants: members `start`, `goal`, `search_options`, `use_candidates`,
`goal_candidate_function`, and the parameters standing for the clock, the analytic expansion and
the tie breaking of `std::priority_queue`. -/
structure SCfg (N C : Type) where
  start : List N
  goal : List N
  /-- `use_candidates` (SearchAlgorithm.hpp:455) -/
  useCands : Bool
  /-- `search_options.oversearch_distance` -/
  oversearch : C
  /-- `goal_candidate_function` -/
  accept : Option (List N → Bool)
  /-- the clock has passed `stamp_abort_` when this many expansions have been made -/
  abort : Nat → Bool
  /-- `AnalyticExpansionType::canExpand` / `getPath`, which may depend on the call history -/
  canExpand : Nat → N → N → Option (List N)
  /-- `goal_candidates.top()` -/
  top : List (N × C) → Option (N × C)
  /-- `heuristic_goal`: the value `Heuristic::compute(current, heuristic_goal, res)` stores in `current->h`, or `none` for a
  null pointer (the value after construction, SearchAlgorithm.hpp:128, 410-411) -/
  heurGoal : Option (N → C) := none

/-- Mutable state of the search object during `findPathImp`. -/
structure SSt (N C : Type) (P : OpenList N C) where
  lab : N → Label N C
  opn : P.O
  /-- `goal_candidates`, in the order of the pushes -/
  cands : List (N × C)
  /-- `first_candidate_weight` -/
  firstW : WithTop C
  expansions : Nat
  multi : Nat
  touched : Nat
  updates : Nat

section
variable {N C : Type} [DecidableEq N] [LinearOrder C]

/-- Addition with an infinite left operand allowed. -/
def Algo.addW (A : Algo N C) (d : WithTop C) (c : C) : WithTop C := d.map (fun a => A.add a c)

/-- `HeuristicNode::getTotalCost` (Heuristics.hpp:35-37); `Node::getTotalCost`
(Common.hpp:81-83) is the case in which `h` is always the neutral `0.0`. -/
def Algo.total (A : Algo N C) (l : Label N C) : WithTop C := A.addW l.dist l.h

/-- Writing one node's fields. -/
def setLab (lab : N → Label N C) (n : N) (l : Label N C) : N → Label N C :=
  fun m => if m = n then l else lab m

/-- `backtrack` (SearchAlgorithm.hpp:671-695) after `path.push_back(*goal)`: the loop from
`current`.  `path` is already reversed; a null `prev` or a self-loop is a failed `assert`. -/
def backtrackFrom [Fintype N] (lab : N → Label N C) (start : List N) (cur : N)
    (contained : Finset N) (path : List N) : CRes (List N) :=
  if cur ∈ start then .ok path
  else if _hc : cur ∈ contained then .ok []
  else
    match (lab cur).prev with
    | none => .ub
    | some p =>
      if (lab p).prev = some p then .ub
      else backtrackFrom lab start p (insert cur contained) (p :: path)
termination_by (Finset.univ \ contained).card
decreasing_by
  apply Finset.card_lt_card
  refine ⟨fun x hx => ?_, fun hs => ?_⟩
  · simp only [Finset.mem_sdiff, Finset.mem_univ, Finset.mem_insert, true_and, not_or] at hx ⊢
    exact hx.2
  · have := hs (Finset.mem_sdiff.2 ⟨Finset.mem_univ cur, _hc⟩)
    simp at this

/-- `backtrack(goal)` for a node of the map (SearchAlgorithm.hpp:671-695). -/
def backtrack [Fintype N] (lab : N → Label N C) (start : List N) (n : N) : CRes (List N) :=
  backtrackFrom lab start n ∅ [n]

/-- `backtrack(&tmp)` for a *copy* `tmp` of the node `n` (SearchAlgorithm.hpp:579-582): the
address of the copy is never in `start`, so the loop body is entered even if `n` is. -/
def backtrackCopy [Fintype N] (lab : N → Label N C) (start : List N) (n : N) :
    CRes (List N) :=
  match (lab n).prev with
  | none => .ub
  | some p =>
    if (lab p).prev = some p then .ub
    else backtrackFrom lab start p ∅ [p, n]

variable (A : Algo N C) {P : OpenList N C}

/-- `processNeighbor` (SearchAlgorithm.hpp:628-669); the result code, which no caller of the
modelled neighbourhoods uses, is dropped. -/
def processNeighbor (goal : List N) (st : SSt N C P) (cur nb : N) (cost : C) : SSt N C P :=
  let l0 : Label N C := { st.lab nb with watched := true }
  let lab0 := setLab st.lab nb l0
  let distance := A.addW (lab0 cur).dist cost
  let closer : Bool := decide (distance < l0.dist)
  if l0.closed && !closer then { st with lab := lab0 }
  else if !l0.opn || closer then
    let l1 : Label N C := { l0 with
      prev := some cur
      dist := distance
      h := match goal with
        | [] => l0.h
        | g :: _ => A.heur nb g
      opn := true }
    { st with
      lab := setLab lab0 nb l1
      opn := P.add st.opn nb (A.total l1)
      touched := st.touched + 1
      updates := if l0.opn then st.updates + 1 else st.updates }
  else { st with lab := lab0 }

/-- `NeighborhoodType::iterateFreeNeighbors(*this, map_, current)`
(SearchAlgorithm.hpp:432; e.g. DirectNeighborhood.hpp:46-63). -/
def expandNode (goal : List N) (st : SSt N C P) (cur : N) : SSt N C P :=
  (A.succ cur).foldl (fun s e => processNeighbor A goal s cur e.1 e.2) st

/-- `addGoalCandidate` (SearchAlgorithm.hpp:190-196). -/
def addCandidate (st : SSt N C P) (cur : N) (w : C) : SSt N C P :=
  { st with
    firstW := if st.cands.isEmpty then A.total (st.lab cur) else st.firstW
    cands := st.cands ++ [(cur, w)] }

/-- What a goal test does to the search: whether to terminate, the content of `result`. -/
structure TestOut (N C : Type) (P : OpenList N C) where
  term : Bool
  result : List N
  st : SSt N C P

/-- Second loop of `hasPoseBeenReached` (SearchAlgorithm.hpp:591-610). -/
def goalLoop [Fintype N] (cfg : SCfg N C) (cur : N) :
    List N → SSt N C P → CRes (TestOut N C P)
  | [], st => .ok ⟨false, [], st⟩
  | g :: gs, st =>
    if A.isGoal g cur then
      if cfg.useCands then
        let st' := addCandidate A st cur (A.distTo g cur)
        match cfg.accept with
        | none => goalLoop cfg cur gs st'
        | some f => do
          let p ← backtrack st'.lab cfg.start cur
          if f p then pure ⟨true, p, st'⟩ else goalLoop cfg cur gs st'
      else do
        let p ← backtrack st.lab cfg.start cur
        pure ⟨true, p, st⟩
    else goalLoop cfg cur gs st

/-- First loop of `hasPoseBeenReached` (SearchAlgorithm.hpp:574-587): analytic expansion.  An
empty expansion path makes `expansion.begin()->theta` undefined behaviour. -/
def expansionLoop [Fintype N] (cfg : SCfg N C) (cur : N) (st : SSt N C P) :
    List N → CRes (Option (List N))
  | [] => .ok none
  | g :: gs =>
    match cfg.canExpand st.expansions cur g with
    | some e =>
      if e.isEmpty then .ub
      else do
        let p ← backtrackCopy st.lab cfg.start cur
        pure (some (p ++ e))
    | none => expansionLoop cfg cur st gs

/-- `hasPoseBeenReached` (SearchAlgorithm.hpp:572-613). -/
def poseTest [Fintype N] (cfg : SCfg N C) (st : SSt N C P) (cur : N) :
    CRes (TestOut N C P) := do
  match ← expansionLoop cfg cur st cfg.goal with
  | some r => pure ⟨true, r, st⟩
  | none => goalLoop A cfg cur cfg.goal st

/-- A user supplied goal test object (`findPath(from, goal_test)`, SearchAlgorithm.hpp:253-281).
Simplification: `terminate` calls the public `addGoalCandidate` at most once, for the node it is given; it has no
access to `result`. -/
structure GoalTest (N C : Type) (P : OpenList N C) where
  /-- `terminate(current)`: the weight handed to `addGoalCandidate(current, weight)` if that is called, and the value
  returned.  It may look at everything the search holds. -/
  terminate : SSt N C P → N → Option C × Bool
  /-- `getHeuristicGoal()` (SearchAlgorithm.hpp:352), see `SCfg.heurGoal` -/
  heurGoal : Option (N → C)

/-- Evaluating a user supplied goal test (SearchAlgorithm.hpp:414). -/
def customTest (T : GoalTest N C P) (st : SSt N C P) (cur : N) : CRes (TestOut N C P) :=
  .ok ⟨(T.terminate st cur).2, [], match (T.terminate st cur).1 with
    | some w => addCandidate A st cur w
    | none => st⟩

/-- After the main loop (SearchAlgorithm.hpp:437-444). -/
def finish [Fintype N] (cfg : SCfg N C) (st : SSt N C P) : CRes (List N) :=
  match cfg.top st.cands with
  | some best => backtrack st.lab cfg.start best.1
  | none => .ok []

/-- Taking `current` off the open list (SearchAlgorithm.hpp:396-412). -/
def popNode (cfg : SCfg N C) (st : SSt N C P) (cur : N) (o : P.O) : SSt N C P :=
  let l := st.lab cur
  { st with
    opn := o
    expansions := st.expansions + 1
    multi := if l.expanded then st.multi + 1 else st.multi
    lab := setLab st.lab cur { l with
      opn := false
      closed := true
      expanded := true
      h := match cfg.goal with
        | [] => match cfg.heurGoal with
          | none => l.h
          | some H => H cur
        | g :: _ => A.heur cur g } }

/-- One iteration of the loop of `findPathImp` (SearchAlgorithm.hpp:383-435): either the
search goes on in a new state or it ends with a path.  The state at the end is part of the
result, because the labels survive in the node manager. -/
inductive Iter (N C : Type) (P : OpenList N C) where
  | more (st : SSt N C P)
  | done (r : CRes (List N)) (st : SSt N C P)

def iterate [Fintype N] (cfg : SCfg N C)
    (test : SSt N C P → N → CRes (TestOut N C P)) (st : SSt N C P) : Iter N C P :=
  match P.next st.opn with
  | none => .done (finish cfg st) st
  | some (cur, o) =>
    if cfg.abort st.expansions then .done (finish cfg st) st
    else
      let st1 := popNode A cfg st cur o
      match test st1 cur with
      | .throw e => .done (.throw e) st1
      | .ub => .done .ub st1
      | .ok t =>
        if t.term then
          if t.result ≠ [] then .done (.ok t.result) t.st else .done (finish cfg t.st) t.st
        else if cfg.useCands && !t.st.cands.isEmpty &&
            decide (A.addW t.st.firstW cfg.oversearch < A.total (t.st.lab cur)) then
          .done (finish cfg t.st) t.st
        else .more (expandNode A cfg.goal t.st cur)

/-- `findPathImp` (SearchAlgorithm.hpp:372-445); `none`: not finished after `fuel`
iterations. -/
def searchLoop [Fintype N] (cfg : SCfg N C)
    (test : SSt N C P → N → CRes (TestOut N C P)) :
    Nat → SSt N C P → Option (CRes (List N) × SSt N C P)
  | 0, _ => none
  | fuel + 1, st =>
    match iterate A cfg test st with
    | .done r st' => some (r, st')
    | .more st' => searchLoop cfg test fuel st'

/-- Effect of `initStartPose` on one start node that is not occupied
(SearchAlgorithm.hpp:470-477). -/
def addStart (st : SSt N C P) (s : N) : SSt N C P :=
  let l : Label N C := { st.lab s with dist := (A.zero : WithTop C), opn := true }
  { st with lab := setLab st.lab s l, opn := P.add st.opn s (A.total l) }

/-- The persistent part of a search object: the labels in the node manager. -/
abbrev Labels (N C : Type) := N → Label N C

/-- `setMap` re-initialises every node (MapManager.hpp:49-58, 180-196). -/
def freshLabels : Labels N C := fun _ => Label.fresh A.zero

/-- `init()` followed by `initStartPose` for the not-occupied start nodes `cfg.start`
(SearchAlgorithm.hpp:447-492): the labels are *not* reset.  (Neither is the statistics counter
`touched`, which has no influence on the search; here it counts from 0.) -/
def initSearch (P : OpenList N C) (cfg : SCfg N C) (lab : Labels N C) : SSt N C P :=
  cfg.start.foldl (addStart A)
    { lab := lab, opn := P.empty, cands := [], firstW := (A.zero : WithTop C), expansions := 0,
      multi := 0, touched := 0, updates := 0 }

/-- `findPathPose` on given start and goal nodes (SearchAlgorithm.hpp:331-343). -/
def findPathNodes [Fintype N] (P : OpenList N C) (cfg : SCfg N C) (lab : Labels N C)
    (fuel : Nat) : Option (CRes (List N) × SSt N C P) :=
  searchLoop A cfg (poseTest A cfg) fuel (initSearch A P cfg lab)

/-- `findPathMapPose` and `findPathMapNode` with a user supplied goal test on given start nodes
(SearchAlgorithm.hpp:345-370); the member `goal` is empty.  (`findPathMapNode` also resets the start nodes' `depth`, which
is not part of a label.) -/
def findPathCustom [Fintype N] (P : OpenList N C) (cfg : SCfg N C)
    (T : GoalTest N C P) (lab : Labels N C) (fuel : Nat) :
    Option (CRes (List N) × SSt N C P) :=
  searchLoop A { cfg with goal := [], heurGoal := T.heurGoal } (customTest A T) fuel
    (initSearch A P { cfg with goal := [], heurGoal := T.heurGoal } lab)

/-- `getPathCandidates` (SearchAlgorithm.hpp:697-710): the copied queue is emptied from the top.  The first argument is a bound for
the number of candidates. -/
def candidatePaths [Fintype N] (cfg : SCfg N C) (lab : Labels N C) : Nat → List (N × C) → CRes (List (List N))
  | 0, _ => .ok []
  | n + 1, tmp =>
    match cfg.top tmp with
    | none => .ok []
    | some gc => do
      let p ← backtrack lab cfg.start gc.1
      let ps ← candidatePaths cfg lab n (tmp.erase gc)
      pure (p :: ps)

/-- `getPathCandidates` on the state after a search. -/
def getPathCandidates [Fintype N] (cfg : SCfg N C) (st : SSt N C P) : CRes (List (List N)) :=
  candidatePaths cfg st.lab st.cands.length st.cands

/-- The result of a whole search: lookups of the poses (`NodeT::getPoses`, which may throw
`OutsideMapException`, outside of the `try` blocks) and the occupancy filter
(SearchAlgorithm.hpp:462-492, 528-570).  `occupied` and `outside` are never set to `true`, so
none of the four documented exceptions can be thrown; `isOccupied` does not throw. -/
def findPathPose [Fintype N] {Pose : Type} (P : OpenList N C) (getPoses : Pose → CRes (List N))
    (isOccupied : N → Bool) (cfg : SCfg N C) (lab : Labels N C) (from' to' : Pose) (fuel : Nat) :
    Option (CRes (List N)) :=
  match getPoses from' with
  | .throw e => some (.throw e)
  | .ub => some .ub
  | .ok ss =>
    let start := ss.filter (fun s => !isOccupied s)
    let occupied := false
    let outside := false
    if start.isEmpty && occupied then some (.throw "StartNotFreeException")
    else if start.isEmpty && outside then some (.throw "StartOutOfMapException")
    else
      match getPoses to' with
      | .throw e => some (.throw e)
      | .ub => some .ub
      | .ok gs =>
        let goal := gs.filter (fun g => !isOccupied g)
        if start.isEmpty && occupied then some (.throw "GoalNotFreeException")
        else if start.isEmpty && outside then some (.throw "GoalOutOfMapException")
        else (findPathNodes A P { cfg with start := start, goal := goal } lab fuel).map Prod.fst

end
end PathPlanning
