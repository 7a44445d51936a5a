import Verif.Model.SteerSearch
import Verif.Model.Expansion
import Verif.Model.Sampling

/-!
# Model of a steering search with analytic expansion

Sources: `/repo/include/cslibs_path_planning/generic/SearchAlgorithm.hpp:372-445, 572-613`, `ReedsSheppExpansion.hpp`.

`Model/KinSearch.lean` with an `AnalyticExpansionType` other than `NoExpansion`.  The state of the expansion outlives the search
(`ReedsSheppExpansion::instance()` is a process-wide singleton): it is an argument of a search and part of its result.

Simplification: the loop with which the expansion reads the waypoints of its curve is replaced by its result (`untilDone`).
-/

namespace PathPlanning

/-- An analytic expansion: `AnalyticExpansionType` with its state `X`. -/
structure KExp (X K C : Type) where
  /-- `canExpand(current, g, map)` (SearchAlgorithm.hpp:575), from the content of `current`, `current->h` and the content of `g` -/
  expand : X → K → C → K → CRes (Bool × X)
  /-- `getPath(&expansion)` (SearchAlgorithm.hpp:577) -/
  get : X → List K
  /-- `tmp.theta = expansion.begin()->theta` (SearchAlgorithm.hpp:580) on the contents of `tmp` and of the first node -/
  turn : K → K → K

section
variable {N K C X : Type} [DecidableEq N] [LinearOrder C]
variable (A : KAlgo N K C) (E : KExp X K C) {P : OpenList N C}

/-- What is returned after a successful `canExpand` (SearchAlgorithm.hpp:576-585).  `backtrack(&tmp)` returns an empty path if it runs
into a cycle. -/
def xPath [Fintype N] (start : List N) (lab : Labels N C) (kin : N → K) (cur : N) (x : X) : CRes (List K) :=
  match E.get x with
  | [] => .ub
  | e :: es => (backtrackCopy lab start cur).bind fun p =>
    .ok ((if p = [] then [] else p.dropLast.map kin ++ [E.turn (kin cur) e]) ++ e :: es)

/-- First loop of `hasPoseBeenReached` (SearchAlgorithm.hpp:574-587): `none` if no goal can be reached. -/
def xLoop [Fintype N] (start : List N) (lab : Labels N C) (kin : N → K) (cur : N) :
    List N → X → CRes (Option (List K) × X)
  | [], x => .ok (none, x)
  | g :: gs, x => (E.expand x (kin cur) (lab cur).h (kin g)).bind fun r =>
    if r.1 then (xPath E start lab kin cur r.2).bind fun q => .ok (some q, r.2)
    else xLoop start lab kin cur gs r.2

/-- Result of one iteration of the main loop. -/
inductive XIter (N K C X : Type) (P : OpenList N C) where
  | more (st : KSt N K C P) (x : X)
  | done (r : CRes (List K)) (x : X)

/-- The contents of the nodes of a path. -/
def contents (kin : N → K) : CRes (List N) → CRes (List K)
  | .ok p => .ok (p.map kin)
  | .throw e => .throw e
  | .ub => .ub

/-- One iteration of the loop of `findPathImp` (SearchAlgorithm.hpp:383-435): if there is a node to expand, the expansion is tried
first; if it fails, the rest of the iteration is that of `kIterate` (which takes the same node off the open list). -/
def xIterate [Fintype N] (cfg : SCfg N C) (st : KSt N K C P) (x : X) : XIter N K C X P :=
  let rest := fun x' => match kIterate A cfg st with
    | .more st' => XIter.more st' x'
    | .done r st' => .done (contents st'.kin r) x'
  match P.next st.s.opn with
  | none => rest x
  | some (cur, o) =>
    if cfg.abort st.s.expansions then rest x
    else
      match xLoop E cfg.start (popNode (A.alg st.s.lab st.kin) cfg st.s cur o).lab st.kin cur cfg.goal x with
      | .throw e => .done (.throw e) x
      | .ub => .done .ub x
      | .ok (some q, x') => .done (.ok q) x'
      | .ok (none, x') => rest x'

/-- `findPathImp` (SearchAlgorithm.hpp:372-445); `none`: not finished after `fuel` iterations. -/
def xSearch [Fintype N] (cfg : SCfg N C) : Nat → KSt N K C P → X → Option (CRes (List K) × X)
  | 0, _, _ => none
  | fuel + 1, st, x =>
    match xIterate A E cfg st x with
    | .done r x' => some (r, x')
    | .more st' x' => xSearch cfg fuel st' x'

/-- `findPathPose` on given start and goal nodes (SearchAlgorithm.hpp:331-343). -/
def xFindPath [Fintype N] (P : OpenList N C) (cfg : SCfg N C) (kin : N → K) (x : X) (fuel : Nat) : Option (CRes (List K) × X) :=
  xSearch A E cfg fuel (kInit A P cfg kin) x

end

section
open Classical in
/-- The result of a loop with fuel, for as much fuel as it needs; undefined if it never ends. -/
noncomputable def untilDone {α : Type} (f : Nat → CRes (Option α)) : CRes α :=
  if h : ∃ n, f n ≠ .ok none then
    match f (Nat.find h) with
    | .ok (some a) => .ok a
    | .ok none => .ub
    | .throw e => .throw e
    | .ub => .ub
  else .ub

/-- `ReedsSheppExpansion<N, exp_forward, exp_backward>` as the expansion of a steering search on the map `m`
(ReedsSheppExpansion.hpp:40-142; `NodeT::init(node, x, y, theta, forward)` is Common.hpp:152-156, SteeringNode.hpp:28-35). -/
noncomputable def rsExp (clamp : ℝ → ℝ) (N : Int) (ef eb : Bool) (m : GridMap ℝ) : KExp RSExp.St SNode ℝ where
  expand x k h g := untilDone fun fuel =>
    x.expand clamp fuel N ef eb ⟨⟨k.x, k.y, k.theta⟩, h, k.forward⟩ ⟨⟨g.x, g.y, g.theta⟩, 0, g.forward⟩ (Sampling.mapIf m)
  get x := x.get.map fun p => ⟨p.1.x, p.1.y, p.1.theta, p.2, 0, 0, 0⟩
  turn k e := { k with theta := e.theta }

/-- `findPathPose` (SearchAlgorithm.hpp:331-343) after `setMap`, as `padFindPath`, with analytic expansion. -/
noncomputable def padFindPathX {X : Type} (clamp : ℝ → ℝ) {m : GridMap ℝ} (A : KAlgo (PadCell m.width m.height) SNode ℝ)
    (E : KExp X SNode ℝ) (P : OpenList (PadCell m.width m.height) ℝ) (cfg : SCfg (PadCell m.width m.height) ℝ)
    (start goal : Pose) (x : X) (fuel : Nat) : Option (CRes (List SNode) × X) :=
  match padInit clamp m start goal with
  | .throw e => some (.throw e, x)
  | .ub => some (.ub, x)
  | .ok (sp, s, gp, g) =>
    xFindPath A E P { cfg with start := s, goal := g } (padContent sp s gp g start goal) x fuel

end
end PathPlanning
