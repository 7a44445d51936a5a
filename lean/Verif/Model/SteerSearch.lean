import Verif.Model.KinSearch
import Verif.Model.Steering
import Verif.Model.Managers
import Verif.Model.DynLine

/-!
# Model of a search with a steering neighbourhood on `DynamicDirectionalStateSpaceManager`

Sources: `/repo/include/cslibs_path_planning/generic/MapManager.hpp:425-775`,
`DynamicSteeringNeighborhood.h`, `SteeringNeighborhood.hpp`, `SearchAlgorithm.hpp`, `Common.hpp:85-180`,
`SteeringNode.hpp`.

This is the only state space manager that offers the `lookup` with five arguments the steering neighbourhoods call.
The node type is `DirectionalNode<SteeringNode<HeuristicNode<Pose2d>>>`.  `Model/KinSearch.lean` is instantiated: the
nodes are the states `(x, y, t, forward)` of the padded map, the contents are `SNode`s.

Simplification: `lookup` is a function here (`padLookup`); that the chunk manager with its lazily created chunks
answers like it after every history of lookups is `chunk_lookup_refines` in `Props/SteerSearch.lean`.
-/

noncomputable section

namespace PathPlanning

/-- The nodes of the padded map that `lookup` can return: `x` and `y` from `-31` to `w + 31` (`h + 31`), 32 heading
slots, two driving directions.  `c.1` stands for `x = c.1 - 31`. -/
abbrev PadCell (w h : Nat) := Fin (w + 63) × Fin (h + 63) × Fin 32 × Bool

namespace PadCell
variable {w h : Nat}
def x (c : PadCell w h) : Int := (c.1 : Int) - 31
def y (c : PadCell w h) : Int := (c.2.1 : Int) - 31
def t (c : PadCell w h) : Nat := c.2.2.1
def fwd (c : PadCell w h) : Bool := c.2.2.2
end PadCell

/-- `lookup(int x, int y, unsigned t, int, bool forward)` (MapManager.hpp:609-630) for a map of `w` by `h` cells: on the
outermost padding lines `x = -32` and `y = -32` the chunk index is wrong, and the access throws. -/
def padLookup (w h : Nat) (x y : Int) (t : Nat) (fwd : Bool) : CRes (Option (PadCell w h)) :=
  if hr : -31 ≤ x ∧ x < w + 32 ∧ -31 ≤ y ∧ y < h + 32 ∧ t < 32 then
    .ok (some (⟨(x + 31).toNat, by omega⟩, ⟨(y + 31).toNat, by omega⟩, ⟨t, by omega⟩, fwd))
  else if -32 ≤ x ∧ x < w + 32 ∧ -32 ≤ y ∧ y < 0 ∧ y < h + 32 ∧ t < 32 then .throw "std::out_of_range"
  else .throw "OutsideMapException"

/-- `lookup(double, double, double theta, int, bool)` (MapManager.hpp:603-608). -/
def steerLookup (clamp : ℝ → ℝ) (w h : Nat) (k : SNode) : CRes (Option (PadCell w h)) := do
  let x ← GMgr.floorI k.x
  let y ← GMgr.floorI k.y
  let t ← angle2index clamp 32 k.theta
  padLookup w h x y t k.forward

/-- `contains(double, double)` (MapManager.hpp:652-661). -/
def steerContains (w h : Nat) (k : SNode) : CRes Bool := do
  let x ← GMgr.floorI k.x
  let y ← GMgr.floorI k.y
  pure ((DMgr.setMap w h).contains x y)

/-- `map.contains(to_x, to_y)` and `map.isFreeOrUnknown(reference->x, reference->y, to_x, to_y)`
(DynamicSteeringNeighborhood.h:318-323).  `b` is the state of the mutable member `bresenham`, `skips` the member
`bresenham_skips` (MapManager.hpp:537-539). -/
def steerUsable (m : GridMap ℝ) (skips : Nat) (b : Bres ℝ) (k k' : SNode) : CRes Bool := do
  let c ← steerContains m.width m.height k'
  if !c then pure false
  else
    let fuel := (⌊k'.x⌋ - ⌊k.x⌋).natAbs + (⌊k'.y⌋ - ⌊k.y⌋).natAbs + 1
    let r ← dynLineFreeOrUnknown fuel skips b m k.x k.y k'.x k'.y
    match r with
    | some r => pure r
    | none => .ub

/-- The search policies besides map manager and neighbourhood. -/
structure SteerCfg where
  /-- `search_options` -/
  so : SOpts
  /-- `Heuristic::compute` -/
  heur : SNode → SNode → ℝ
  /-- `goal_candidate_function` -/
  accept : Option (List SNode → Bool)

/-- A successor with the cost handed to `processNeighbor`: candidates with negative cost are skipped
(SteeringNeighborhood.hpp:306-308), the cost is multiplied by the resolution (SearchAlgorithm.hpp:632-633). -/
def scaled (res : ℝ) (r : Option (ℝ × SNode)) : Option (ℝ × SNode) :=
  match r with
  | none => none
  | some (c, s) => if c < 0 then none else some (c * res, s)

/-- Search operations with moves and goal test still open. -/
def padAlgo (clamp : ℝ → ℝ) (m : GridMap ℝ) (skips : Nat) (b : Bres ℝ) (S : SteerCfg)
    (moves : List (SNode → List SNode → Option (ℝ × SNode))) (predDepth : Nat)
    (isGoal : SNode → SNode → Option SNode → Bool) : KAlgo (PadCell m.width m.height) SNode ℝ where
  zero := 0
  add := (· + ·)
  moves := moves
  predDepth := predDepth
  usable := steerUsable m skips b
  lookup := steerLookup clamp m.width m.height
  heur := S.heur
  isGoal := isGoal
  distTo g k := Real.sqrt ((g.x - k.x) ^ 2 + (g.y - k.y) ^ 2)
  accept := S.accept

/-- The moves of `DynamicSteeringNeighborhood::iterateFreeNeighbors` (DynamicSteeringNeighborhood.h:303-316). -/
def dynMoves (clamp : ℝ → ℝ) (P : DynP) (so : SOpts) (res : ℝ) : List (SNode → List SNode → Option (ℝ × SNode)) :=
  (moveList (if P.allowForward then 0 else 3) (if P.allowBackward then 6 else 3) P.steerSteps).map
    fun m k _ => scaled res (dynAdvance clamp P so k m.1 m.2)

/-- Search with `DynamicSteeringNeighborhood`; `distThr`, `angThr` are `goal_dist_threshold`, `goal_angle_threshold`. -/
def dynSteerAlgo (clamp : ℝ → ℝ) (P : DynP) (distThr angThr : ℝ) (m : GridMap ℝ) (skips : Nat) (b : Bres ℝ) (S : SteerCfg) :
    KAlgo (PadCell m.width m.height) SNode ℝ :=
  padAlgo clamp m skips b S (dynMoves clamp P S.so m.res) 0 fun g k _ => dynIsGoal P.resolution distThr angThr g k

/-- The moves of `SteeringNeighborhood::iterateFreeNeighbors` (SteeringNeighborhood.hpp:298-308). -/
def steerMoves (clamp : ℝ → ℝ) (P : SteerP) (so : SOpts) (garbage : Nat × Nat → Int) (res : ℝ) :
    List (SNode → List SNode → Option (ℝ × SNode)) :=
  (moveList 0 P.size P.steerSteps).map fun m k ps => scaled res (advance clamp P so (garbage m) k ps m.1 m.2)

/-- Search with `SteeringNeighborhood`; `distance` is the template parameter. -/
def steerAlgo (clamp : ℝ → ℝ) (P : SteerP) (distance : Int) (garbage : Nat × Nat → Int) (m : GridMap ℝ) (skips : Nat)
    (b : Bres ℝ) (S : SteerCfg) : KAlgo (PadCell m.width m.height) SNode ℝ :=
  padAlgo clamp m skips b S (steerMoves clamp P S.so garbage m.res) (P.straightDirSwitch - 1).toNat
    fun g k pv => steerIsGoal P distance g k pv

/-- Content of a node after the construction of its chunk (MapManager.hpp:444-465, Common.hpp:85-103, 146-151,
SteeringNode.hpp:28-35): `forward` is `true` in both halves. -/
def initContent {w h : Nat} (c : PadCell w h) : SNode where
  x := (c.x : ℝ)
  y := (c.y : ℝ)
  theta := slotTheta 32 c.t
  forward := true
  steer := 0
  custom := 0
  depth := 0

/-- `DirectionalNode::getPoses` (Common.hpp:153-177): the nodes of the cell of the pose for both directions.  The temporary
nodes are filled by `SteeringNode::init(memory, p)`, which sets the heading to 0. -/
def getPoses (clamp : ℝ → ℝ) (w h : Nat) (p : Pose) : CRes (List (PadCell w h)) := do
  let a ← steerLookup clamp w h ⟨p.x, p.y, 0, true, 0, 0, 0⟩
  let b ← steerLookup clamp w h ⟨p.x, p.y, 0, false, 0, 0, 0⟩
  match a, b with
  | some a, some b => pure [a, b]
  | _, _ => .ub

/-- The nodes of `ns` that are not occupied (`map_.isOccupied(s)`, MapManager.hpp:747-755; the coordinates are still those of
the cell, SearchAlgorithm.hpp:468-485). -/
def notOccupied (m : GridMap ℝ) : List (PadCell m.width m.height) → CRes (List (PadCell m.width m.height))
  | [] => .ok []
  | n :: ns => do
    let o ← ptOccupied m n.x n.y
    let r ← notOccupied m ns
    pure (if o then r else n :: r)

/-- The contents of the nodes when the search begins (`initStartPose`, `initGoalPose`, SearchAlgorithm.hpp:462-492, 528-570).
`getPoses` has written the direction of the nodes `sp` and `gp`; the heading is written to the nodes `s` and `g` that are not
occupied, that of the goal last. -/
def padContent {w h : Nat} (sp s gp g : List (PadCell w h)) (start goal : Pose) (n : PadCell w h) : SNode :=
  { initContent n with
    forward := if n ∈ sp ∨ n ∈ gp then n.fwd else true
    theta := if n ∈ g then goal.theta else if n ∈ s then start.theta else slotTheta 32 n.t }

/-- The start and goal nodes: those of `getPoses` that are not occupied. -/
def padInit (clamp : ℝ → ℝ) (m : GridMap ℝ) (start goal : Pose) :
    CRes (List (PadCell m.width m.height) × List (PadCell m.width m.height) × List (PadCell m.width m.height) ×
      List (PadCell m.width m.height)) := do
  let sp ← getPoses clamp m.width m.height start
  let s ← notOccupied m sp
  let gp ← getPoses clamp m.width m.height goal
  let g ← notOccupied m gp
  pure (sp, s, gp, g)

/-- `findPathPose` (SearchAlgorithm.hpp:331-343) after `setMap`: `initStartPose`, `initGoalPose` and the search.  `cfg`
supplies the options of the search; its start and goal nodes are replaced. -/
def padFindPath (clamp : ℝ → ℝ) {m : GridMap ℝ} (A : KAlgo (PadCell m.width m.height) SNode ℝ)
    (P : OpenList (PadCell m.width m.height) ℝ) (cfg : SCfg (PadCell m.width m.height) ℝ) (start goal : Pose)
    (fuel : Nat) : Option (CRes (List SNode)) :=
  match padInit clamp m start goal with
  | .throw e => some (.throw e)
  | .ub => some .ub
  | .ok (sp, s, gp, g) =>
    kFindPath A P { cfg with start := s, goal := g } (padContent sp s gp g start goal) fuel

end PathPlanning
