import Verif.Model.FloatAngle
import Verif.Model.SteerSearch

/-!
# Steering neighbourhoods in floating point arithmetic

The same expressions as `steerMove`, `advance`, `dynAdvance` and `scaled` of `Model/Steering.lean` and
`Model/SteerSearch.lean`, with every operation on `double` rounded (`F.fl`).  `sin`, `cos`, `tan` of the C library, as
computed, are parameters.  Negation and absolute value are exact.  Overflow, underflow, NaN and infinities are not modelled:
`r_world` is only used for steering angles other than 0, where it is finite.
-/

noncomputable section

namespace PathPlanning

/-- `std::sin`, `std::cos` and `std::tan` as computed by the C library. -/
structure Lib where
  sin : ℝ → ℝ
  cos : ℝ → ℝ
  tan : ℝ → ℝ

/-- `dir` (SteeringNeighborhood.hpp:213-216, DynamicSteeringNeighborhood.h:209-212): multiplication of `±1` with `-1` is exact. -/
def dirF (reversed forward : Bool) : ℝ :=
  let dir0 : ℝ := if forward then 1 else -1
  if reversed then dir0 * (-1) else dir0

/-- `LA / std::tan(steering_angle / 180. * M_PI)` (SteeringNeighborhood.hpp:220, DynamicSteeringNeighborhood.h:219). -/
def rWorldF (F : Fmt) (lib : Lib) (la : ℝ) (steer : Int) : ℝ :=
  F.fl (la / lib.tan (F.fl (F.fl (F.fl steer / 180) * piF F)))

/-- `distance_step_pixel` after `setResolution` (NonHolonomicNeighborhood.hpp:52-56). -/
def distPxF (F : Fmt) (distStep resolution : ℝ) : ℝ := F.fl (distStep / resolution)

/-- The motion of one step (SteeringNeighborhood.hpp:213-284, DynamicSteeringNeighborhood.h:208-289):
`(x_, y_, theta_)`. -/
def steerMoveF (F : Fmt) (lib : Lib) (clamp : ℝ → ℝ) (distStep resolution la : ℝ) (reversed : Bool)
    (ref : SNode) (forward : Bool) (steer : Int) : ℝ × ℝ × ℝ :=
  let dir := dirF reversed forward
  let rWorld := rWorldF F lib la steer
  let dsWorld := F.fl (distStep * dir)
  let dsMap := F.fl (distPxF F distStep resolution * dir)
  let rMap := F.fl (rWorld / resolution)
  if steer = 0 then
    (F.fl (ref.x + F.fl (dsMap * lib.cos ref.theta)), F.fl (ref.y + F.fl (dsMap * lib.sin ref.theta)),
     clamp (F.fl (ref.theta + 0)))
  else
    let dtheta := F.fl (dsWorld / rWorld)
    let t := F.fl (ref.theta + dtheta)
    (F.fl (ref.x + F.fl (rMap * F.fl (lib.sin t - lib.sin ref.theta))),
     F.fl (ref.y + F.fl (rMap * F.fl (-lib.cos t + lib.cos ref.theta))),
     clamp (F.fl (ref.theta + dtheta)))

/-- `SteeringNeighborhood::advance` (SteeringNeighborhood.hpp:120-292); see `advance`. -/
def advanceF (F : Fmt) (lib : Lib) (clamp : ℝ → ℝ) (P : SteerP) (so : SOpts) (garbage : Int) (ref : SNode)
    (preds : List SNode) (i step : Nat) : Option (F.D × SNode) :=
  let forward : Bool := decide (i < 3)
  let initial : Bool := decide (ref.depth < 1)
  if initial ∧ ref.forward ≠ forward then none
  else if ref.custom > 0 ∧ |ref.steer| > 0 then none
  else
    match steerSwitch P.maxSteer (P.steerDelta * step) ref.steer i step with
    | none => none
    | some s0 =>
      let steer := steerClamp P.maxSteer s0
      let finish (custom : Int) (cost : F.D) : Option (F.D × SNode) :=
        let m := steerMoveF F lib clamp P.distStep P.resolution P.la P.reversed ref forward steer
        let cost := if !forward then F.rd (cost.1 * so.penaltyBackward) else cost
        some (F.rd (cost.1 * 1), { x := m.1, y := m.2.1, theta := m.2.2, forward := forward, steer := steer,
                                   custom := custom, depth := ref.depth + 1 })
      if P.size = 6 then
        if ref.forward ≠ forward then
          if ref.custom > 0 then none
          else if |steer| > 0 then none
          else if straightPreds (P.straightDirSwitch - 1).toNat preds then
            finish (toI8 (P.straightDirSwitch - 1)) (F.rd (distPxF F P.distStep P.resolution * so.penaltyTurn))
          else none
        else finish (if ref.custom > 0 then ref.custom - 1 else 0) (F.rd (P.distStep / P.resolution))
      else finish garbage (F.rd (P.distStep / P.resolution))

/-- `DynamicSteeringNeighborhood::advance` (DynamicSteeringNeighborhood.h:115-297); see `dynAdvance`. -/
def dynAdvanceF (F : Fmt) (lib : Lib) (clamp : ℝ → ℝ) (P : DynP) (so : SOpts) (ref : SNode) (i step : Nat) :
    Option (F.D × SNode) :=
  let forward : Bool := decide (i < 3)
  let initial : Bool := decide (ref.depth < 1)
  if initial ∧ ref.forward ≠ forward then none
  else if ref.custom > 0 ∧ |ref.steer| > 0 then none
  else if P.reversed = false ∧ initial ∧ i > 3 then none
  else if P.reversed = false ∧ initial ∧ i = 3 then
    if step ≠ 0 then none
    else
      let dsMap := F.fl ((-P.la) / P.resolution)
      some (F.rd (|dsMap| * so.penaltyBackward),
        { x := F.fl (ref.x + F.fl (dsMap * lib.cos ref.theta)), y := F.fl (ref.y + F.fl (dsMap * lib.sin ref.theta)),
          theta := ref.theta, forward := false, steer := 0, custom := 0, depth := ref.depth + 1 })
  else
    match steerSwitch P.maxSteer (truncC (F.fl (P.steerDelta * F.fl (step : ℝ)))) ref.steer i step with
    | none => none
    | some s0 =>
      let steer := steerClamp P.maxSteer s0
      let finish (custom : Int) (cost : F.D) : Option (F.D × SNode) :=
        let m := steerMoveF F lib clamp P.distStep P.resolution P.la P.reversed ref forward steer
        let cost := if !forward then F.rd (cost.1 * so.penaltyBackward) else cost
        some (F.rd (cost.1 * 1), { x := m.1, y := m.2.1, theta := m.2.2, forward := forward, steer := steer,
                                   custom := custom, depth := ref.depth + 1 })
      if ref.forward ≠ forward ∧ ¬ initial then
        if ¬ P.allowForward ∨ ¬ P.allowBackward then none
        else if ref.custom > 0 then none
        else if |steer| > 0 then none
        else finish (1 - 1) (F.rd (distPxF F P.distStep P.resolution * so.penaltyTurn))
      else finish (if ref.custom > 0 then ref.custom - 1 else 0) (F.rd (P.distStep / P.resolution))

/-- The cost handed to the labels: negative costs are skipped (SteeringNeighborhood.hpp:306-308), the others multiplied by the
resolution (SearchAlgorithm.hpp:632-633). -/
def scaledF (F : Fmt) (res : ℝ) (r : Option (F.D × SNode)) : Option (F.D × SNode) :=
  match r with
  | none => none
  | some (c, s) => if c.1 < 0 then none else some (F.rd (c.1 * res), s)

/-- `lookup(double, double, double theta, int, bool)` (MapManager.hpp:603-608): the conversions `floor` are exact. -/
def steerLookupF (F : Fmt) (clamp : ℝ → ℝ) (w h : Nat) (k : SNode) : CRes (Option (PadCell w h)) := do
  let x ← GMgr.floorI k.x
  let y ← GMgr.floorI k.y
  let t ← angle2indexF F clamp 32 k.theta
  padLookup w h x y t k.forward

/-- What is left open of the search: the test of the line to the next pose, heuristic, goal test and goal distance, as
computed. -/
structure FSteerCfg (F : Fmt) where
  so : SOpts
  usable : SNode → SNode → CRes Bool
  heur : SNode → SNode → F.D
  isGoal : SNode → SNode → Option SNode → Bool
  distTo : SNode → SNode → F.D
  accept : Option (List SNode → Bool)

/-- Search operations with moves still open; costs are added with rounding (SearchAlgorithm.hpp:633). -/
def padAlgoF (F : Fmt) (clamp : ℝ → ℝ) (w h : Nat) (S : FSteerCfg F)
    (moves : List (SNode → List SNode → Option (F.D × SNode))) (predDepth : Nat) : KAlgo (PadCell w h) SNode F.D where
  zero := 0
  add := (· + ·)
  moves := moves
  predDepth := predDepth
  usable := S.usable
  lookup := steerLookupF F clamp w h
  heur := S.heur
  isGoal := S.isGoal
  distTo := S.distTo
  accept := S.accept

/-- Search with `DynamicSteeringNeighborhood` (DynamicSteeringNeighborhood.h:299-352). -/
def dynSteerAlgoF (F : Fmt) (lib : Lib) (clamp : ℝ → ℝ) (P : DynP) (w h : Nat) (res : ℝ) (S : FSteerCfg F) :
    KAlgo (PadCell w h) SNode F.D :=
  padAlgoF F clamp w h S ((moveList (if P.allowForward then 0 else 3) (if P.allowBackward then 6 else 3) P.steerSteps).map
    fun m k _ => scaledF F res (dynAdvanceF F lib clamp P S.so k m.1 m.2)) 0

/-- Search with `SteeringNeighborhood` (SteeringNeighborhood.hpp:294-344). -/
def steerAlgoF (F : Fmt) (lib : Lib) (clamp : ℝ → ℝ) (P : SteerP) (garbage : Nat × Nat → Int) (w h : Nat) (res : ℝ)
    (S : FSteerCfg F) : KAlgo (PadCell w h) SNode F.D :=
  padAlgoF F clamp w h S ((moveList 0 P.size P.steerSteps).map
    fun m k ps => scaledF F res (advanceF F lib clamp P S.so (garbage m) k ps m.1 m.2)) (P.straightDirSwitch - 1).toNat

end PathPlanning
