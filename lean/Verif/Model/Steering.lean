import Verif.Prelude
import Verif.Model.Vec
import Mathlib.Analysis.SpecialFunctions.Trigonometric.Basic

/-!
# Model of `SteeringNeighborhood`, `DynamicSteeringNeighborhood` and `NonHolonomicNeighborhood`

`double` is modelled by `ℝ`, `int` by `Int` (the steering angles are a few degrees, the products with
the step number do not overflow).  `MathHelper::AngleClamp` (external) is a parameter `clamp`.
-/

noncomputable section

namespace PathPlanning

/-- The kinematic fields of a search node: `x, y, theta, forward` of the point type, `custom`
(Common.hpp:105-108), `steering_angle` and `depth` (SteeringNode.hpp:14-17).  The predecessor pointer
`prev` is kept in the store (`SStore`) and handed to `advance` as the list of predecessors. -/
@[ext] structure SNode where
  x : ℝ
  y : ℝ
  theta : ℝ
  forward : Bool
  steer : Int
  custom : Int
  depth : Int

/-- `SearchOptions` (Common.hpp:29-34), the penalties only. -/
structure SOpts where
  penaltyBackward : ℝ := 2.5
  penaltyTurn : ℝ := 4

/-- Template parameters of `SteeringNeighborhood` (SteeringNeighborhood.hpp:20-39) and the statics of its
base class (NonHolonomicNeighborhood.hpp:48-56): `distStep` in metres, `resolution` in metres per cell,
`la` the wheel base in metres, angles in whole degrees, `size` the number of moves (3 or 6). -/
structure SteerP where
  distStep : ℝ
  resolution : ℝ
  la : ℝ
  maxSteer : Int
  steerDelta : Int
  steerSteps : Nat
  size : Nat
  reversed : Bool
  straightDirSwitch : Int

/-- `distance_step_pixel` after `setResolution` (NonHolonomicNeighborhood.hpp:52-56). -/
def SteerP.distPx (P : SteerP) : ℝ := P.distStep / P.resolution

/-- Conversion `int → char` (signed 8 bit, modulo 256). -/
def toI8 (z : Int) : Int := (z + 128) % 256 - 128

/-- The `switch(i)` choosing the new steering angle (SteeringNeighborhood.hpp:172-202 and
DynamicSteeringNeighborhood.h:168-198): `none` is `return -1`. -/
def steerSwitch (maxSteer delta ref : Int) (i step : Nat) : Option Int :=
  if i = 1 ∨ i = 4 then
    if step = 0 then none else if ref ≤ -maxSteer then none else some (ref - delta)
  else if i = 2 ∨ i = 5 then
    if step = 0 then none else if ref ≥ maxSteer then none else some (ref + delta)
  else
    if step > 0 then none else some ref

/-- Saturation of the steering angle (SteeringNeighborhood.hpp:204-208, DynamicSteeringNeighborhood.h:200-204). -/
def steerClamp (maxSteer s : Int) : Int :=
  if s > maxSteer then maxSteer else if s < -maxSteer then -maxSteer else s

/-- The loop over the predecessors of the reference (SteeringNeighborhood.hpp:238-253): `n` predecessors must
exist and must have steering angle 0.  (The reference itself is not tested.)  The `dynamic_cast` failure cannot
happen: all nodes of a search have the same type. -/
def straightPreds : Nat → List SNode → Bool
  | 0, _ => true
  | _ + 1, [] => false
  | n + 1, t :: ts => if |t.steer| > 0 then false else straightPreds n ts

/-- The motion of one step (SteeringNeighborhood.hpp:213-284, DynamicSteeringNeighborhood.h:208-289):
`(x_, y_, theta_)`. -/
def steerMove (clamp : ℝ → ℝ) (distStep resolution la : ℝ) (reversed : Bool)
    (ref : SNode) (forward : Bool) (steer : Int) : ℝ × ℝ × ℝ :=
  let dir0 : ℝ := if forward then 1 else -1
  let dir : ℝ := if reversed then dir0 * (-1) else dir0
  let rWorld : ℝ := la / Real.tan ((steer : ℝ) / 180 * Real.pi)
  let dsWorld : ℝ := distStep * dir
  let dsMap : ℝ := distStep / resolution * dir
  let rMap : ℝ := rWorld / resolution
  if steer = 0 then
    (ref.x + dsMap * Real.cos ref.theta, ref.y + dsMap * Real.sin ref.theta, clamp (ref.theta + 0))
  else
    let dtheta := dsWorld / rWorld
    let t := ref.theta + dtheta
    (ref.x + rMap * (Real.sin t - Real.sin ref.theta),
     ref.y + rMap * (-Real.cos t + Real.cos ref.theta),
     clamp (ref.theta + dtheta))

/-- `SteeringNeighborhood::advance` (SteeringNeighborhood.hpp:120-292).  `none` is `return -1`; otherwise the cost
and the new kinematic fields (with `depth = reference->depth + 1`, SteeringNeighborhood.hpp:323).  `preds` are the
nodes reached from the reference through `prev`, nearest first.  `garbage` is the value of the caller's
uninitialised variable `char custom` (SteeringNeighborhood.hpp:302), which `advance` leaves untouched unless `moves == FORWARD_BACKWARD`.
The unused parameter `map_rotation` is dropped. -/
def advance (clamp : ℝ → ℝ) (P : SteerP) (so : SOpts) (garbage : Int) (ref : SNode) (preds : List SNode)
    (i step : Nat) : Option (ℝ × SNode) :=
  let forward : Bool := decide (i < 3)
  let initial : Bool := decide (ref.depth < 1)
  if initial ∧ ref.forward ≠ forward then none
  else if ref.custom > 0 ∧ |ref.steer| > 0 then none
  else
    match steerSwitch P.maxSteer (P.steerDelta * step) ref.steer i step with
    | none => none
    | some s0 =>
      let steer := steerClamp P.maxSteer s0
      let finish (custom : Int) (cost : ℝ) : Option (ℝ × SNode) :=
        let m := steerMove clamp P.distStep P.resolution P.la P.reversed ref forward steer
        let cost := if !forward then cost * so.penaltyBackward else cost
        some (cost * 1, { x := m.1, y := m.2.1, theta := m.2.2, forward := forward, steer := steer,
                          custom := custom, depth := ref.depth + 1 })
      if P.size = 6 then
        if ref.forward ≠ forward then
          if ref.custom > 0 then none
          else if |steer| > 0 then none
          else if straightPreds (P.straightDirSwitch - 1).toNat preds then
            finish (toI8 (P.straightDirSwitch - 1)) (P.distPx * so.penaltyTurn)
          else none
        else finish (if ref.custom > 0 then ref.custom - 1 else 0) P.distPx
      else finish garbage P.distPx

/-- Statics of `DynamicSteeringNeighborhood` (DynamicSteeringNeighborhood.h:18-39, defaults in
src/generic/DynamicSteeringNeighborhood.cpp:7-21). -/
structure DynP where
  distStep : ℝ
  resolution : ℝ
  la : ℝ
  maxSteer : Int
  steerDelta : ℝ
  steerSteps : Nat
  reversed : Bool
  allowForward : Bool
  allowBackward : Bool

def DynP.distPx (P : DynP) : ℝ := P.distStep / P.resolution

/-- `DynamicSteeringNeighborhood::advance` (DynamicSteeringNeighborhood.h:115-297).  `straight_dir_switch` is the
constant 1, so that the loop over the predecessors does nothing and `custom` becomes 0 on a switch.  `int delta =
STEER_DELTA * step` truncates towards zero. -/
def dynAdvance (clamp : ℝ → ℝ) (P : DynP) (so : SOpts) (ref : SNode) (i step : Nat) : Option (ℝ × SNode) :=
  let forward : Bool := decide (i < 3)
  let initial : Bool := decide (ref.depth < 1)
  if initial ∧ ref.forward ≠ forward then none
  else if ref.custom > 0 ∧ |ref.steer| > 0 then none
  else if P.reversed = false ∧ initial ∧ i > 3 then none
  else if P.reversed = false ∧ initial ∧ i = 3 then
    if step ≠ 0 then none
    else
      let dsMap := (-P.la) / P.resolution
      some (|dsMap| * so.penaltyBackward,
        { x := ref.x + dsMap * Real.cos ref.theta, y := ref.y + dsMap * Real.sin ref.theta,
          theta := ref.theta, forward := false, steer := 0, custom := 0, depth := ref.depth + 1 })
  else
    match steerSwitch P.maxSteer (truncC (P.steerDelta * (step : ℝ))) ref.steer i step with
    | none => none
    | some s0 =>
      let steer := steerClamp P.maxSteer s0
      let finish (custom : Int) (cost : ℝ) : Option (ℝ × SNode) :=
        let m := steerMove clamp P.distStep P.resolution P.la P.reversed ref forward steer
        let cost := if !forward then cost * so.penaltyBackward else cost
        some (cost * 1, { x := m.1, y := m.2.1, theta := m.2.2, forward := forward, steer := steer,
                          custom := custom, depth := ref.depth + 1 })
      if ref.forward ≠ forward ∧ ¬ initial then
        if ¬ P.allowForward ∨ ¬ P.allowBackward then none
        else if ref.custom > 0 then none
        else if |steer| > 0 then none
        else finish (1 - 1) (P.distPx * so.penaltyTurn)
      else finish (if ref.custom > 0 then ref.custom - 1 else 0) P.distPx

/-! ### The loop over the successors -/

/-- The nodes of a search: kinematic fields and predecessor pointer. -/
structure SStore (N : Type) where
  node : N → SNode
  prev : N → Option N

/-- The first `k` nodes reached through `prev`. -/
def SStore.preds {N : Type} (st : SStore N) (n : N) : Nat → List SNode
  | 0 => []
  | k + 1 => match st.prev n with
    | none => []
    | some p => st.node p :: st.preds p k

/-- Write the kinematic fields and (in `processNeighbor`) the predecessor of `n`. -/
def SStore.relabel {N : Type} [DecidableEq N] (st : SStore N) (n ref : N) (s : SNode) : SStore N where
  node m := if m = n then s else st.node m
  prev m := if m = n then some ref else st.prev m

/-- What `iterateFreeNeighbors` uses of the map manager: `contains`, `isFreeOrUnknown` (of the line from the reference
to the successor) and `lookup` (`none` = NULL).  Arbitrary functions here: the theorems hold for every map. -/
structure SMap (N : Type) where
  contains : ℝ → ℝ → Bool
  lineFree : ℝ → ℝ → ℝ → ℝ → Bool
  lookup : ℝ → ℝ → ℝ → Int → Bool → Option N

/-- One iteration of the double loop (SteeringNeighborhood.hpp:299-342, DynamicSteeringNeighborhood.h:307-350), where
`res` is the result of `advance` and `proc` the search algorithm's `processNeighbor` (`true` =
`PR_ADDED_TO_OPEN_LIST`) acting on its own state. -/
def tryNeighbor {N A : Type} [DecidableEq N] (map : SMap N) (proc : A → N → N → ℝ → A × Bool) (ref : N)
    (res : Option (ℝ × SNode)) (a : A × SStore N) : A × SStore N :=
  match res with
  | none => a
  | some (cost, s) =>
    if cost < 0 then a
    else if map.contains s.x s.y then
      if map.lineFree (a.2.node ref).x (a.2.node ref).y s.x s.y then
        match map.lookup s.x s.y s.theta s.steer s.forward with
        | none => a
        | some n =>
          let r := proc a.1 ref n cost
          if r.2 then (r.1, a.2.relabel n ref s) else (r.1, a.2)
      else a
    else a

/-- The index pairs `(i, step)` of the double loop. -/
def moveList (lo hi steps : Nat) : List (Nat × Nat) :=
  (List.range' lo (hi - lo)).flatMap fun i => (List.range (steps + 1)).map fun s => (i, s)

/-- `SteeringNeighborhood::iterateFreeNeighbors` (SteeringNeighborhood.hpp:294-344).  `garbage` gives the content of
the uninitialised `custom` in each iteration. -/
def iterateFree {N A : Type} [DecidableEq N] (clamp : ℝ → ℝ) (P : SteerP) (so : SOpts)
    (garbage : Nat × Nat → Int) (map : SMap N) (proc : A → N → N → ℝ → A × Bool) (ref : N)
    (a : A × SStore N) : A × SStore N :=
  (moveList 0 P.size P.steerSteps).foldl (fun a m =>
    tryNeighbor map proc ref
      (advance clamp P so (garbage m) (a.2.node ref) (a.2.preds ref (P.straightDirSwitch - 1).toNat) m.1 m.2) a) a

/-- `DynamicSteeringNeighborhood::iterateFreeNeighbors` (DynamicSteeringNeighborhood.h:299-352). -/
def dynIterateFree {N A : Type} [DecidableEq N] (clamp : ℝ → ℝ) (P : DynP) (so : SOpts)
    (map : SMap N) (proc : A → N → N → ℝ → A × Bool) (ref : N) (a : A × SStore N) : A × SStore N :=
  (moveList (if P.allowForward then 0 else 3) (if P.allowBackward then 6 else 3) P.steerSteps).foldl
    (fun a m => tryNeighbor map proc ref (dynAdvance clamp P so (a.2.node ref) m.1 m.2) a) a

/-! ### Goal tests -/

/-- `DynamicSteeringNeighborhood::isGoal` (DynamicSteeringNeighborhood.h:41-113). -/
def dynIsGoal (resolution distThr angThr : ℝ) (goal ref : SNode) : Bool :=
  let deltaRot := atan2 (Real.sin (goal.theta - ref.theta)) (Real.cos (goal.theta - ref.theta))
  if |deltaRot| > angThr then false
  else
    let cellDist := Real.sqrt ((goal.x - ref.x) ^ 2 + (goal.y - ref.y) ^ 2)
    decide (cellDist * resolution < distThr)

/-- Distance of `g` to the segment `p r` as computed in SteeringNeighborhood.hpp:91-113. -/
def segDistance (p r g : P2) : ℝ :=
  let l2 := (p.x - r.x) ^ 2 + (p.y - r.y) ^ 2
  if l2 ≤ 0.0001 then Real.sqrt ((g.x - p.x) ^ 2 + (g.y - p.y) ^ 2)
  else
    let t0 := ((g.x - p.x) * (r.x - p.x) + (g.y - p.y) * (r.y - p.y)) / l2
    let t := max 0 (min 1 t0)
    let q : P2 := ⟨p.x + t * (r.x - p.x), p.y + t * (r.y - p.y)⟩
    Real.sqrt ((g.x - q.x) ^ 2 + (g.y - q.y) ^ 2)

/-- `SteeringNeighborhood::isGoal` (SteeringNeighborhood.hpp:46-118).  `distance` is the template parameter (in
centimetres, used as a number of cells here), `prev` the predecessor of the reference. -/
def steerIsGoal (P : SteerP) (distance : Int) (goal ref : SNode) (prev : Option SNode) : Bool :=
  let deltaRot := atan2 (Real.sin (goal.theta - ref.theta)) (Real.cos (goal.theta - ref.theta))
  if |deltaRot| > Real.pi / 8 then false
  else if P.reversed ∧ ref.custom > 0 then false
  else
    let gx := if P.reversed ∧ ref.forward = false then goal.x + -Real.cos goal.theta * P.la / P.resolution else goal.x
    let gy := if P.reversed ∧ ref.forward = false then goal.y + -Real.sin goal.theta * P.la / P.resolution else goal.y
    let delta : ℝ := ((4 * distance : Int) : ℝ)
    if |gx - ref.x| > delta ∨ |gy - ref.y| > delta then false
    else
      let dist := Real.sqrt ((gx - ref.x) ^ 2 + (gy - ref.y) ^ 2) * P.resolution
      if dist < 0.05 then true
      else match prev with
        | none => false
        | some p =>
          decide (segDistance ⟨p.x * P.resolution, p.y * P.resolution⟩ ⟨ref.x * P.resolution, ref.y * P.resolution⟩
            ⟨gx * P.resolution, gy * P.resolution⟩ < 0.1)

/-! ### `NonHolonomicNeighborhood` -/

/-- Turn of move `i` in units of `DELTA_THETA` (NonHolonomicNeighborhood.hpp:68-95). -/
def nhTurn (i : Nat) : ℝ :=
  if i = 1 ∨ i = 4 then -1 else if i = 2 ∨ i = 5 then 1
  else if i = 6 ∨ i = 8 then -1 / 2 else if i = 7 ∨ i = 9 then 1 / 2 else 0

/-- The loop over the predecessors (NonHolonomicNeighborhood.hpp:129-144). -/
def sameHeading (theta : ℝ) : Nat → List SNode → Prop
  | 0, _ => True
  | _ + 1, [] => False
  | n + 1, t :: ts => t.theta = theta ∧ sameHeading theta n ts

open Classical in
/-- `NonHolonomicNeighborhood::advance` (NonHolonomicNeighborhood.hpp:58-177).  `steerAngle` is the template parameter,
`distPx` = `distance_step_pixel`. -/
def nhAdvance (clamp : ℝ → ℝ) (distPx : ℝ) (steerAngle : Int) (reversed : Bool) (straightDirSwitch : Int)
    (mapRotation : ℝ) (initial : Bool) (ref : SNode) (preds : List SNode) (i : Nat) : Option (ℝ × SNode) :=
  if initial ∧ (i ≠ 0 ∧ i ≠ 3) then none
  else
    let deltaTheta : ℝ := steerAngle / 10 * Real.pi / 180
    let t := clamp (ref.theta + nhTurn i * deltaTheta + mapRotation)
    let forward : Bool := decide (i < 3 ∨ (6 ≤ i ∧ i ≤ 7))
    if ref.custom > 0 ∧ i % 3 ≠ 0 then none
    else
      let switch : Bool := ref.forward != forward && !initial
      let finish (custom : Int) : Option (ℝ × SNode) :=
        let dir0 : ℝ := if forward then 1 else -1
        let dir : ℝ := if reversed then dir0 * (-1) else dir0
        let c0 := if !forward then distPx * 1.5 else distPx
        let c1 := if switch then c0 * 4 else c0
        some (c1 * 1, { x := ref.x + dir * Real.cos t * distPx, y := ref.y + dir * Real.sin t * distPx,
                        theta := clamp (t - mapRotation), forward := forward, steer := ref.steer,
                        custom := custom, depth := ref.depth })
      if switch then
        if ref.custom > 0 then none
        else if i ≠ (if forward then 0 else 3) then none
        else if sameHeading ref.theta (straightDirSwitch - 1).toNat preds then
          finish (toI8 (straightDirSwitch - 1))
        else none
      else finish (if ref.custom > 0 then ref.custom - 1 else 0)

/-- `NonHolonomicNeighborhood::isGoal` (NonHolonomicNeighborhood.hpp:219-224). -/
def nhIsGoal (clamp : ℝ → ℝ) (distPx : ℝ) (goal ref : SNode) : Bool :=
  decide (|goal.x - ref.x| ≤ distPx / 2) && decide (|goal.y - ref.y| ≤ distPx / 2) &&
    decide (|clamp (goal.theta - ref.theta)| < Real.pi / 8)

end PathPlanning
