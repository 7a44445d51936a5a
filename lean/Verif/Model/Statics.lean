import Verif.Model.SteerSearch

/-!
# Model of the static parameters of the neighbourhoods

Sources: `/repo/include/cslibs_path_planning/generic/DynamicSteeringNeighborhood.h:18-39`,
`/repo/src/generic/DynamicSteeringNeighborhood.cpp:7-21`, `NonHolonomicNeighborhood.hpp:46-56`,
`SearchAlgorithm.hpp:131-134`.

All parameters of a neighbourhood, and the step length in cells computed from them, are static members: one copy for
all search objects of a program.  `setMap` of any search object overwrites `resolution` and `distance_step_pixel`.
`Model/Steering.lean` computes the step in cells from the step in metres; here the two are separate variables, as in the
code.  `double` is modelled by `ℝ`.
-/

noncomputable section

namespace PathPlanning

/-- The statics of `DynamicSteeringNeighborhood` that are only read (DynamicSteeringNeighborhood.h:19, 23-33). -/
structure DynParams where
  la : ℝ
  maxSteer : Int
  steerDelta : ℝ
  steerSteps : Nat
  reversed : Bool
  allowForward : Bool
  allowBackward : Bool
  distThr : ℝ
  angThr : ℝ

/-- All statics of `DynamicSteeringNeighborhood` (DynamicSteeringNeighborhood.h:18-33). -/
structure DynStat where
  distStep : ℝ
  /-- `distance_step_pixel` -/
  distPx : ℝ
  resolution : ℝ
  par : DynParams

/-- The initial values (src/generic/DynamicSteeringNeighborhood.cpp:7-21). -/
def DynStat.initial : DynStat where
  distStep := 4 / 10
  distPx := 1
  resolution := 1
  par := { la := 12 / 10
           maxSteer := 60
           steerDelta := 15
           steerSteps := 2
           reversed := false
           allowForward := true
           allowBackward := false
           distThr := 5 / 100
           angThr := 180 / 180 * Real.pi / 8 }

/-- `setResolution` (DynamicSteeringNeighborhood.h:35-39). -/
def DynStat.setResolution (S : DynStat) (res : ℝ) : DynStat :=
  { S with resolution := res, distPx := S.distStep / res }

/-- The parameters in the form of `Model/Steering.lean`, where the step in cells is computed from the step in metres. -/
def DynStat.toP (S : DynStat) : DynP where
  distStep := S.distStep
  resolution := S.resolution
  la := S.par.la
  maxSteer := S.par.maxSteer
  steerDelta := S.par.steerDelta
  steerSteps := S.par.steerSteps
  reversed := S.par.reversed
  allowForward := S.par.allowForward
  allowBackward := S.par.allowBackward

/-- The motion of one step (DynamicSteeringNeighborhood.h:206-289) as `steerMove`, with the step in cells `px` as a variable
of its own: it is used when driving straight, the step in metres for the change of heading. -/
def steerMoveS (clamp : ℝ → ℝ) (distStep px resolution la : ℝ) (reversed : Bool)
    (ref : SNode) (forward : Bool) (steer : Int) : ℝ × ℝ × ℝ :=
  let dir0 : ℝ := if forward then 1 else -1
  let dir : ℝ := if reversed then dir0 * (-1) else dir0
  let rWorld : ℝ := la / Real.tan ((steer : ℝ) / 180 * Real.pi)
  let dsWorld : ℝ := distStep * dir
  let dsMap : ℝ := px * dir
  let rMap : ℝ := rWorld / resolution
  if steer = 0 then
    (ref.x + dsMap * Real.cos ref.theta, ref.y + dsMap * Real.sin ref.theta, clamp (ref.theta + 0))
  else
    let dtheta := dsWorld / rWorld
    let t := ref.theta + dtheta
    (ref.x + rMap * (Real.sin t - Real.sin ref.theta),
     ref.y + rMap * (-Real.cos t + Real.cos ref.theta),
     clamp (ref.theta + dtheta))

/-- `DynamicSteeringNeighborhood::advance` (DynamicSteeringNeighborhood.h:115-297) reading the statics. -/
def dynAdvanceS (clamp : ℝ → ℝ) (S : DynStat) (so : SOpts) (ref : SNode) (i step : Nat) : Option (ℝ × SNode) :=
  let forward : Bool := decide (i < 3)
  let initial : Bool := decide (ref.depth < 1)
  if initial ∧ ref.forward ≠ forward then none
  else if ref.custom > 0 ∧ |ref.steer| > 0 then none
  else if S.par.reversed = false ∧ initial ∧ i > 3 then none
  else if S.par.reversed = false ∧ initial ∧ i = 3 then
    if step ≠ 0 then none
    else
      let dsMap := (-S.par.la) / S.resolution
      some (|dsMap| * so.penaltyBackward,
        { x := ref.x + dsMap * Real.cos ref.theta, y := ref.y + dsMap * Real.sin ref.theta,
          theta := ref.theta, forward := false, steer := 0, custom := 0, depth := ref.depth + 1 })
  else
    match steerSwitch S.par.maxSteer (truncC (S.par.steerDelta * (step : ℝ))) ref.steer i step with
    | none => none
    | some s0 =>
      let steer := steerClamp S.par.maxSteer s0
      let finish (custom : Int) (cost : ℝ) : Option (ℝ × SNode) :=
        let m := steerMoveS clamp S.distStep S.distPx S.resolution S.par.la S.par.reversed ref forward steer
        let cost := if !forward then cost * so.penaltyBackward else cost
        some (cost * 1, { x := m.1, y := m.2.1, theta := m.2.2, forward := forward, steer := steer,
                          custom := custom, depth := ref.depth + 1 })
      if ref.forward ≠ forward ∧ ¬ initial then
        if ¬ S.par.allowForward ∨ ¬ S.par.allowBackward then none
        else if ref.custom > 0 then none
        else if |steer| > 0 then none
        else finish (1 - 1) (S.distPx * so.penaltyTurn)
      else finish (if ref.custom > 0 then ref.custom - 1 else 0) S.distPx

/-- The moves of `iterateFreeNeighbors` (DynamicSteeringNeighborhood.h:303-316) reading the statics. -/
def dynMovesS (clamp : ℝ → ℝ) (S : DynStat) (so : SOpts) (res : ℝ) : List (SNode → List SNode → Option (ℝ × SNode)) :=
  (moveList (if S.par.allowForward then 0 else 3) (if S.par.allowBackward then 6 else 3) S.par.steerSteps).map
    fun m k _ => scaled res (dynAdvanceS clamp S so k m.1 m.2)

/-- The search of an object whose map is `m`, with the statics as they are when `findPath` is called. -/
def dynAlgoS (clamp : ℝ → ℝ) (S : DynStat) (m : GridMap ℝ) (skips : Nat) (b : Bres ℝ) (C : SteerCfg) :
    KAlgo (PadCell m.width m.height) SNode ℝ :=
  padAlgo clamp m skips b C (dynMovesS clamp S C.so m.res) 0
    fun g k _ => dynIsGoal S.resolution S.par.distThr S.par.angThr g k

/-! ### Programs with several search objects -/

/-- What a program can do with the statics: assign them (they are public), and call `setMap` of search object `i`.
(Searches only read them.) -/
inductive StatOp where
  | setMap (i : Nat) (m : GridMap ℝ)
  | setStep (d : ℝ)
  | setParams (p : DynParams)
  | search (i : Nat)

/-- The statics and the map of every search object. -/
structure StatSt where
  stat : DynStat
  map : Nat → Option (GridMap ℝ)

/-- One operation; `setMap` is SearchAlgorithm.hpp:131-134. -/
def StatSt.step (s : StatSt) : StatOp → StatSt
  | .setMap i m => { stat := s.stat.setResolution m.res, map := fun j => if j = i then some m else s.map j }
  | .setStep d => { s with stat := { s.stat with distStep := d } }
  | .setParams p => { s with stat := { s.stat with par := p } }
  | .search _ => s

/-- A program that has run the operations `ops` (first operation first). -/
def StatSt.run (ops : List StatOp) : StatSt :=
  ops.foldl StatSt.step { stat := DynStat.initial, map := fun _ => none }

/-! ### `SteeringNeighborhood` and `NonHolonomicNeighborhood` -/

/-- The statics of `NonHolonomicNeighborhoodBase` (NonHolonomicNeighborhood.hpp:48-50): `distance_step` is a constant of the
template, so that only `resolution` and `distance_step_pixel` are variables. -/
structure NHStat where
  resolution : ℝ
  distPx : ℝ

/-- `setResolution` (NonHolonomicNeighborhood.hpp:52-56) with the constant `distStep`. -/
def NHStat.setResolution (distStep : ℝ) (_ : NHStat) (res : ℝ) : NHStat where
  resolution := res
  distPx := distStep / res

/-- A sequence of `setMap` calls (search object, resolution of the map) with one template instance; both variables begin
with 0 (NonHolonomicNeighborhood.hpp:228-232). -/
def NHStat.run (distStep : ℝ) (ops : List (Nat × ℝ)) : NHStat :=
  ops.foldl (fun s o => NHStat.setResolution distStep s o.2) { resolution := 0, distPx := 0 }

/-- The parameters of `SteeringNeighborhood` (`Model/Steering.lean`) with the resolution taken from the statics. -/
def NHStat.toP (s : NHStat) (P : SteerP) : SteerP := { P with resolution := s.resolution }

end PathPlanning
