import Verif.Model.ReedsShepp
import Verif.Model.Managers

/-!
# Model of the goal regions and of `SamplingPlanner`

Sources: `/repo/src/sampling/{RingGoalRegion,CentroidRadiusGoalRegion,PoseListGoalRegion,SamplingPlanner}.cpp`.

`double` is `ℝ`; `MathHelper::AngleClamp` is the parameter `clamp`, `MathHelper::Angle(v)` is `atan2 v.y v.x`.
Console output is not modelled.
-/

noncomputable section

namespace PathPlanning.Sampling

/-! ### `RingGoalRegion` -/

/-- Fields of `RingGoalRegion` (RingGoalRegion.h:30-36). -/
structure Ring where
  center : P2
  width : ℝ
  samples : Nat
  step : ℝ
  counter : Nat
  direction : ℝ
  radius : ℝ

/-- Constructor (RingGoalRegion.cpp:17-31). -/
def Ring.new (center : P2) (radius width : ℝ) : Ring where
  center := center
  width := width
  samples := 20
  step := 2 * Real.pi / 20
  counter := 0
  direction := if radius < 0 then 0 else 1
  radius := |radius|

/-- `init` (RingGoalRegion.cpp:36-43); for `samples_num = 0` the infinite `step_angle_rad_` is never used. -/
def Ring.init (r : Ring) (n : Nat) : Ring :=
  { r with samples := n, step := 2 * Real.pi / n, counter := 0 }

/-- `getNextGoal` (RingGoalRegion.cpp:45-61); `rnd` is the value of `(double)rand()/RAND_MAX`.  The argument `gain` is
not written. -/
def Ring.next (clamp : ℝ → ℝ) (r : Ring) (rnd : ℝ) : Option (Pose × Ring) :=
  if r.counter ≥ r.samples then none
  else
    let rad := r.radius + (rnd - 1 / 2) * r.width
    let alpha := r.counter * r.step
    some (⟨r.center.x + rad * Real.cos alpha, r.center.y + rad * Real.sin alpha,
           clamp (alpha + (r.direction - 1 / 2) * Real.pi)⟩, { r with counter := r.counter + 1 })

/-! ### `CentroidRadiusGoalRegion` -/

/-- Fields of `CentroidRadiusGoalRegion` (CentroidRadiusGoalRegion.h:26-37); `theta_` and `theta_step_` are not
initialised by the constructor. -/
structure Centroid where
  src : P2
  center : P2
  radius : ℝ
  angle : ℝ
  theta : ℝ
  step : ℝ
  counter : Nat
  samples : Nat

/-- Constructor (CentroidRadiusGoalRegion.cpp:13-17); `junk`: the uninitialised members. -/
def Centroid.new (src center : P2) (radius angle junk1 junk2 : ℝ) : Centroid :=
  ⟨src, center, radius, angle, junk1, junk2, 0, 0⟩

/-- `init` (CentroidRadiusGoalRegion.cpp:26-43). -/
def Centroid.init (c : Centroid) (n : Nat) : Centroid :=
  let theta := atan2 (c.center.y - c.src.y) (c.center.x - c.src.x)
  let angle := |c.angle|
  if angle < 1 / 1000000 ∨ n ≤ 1 then
    { c with counter := 0, samples := 1, theta := theta, angle := angle, step := 0 }
  else
    { c with counter := 0, samples := n, theta := theta - 1 / 2 * angle, angle := angle,
             step := angle / ((n : ℝ) - 1) }

/-- `getNextGoal` (CentroidRadiusGoalRegion.cpp:46-63): pose, gain and state. -/
def Centroid.next (clamp : ℝ → ℝ) (c : Centroid) : Option (Pose × ℝ × Centroid) :=
  if c.counter ≥ c.samples then none
  else
    let goal : Pose := ⟨c.center.x - c.radius * Real.cos c.theta, c.center.y - c.radius * Real.sin c.theta, c.theta⟩
    let counter := c.counter + 1
    let diff : Int := toI32 (wrapU (counter + u32 - c.samples / 2))
    some (goal, 1 + 2 * |(diff : ℝ)| / c.samples, { c with counter := counter, theta := clamp (c.theta + c.step) })

/-! ### `PoseListGoalRegion` -/

/-- `PoseListGoalRegion` (PoseListGoalRegion.cpp:12-18; the file is not part of the library's build): `poses` is the
message, `none` the NULL pointer; `useGain` and `gain` are fields of the message. -/
structure PoseList where
  poses : Option (Bool × List Pose × List ℝ)
  useGain : Bool
  counter : Nat

/-- Constructor (PoseListGoalRegion.cpp:12-18). -/
def PoseList.new (poses : Option (Bool × List Pose × List ℝ)) : PoseList := ⟨poses, false, 0⟩

/-- `init` (PoseListGoalRegion.cpp:21-30). -/
def PoseList.init (p : PoseList) (_n : Nat) : PoseList :=
  { p with counter := 0, useGain := match p.poses with
    | none => false
    | some (u, ps, gs) => u && decide (ps.length = gs.length) }

/-- `getNextGoal` (PoseListGoalRegion.cpp:33-52): pose, gain afterwards, state. -/
def PoseList.next (p : PoseList) (gain : ℝ) : CRes (Option (Pose × ℝ × PoseList)) :=
  match p.poses with
  | none => .ok none
  | some (_, ps, gs) =>
    if p.counter ≥ ps.length then .ok none
    else do
      let g ← (if p.useGain then vget gs p.counter else .ok gain)
      let q ← vget ps p.counter
      pure (some (q, g, { p with counter := p.counter + 1 }))

/-! ### `SamplingPlanner` -/

/-- A `GoalRegion` object (GoalRegion.h:16-22) as seen by the planner: `next s gain` is `none` for the return value
false, otherwise the goal, the value of the reference parameter `gain` afterwards and the new state. -/
structure Region (S : Type) where
  init : S → Nat → S
  next : S → ℝ → Option (Pose × ℝ × S)

/-- `RingGoalRegion` as a region; the `i`-th call of `rand` gives `rnd i`. -/
def ringRegion (clamp : ℝ → ℝ) (rnd : Nat → ℝ) : Region Ring where
  init := Ring.init
  next r gain := (r.next clamp (rnd r.counter)).map fun q => (q.1, gain, q.2)

/-- `CentroidRadiusGoalRegion` as a region. -/
def centroidRegion (clamp : ℝ → ℝ) : Region Centroid where
  init := Centroid.init
  next c _ := c.next clamp

/-- What happens to `Curve` objects on the heap: the `i`-th object returned by `find_path`, and `delete`. -/
inductive HeapEv where
  | new (i : Nat)
  | del (i : Nat)
deriving DecidableEq

/-- The local variables of `createPath` (SamplingPlanner.cpp:36-39), the states of the region and of the generator, and
the history of the heap (oldest event first) with the number of objects allocated. -/
structure PSt (S : Type) where
  reg : S
  gen : RS.Gen
  best : Option (Nat × RS.Curve)
  minCost : ℝ
  gain : ℝ
  heap : List HeapEv
  count : Nat

/-- The map interface handed to `find_path`. -/
def mapIf (m : GridMap ℝ) : RS.MapIf where
  inMap x y := m.isInMap x y
  free x y := decide (m.isFree ⟨x.toNat, y.toNat⟩ = .ok true)
  value x y := match m.getValue ⟨x.toNat, y.toNat⟩ with
    | .ok v => v.toNat
    | _ => 0
  res := m.res

/-- The body of the loop for one goal (SamplingPlanner.cpp:41-68), after `getNextGoal` has set `goal` and `gain`. -/
def tryGoal {S : Type} (clamp : ℝ → ℝ) (m : GridMap ℝ) (startMap : Pose) (goal : Pose) (s : PSt S) : CRes (PSt S) :=
  let goalMap := pos2map m goal
  if !m.isInMapD goal.x goal.y then .ok s
  else do
    let r ← s.gen.findPath clamp startMap goalMap (mapIf m) false
    let s := { s with gen := r.1 }
    match r.2 with
    | none => pure s
    | some curve =>
      let i := s.count
      let s := { s with heap := s.heap ++ [HeapEv.new i], count := i + 1 }
      if curve.isValid then
        let cost := s.gain * curve.weight
        if cost < s.minCost then
          let heap := match s.best with
            | some b => s.heap ++ [HeapEv.del b.1]
            | none => s.heap
          pure { s with heap := heap, best := some (i, curve), minCost := cost }
        else pure { s with heap := s.heap ++ [HeapEv.del i] }
      else pure { s with heap := s.heap ++ [HeapEv.del i] }

/-- The `while` loop (SamplingPlanner.cpp:40-69); `none` = out of fuel. -/
def planLoop {S : Type} (R : Region S) (clamp : ℝ → ℝ) (m : GridMap ℝ) (startMap : Pose) :
    Nat → PSt S → CRes (Option (PSt S))
  | 0, _ => .ok none
  | n + 1, s =>
    match R.next s.reg s.gain with
    | none => .ok (some s)
    | some (goal, gain, reg) => do
      let s' ← tryGoal clamp m startMap goal { s with reg := reg, gain := gain }
      planLoop R clamp m startMap n s'

/-- `createPath` (SamplingPlanner.cpp:22-71) for a `SimpleGridMap2d`.  The result is the final state; the returned
pointer is `best`.  The `int` number of samples is converted to `unsigned` (`wrapI`). -/
def createPath {S : Type} (R : Region S) (clamp : ℝ → ℝ) (m : GridMap ℝ) (gen : RS.Gen) (start : Pose) (reg : S)
    (samples : Int) (fuel : Nat) : CRes (Option (PSt S)) :=
  let startMap := pos2map m start
  let s0 : PSt S := { reg := reg, gen := gen, best := none, minCost := 999999, gain := 1, heap := [], count := 0 }
  if !m.isInMapD start.x start.y then .ok (some s0)
  else planLoop R clamp m startMap fuel { s0 with reg := R.init reg (wrapI samples) }

end PathPlanning.Sampling
