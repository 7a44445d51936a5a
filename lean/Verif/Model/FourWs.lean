import Verif.Prelude
import Mathlib.Analysis.SpecialFunctions.Trigonometric.Arctan

/-!
# Model of the four-wheel-steering simulator

`/repo/src/common/path4ws_simulator.cpp`, `/repo/include/cslibs_path_planning/common/path4ws_simulator.h`
and the part of `/repo/src/common/simbot4ws.cpp` that is well-formed C++ (`SimBot4Ws::update` is not: it
lacks a parenthesis and names members that do not exist).  Neither is built by CMakeLists.txt.
Simplification: `float` values are real numbers; `rand()` is an arbitrary sequence.
-/

namespace PathPlanning.FourWs

noncomputable section

/-- `Bot4ws` (path4ws_simulator.h:16-27). -/
structure Bot where
  x : ℝ
  y : ℝ
  theta : ℝ
  beta : ℝ
  deltaf : ℝ
  deltar : ℝ
  l : ℝ

/-- `Bot4ws::Bot4ws` (path4ws_simulator.h:18-22). -/
def Bot.new : Bot := ⟨0, 0, 0, 0, 0, 0, 1 / 2⟩

/-- `nbeta` (path4ws_simulator.cpp:16). -/
def Bot.nbeta (b : Bot) : ℝ := Real.arctan (1 / 2 * (Real.tan b.deltaf + Real.tan b.deltar))

/-- `dtheta` (path4ws_simulator.cpp:17). -/
def Bot.dtheta (b : Bot) (d : ℝ) : ℝ :=
  Real.cos b.beta * (Real.tan b.deltaf - Real.tan b.deltar) * d / b.l

/-- `Bot4ws::update` (path4ws_simulator.cpp:14-23). -/
def Bot.update (b : Bot) (d : ℝ) : Bot :=
  { b with
    x := b.x + d * Real.cos (b.theta + b.dtheta d / 2 + (b.beta + b.nbeta) / 2)
    y := b.y + d * Real.sin (b.theta + b.dtheta d / 2 + (b.beta + b.nbeta) / 2)
    theta := b.theta + b.dtheta d
    beta := b.nbeta }

/-- `t_step_` (path4ws_simulator.cpp:30). -/
def tStep : ℝ := 1 / 10
/-- `t_change_` (path4ws_simulator.cpp:33). -/
def tChange : ℝ := 1
/-- `v_` (path4ws_simulator.cpp:32). -/
def speed : ℝ := 1
/-- `delta_max_` (path4ws_simulator.cpp:34). -/
def deltaMax : ℝ := 20 * Real.pi / 180
/-- `delta_steps_` (path4ws_simulator.cpp:35). -/
def deltaSteps : Nat := 10
/-- `delta_step_` (path4ws_simulator.cpp:36). -/
def deltaStep : ℝ := deltaMax * 2 / deltaSteps
/-- `map_width_`, `map_height_` (path4ws_simulator.cpp:37). -/
def mapSize : Int := 1000
/-- `map_res_` (path4ws_simulator.cpp:38). -/
def mapRes : ℝ := 1 / 10

/-- `Path4wsSimulator` (path4ws_simulator.h:29-56); `black r c` says that the pixel in row `r`, column
`c` of the image is 0. -/
structure Sim where
  bots : List Bot
  t : ℝ
  count : Nat
  black : Int → Int → Bool

/-- `Path4wsSimulator::setNumBots` (path4ws_simulator.cpp:44-48). -/
def Sim.setNumBots (s : Sim) (n : Nat) : Sim :=
  { s with bots := s.bots.take n ++ List.replicate (n - s.bots.length) Bot.new }

/-- `Path4wsSimulator::reset` (path4ws_simulator.cpp:51-56): the image becomes white; the bots stay
where they are. -/
def Sim.reset (s : Sim) : Sim := { s with black := fun _ _ => false, t := 0, count := 0 }

/-- The constructor (path4ws_simulator.cpp:26-41). -/
def Sim.new : Sim := ((⟨[], 0, 0, fun _ _ => false⟩ : Sim).setNumBots 1000).reset

/-- `sf*delta_step_-delta_max_` (path4ws_simulator.cpp:103-106); `r` is the value of `rand()`. -/
def steerAngle (r : Nat) : ℝ := ((r % (deltaSteps + 1) : Nat) : ℝ) * deltaStep - deltaMax

/-- `randomizeSteerAngles` (path4ws_simulator.cpp:95-108); `rnd i` are the two values of `rand()` for
the `i`-th bot. -/
def randomize (rnd : Nat → Nat × Nat) (bots : List Bot) : List Bot :=
  bots.mapIdx fun i b =>
    { b with deltaf := steerAngle (rnd i).1, deltar := steerAngle (rnd i).2 }

/-- The pixel of a bot (path4ws_simulator.cpp:79-82): `int x=bot.x_/map_res_+offx`. -/
def pixel (b : Bot) : CRes (Int × Int) := do
  let x ← castI (b.x / mapRes + 500)
  let y ← castI (b.y / mapRes + 500)
  pure (x, y)

/-- `updateMap` (path4ws_simulator.cpp:75-92): `cvGet2D(map_, x, y)` takes the row first, so the
image has the x-axis downwards. -/
def updateMap : List Bot → (Int → Int → Bool) → CRes (Int → Int → Bool)
  | [], img => .ok img
  | b :: bs, img => do
    let p ← pixel b
    if 0 ≤ p.1 ∧ p.1 < mapSize ∧ 0 ≤ p.2 ∧ p.2 < mapSize then
      updateMap bs fun r c => if r = p.1 ∧ c = p.2 then true else img r c
    else updateMap bs img

/-- `Path4wsSimulator::step` (path4ws_simulator.cpp:59-73). -/
def Sim.step (s : Sim) (rnd : Nat → Nat × Nat) : CRes Sim := do
  let count := s.count + 1
  let (count, bots) :=
    if tChange / tStep < (count : ℝ) then (0, randomize rnd s.bots) else (count, s.bots)
  let bots := bots.map fun b => b.update (speed * tStep)
  let img ← updateMap bots s.black
  pure ⟨bots, s.t + tStep, count, img⟩

/-- Several steps; `rnd k` is the randomness of the `k`-th. -/
def Sim.run (s : Sim) (rnd : Nat → Nat → Nat × Nat) : Nat → CRes Sim
  | 0 => .ok s
  | n + 1 => do
    let s ← s.run rnd n
    s.step (rnd n)

/-- `SimBot4Ws::setSpeed` (simbot4ws.cpp:18-23), `v_max_` = 1.5 (12). -/
def setSpeed (v : ℝ) : ℝ :=
  let v := if 3 / 2 < v then 3 / 2 else v
  if v < -(3 / 2) then -(3 / 2) else v

end
end PathPlanning.FourWs
