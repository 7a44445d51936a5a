import Verif.Model.FloatSteer
import Verif.Spec.Steering
import Verif.Spec.FloatAngle

/-!
# Specification: accuracy of the C library, driving a list of commands
-/

namespace PathPlanning.Spec

/-- The C library computes sine and cosine with absolute error `2 u`, the tangent with relative error `2 u`. -/
structure LibOk (lib : Lib) (u : ℝ) : Prop where
  sin : ∀ x, |lib.sin x - Real.sin x| ≤ 2 * u
  cos : ∀ x, |lib.cos x - Real.cos x| ≤ 2 * u
  tan : ∀ x, |lib.tan x - Real.tan x| ≤ 2 * u * |Real.tan x|

/-- A command for the vehicle: steering angle in radians, direction (`1` or `-1`), distance in metres. -/
structure Cmd where
  φ : ℝ
  dir : ℝ
  len : ℝ

/-- The command that belongs to the pose `s` of a path: steering angle and direction are stored in the pose, the length
is given. -/
noncomputable def cmdFor (reversed : Bool) (len : ℝ) (s : SNode) : Cmd :=
  ⟨(s.steer : ℝ) / 180 * Real.pi, driveSign reversed s.forward, len⟩

/-- Driving the commands one after the other, exactly and with an ideal vehicle, leads from `a` through the poses `ps` (one for
each command). -/
inductive Executes (L res : ℝ) : SNode → List Cmd → List SNode → Prop
  | nil (a : SNode) : Executes L res a [] []
  | cons {a b : SNode} {c : Cmd} {cs : List Cmd} {ps : List SNode} : DrivesTo L res c.φ c.dir c.len a b → Executes L res b cs ps →
      Executes L res a (c :: cs) (b :: ps)

/-- Positions differ by at most `p` in each coordinate, headings by at most `t` modulo full turns. -/
def PoseNear (p t : ℝ) (a b : SNode) : Prop :=
  |a.x - b.x| ≤ p ∧ |a.y - b.y| ≤ p ∧ ∃ k : Int, |a.theta - b.theta - k * (2 * Real.pi)| ≤ t

/-- The pose `b` is where the vehicle gets with the command `c` from `a`, up to `p` cells and `t` radians. -/
def DrivesNear (L res p t : ℝ) (c : Cmd) (a b : SNode) : Prop :=
  ∃ z, DrivesTo L res c.φ c.dir c.len a z ∧ PoseNear p t z b

/-- Error in each coordinate of the computed end of one step, in cells: unit roundoff `u`, wheel base `L` and step length `len`
in metres, cells of `res` metres, coordinates at most `X`. -/
noncomputable def posErr (u L res len X : ℝ) : ℝ := u * (600 * (L / res) + 90 * (len / res) + X)

/-- Error of the computed heading after one step in radians; `e` is the error of the normalisation of angles. -/
noncomputable def headErr (u L len e : ℝ) : ℝ := u * (86 * (len / L) + 4) + e

/-- Distance in each coordinate between the computed pose number `n` and the pose of a vehicle that drives `n` steps: every step
adds its own error `p`, and drives in a direction that is off by the errors `t` of the headings before it. -/
noncomputable def driftErr (p t ℓ : ℝ) (n : ℕ) : ℝ := n * p + ℓ * t * (n * (n - 1) / 2)

/-- Length of the first step of a path with `DynamicSteeringNeighborhood`: backwards it is the wheel base. -/
def firstLen (P : DynP) (k : SNode) : ℝ := if P.reversed = false ∧ k.forward = false then P.la else P.distStep

/-- The longest step with `DynamicSteeringNeighborhood`. -/
def maxLen (P : DynP) : ℝ := max P.distStep P.la

/-- The commands of the poses `qs` of a path: the first step may have another length. -/
noncomputable def commands (reversed : Bool) (first : SNode → ℝ) (len : ℝ) : List SNode → List Cmd
  | [] => []
  | q :: qs => cmdFor reversed (first q) q :: qs.map (cmdFor reversed len)

/-- Two results of one step differ at most in position and heading, and slightly in cost. -/
def SameManoeuvre {F : Fmt} (err : ℝ) : Option (F.D × SNode) → Option (ℝ × SNode) → Prop
  | none, none => True
  | some (c, k), some (c', k') => k.forward = k'.forward ∧ k.steer = k'.steer ∧ k.custom = k'.custom ∧ k.depth = k'.depth ∧ |c.1 - c'| ≤ err * |c'|
  | _, _ => False

end PathPlanning.Spec
