import Verif.Spec.FloatSteer
import Verif.Spec.DriveClearance

/-!
# Specification: points a vehicle passes that executes commands
-/

namespace PathPlanning.Spec

/-- A vehicle that drives the commands one after the other, beginning at `a`, passes through the point `p`. -/
inductive Passes (L res : ℝ) : SNode → List Cmd → P2 → Prop
  | here {a : SNode} {c : Cmd} {cs : List Cmd} {p : P2} : OnDrive L res c.φ c.dir c.len a p → Passes L res a (c :: cs) p
  | later {a b : SNode} {c : Cmd} {cs : List Cmd} {p : P2} : DrivesTo L res c.φ c.dir c.len a b → Passes L res b cs p →
      Passes L res a (c :: cs) p

/-- Safety margin in cells: the cells skipped by the line test, one for the digital line, and, rounded up, the bulge of an arc of
length `D` with tangent of the steering angle `T` plus the deviation `δ` from the computed path. -/
noncomputable def execMargin (skips : Nat) (L res D T δ : ℝ) : Int := skips + 1 + ⌈D ^ 2 * T / (8 * L * res) + δ⌉

end PathPlanning.Spec
