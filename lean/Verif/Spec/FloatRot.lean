import Verif.Spec.Geom
import Verif.Spec.FloatSteer

/-!
# Specification: points that keep away from the borders of a rotated cell
-/

namespace PathPlanning.Spec

/-- `p` lies in the square of cell `(i,j)` of a map with corner `o`, rotated by `yaw`, with cells of `res` metres, at least `ε`
cells away from the four sides of the square. -/
def WellInsideRot (o : P2) (yaw res ε : ℝ) (i j : Nat) (p : P2) : Prop :=
  ∃ a b : ℝ, (i + ε) * res ≤ a ∧ a < (i + 1 - ε) * res ∧ (j + ε) * res ≤ b ∧ b < (j + 1 - ε) * res ∧
    p.x = o.x + a * Real.cos yaw - b * Real.sin yaw ∧
    p.y = o.y + a * Real.sin yaw + b * Real.cos yaw

/-- The centre of cell `(i,j)` of such a map. -/
noncomputable def rotCentre (o : P2) (yaw res : ℝ) (i j : Nat) : P2 :=
  ⟨o.x + (i + 1 / 2) * res * Real.cos yaw - (j + 1 / 2) * res * Real.sin yaw,
   o.y + (i + 1 / 2) * res * Real.sin yaw + (j + 1 / 2) * res * Real.cos yaw⟩

/-- Sum of the absolute values of the coordinates. -/
noncomputable def norm1 (p : P2) : ℝ := |p.x| + |p.y|

end PathPlanning.Spec
