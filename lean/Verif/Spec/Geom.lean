import Verif.Model.Vec

/-!
# Elementary plane geometry used in the statements about shapes and maps
-/

noncomputable section

namespace PathPlanning.Spec

/-- Inner product. -/
def dotP (a b : P2) : ℝ := a.x * b.x + a.y * b.y

/-- Squared Euclidean distance. -/
def dist2 (a b : P2) : ℝ := (a.x - b.x) ^ 2 + (a.y - b.y) ^ 2

/-- Euclidean distance. -/
def eucl (a b : P2) : ℝ := Real.sqrt (dist2 a b)

/-- `p` lies on the half-open rectangle with corner `o`, whose first side (length `lx`) points in
direction `yaw` and whose second side (length `ly`) is 90 degrees counter-clockwise from it. -/
def OnRotRect (o : P2) (yaw lx ly : ℝ) (p : P2) : Prop :=
  ∃ a b : ℝ, 0 ≤ a ∧ a < lx ∧ 0 ≤ b ∧ b < ly ∧
    p.x = o.x + a * Real.cos yaw - b * Real.sin yaw ∧
    p.y = o.y + a * Real.sin yaw + b * Real.cos yaw

/-- `p` lies in the square of cell `(i,j)` of a rotated map with corner `o` and cell size `res`. -/
def InRotCell (o : P2) (yaw res : ℝ) (i j : Nat) (p : P2) : Prop :=
  ∃ a b : ℝ, i * res ≤ a ∧ a < (i + 1) * res ∧ j * res ≤ b ∧ b < (j + 1) * res ∧
    p.x = o.x + a * Real.cos yaw - b * Real.sin yaw ∧
    p.y = o.y + a * Real.sin yaw + b * Real.cos yaw

/-- `n` is the integer nearest to `x`, ties going away from zero. -/
def NearestAway {K : Type} [Field K] [LinearOrder K] (x : K) (n : Int) : Prop :=
  |x - n| ≤ 1 / 2 ∧ (|x - n| = 1 / 2 → |x| < |(n : K)|)

end PathPlanning.Spec
