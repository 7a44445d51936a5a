import Verif.Model.Float
import Verif.Model.Managers

/-!
# Orientation slots in floating point arithmetic

The same expressions as `angle2index` and `slotTheta` of `Model/Managers.lean`, with every operation rounded.
-/

namespace PathPlanning

noncomputable section

/-- `M_PI`: the representable number nearest to `π`. -/
def piF (F : Fmt) : ℝ := F.fl Real.pi

/-- `(AngleClamp(theta) + M_PI) / (2 * M_PI) * (theta_slots - 1)` (MapManager.hpp:288, 384, 592): addition, `2 * M_PI`,
division and multiplication are rounded, and so is the conversion of the unsigned number `theta_slots - 1` to `double`.
`clamp` is the external `MathHelper::AngleClamp`, as computed. -/
def slotCoordF (F : Fmt) (clamp : ℝ → ℝ) (slots : Nat) (theta : ℝ) : ℝ :=
  F.fl (F.fl (F.fl (clamp theta + piF F) / F.fl (2 * piF F)) * F.fl ((slots - 1 : Nat) : ℝ))

/-- `angle2index` (MapManager.hpp:287-289, 383-385, 591-593): the conversion to `unsigned` at the end. -/
def angle2indexF (F : Fmt) (clamp : ℝ → ℝ) (slots : Nat) (theta : ℝ) : CRes Nat :=
  castU (slotCoordF F clamp slots theta)

/-- Orientation stored in the nodes of slot `t`, `stheta + dtheta * t` with `stheta = 0 - M_PI` and
`dtheta = 2 * M_PI / theta_slots` (MapManager.hpp:257-258, 274, 346-347, 366, 447-448, 461). -/
def slotThetaF (F : Fmt) (slots t : Nat) : ℝ :=
  F.fl (F.fl (0 - piF F) + F.fl (F.fl (F.fl (2 * piF F) / F.fl slots) * F.fl t))

end

end PathPlanning
