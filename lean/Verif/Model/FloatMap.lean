import Verif.Model.Float
import Verif.Model.GridMap
import Mathlib.Algebra.Order.Round

/-!
# Conversions between points and cells in floating point arithmetic

`SimpleGridMap2d::point2cell` and `cell2point` with every operation rounded; `F` is the format of `double`, `G` of `float`.
-/

namespace PathPlanning
namespace GridMap

/-- `(px - origin)/res` (SimpleGridMap2d.h:149-150): both operations are rounded. -/
noncomputable def coordF (F : Fmt) (o res p : ℝ) : ℝ := F.fl (F.fl (p - o) / res)

/-- `point2cell` (SimpleGridMap2d.h:148-155). -/
noncomputable def point2cellF (F : Fmt) (m : GridMap ℝ) (px py : ℝ) : CRes (Bool × UCell) := do
  let x ← castU (coordF F m.ox m.res px)
  let y ← castU (coordF F m.oy m.res py)
  pure (m.isInMap (toI32 x) (toI32 y), ⟨x, y⟩)

/-- `res_*(double)(x+0.5) + origin` (SimpleGridMap2d.h:166-167): `x` is converted to `double` before the addition; each of
the three operations is rounded. -/
noncomputable def centreF (F : Fmt) (o res : ℝ) (x : Nat) : ℝ := F.fl (F.fl (res * F.fl (x + 1 / 2)) + o)

/-- `cell2point` (double overload, SimpleGridMap2d.h:165-168). -/
noncomputable def cell2pointF (F : Fmt) (m : GridMap ℝ) (c : UCell) : ℝ × ℝ :=
  (centreF F m.ox m.res c.x, centreF F m.oy m.res c.y)

/-- `cell2point` (float overload, SimpleGridMap2d.h:95-98): the same expression, converted to `float` at the end. -/
noncomputable def cell2pointFloat (F G : Fmt) (m : GridMap ℝ) (c : UCell) : ℝ × ℝ :=
  (G.fl (centreF F m.ox m.res c.x), G.fl (centreF F m.oy m.res c.y))

end GridMap
end PathPlanning
