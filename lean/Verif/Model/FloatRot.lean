import Verif.Model.FloatMap
import Verif.Model.FloatSteer
import Verif.Model.Vec

/-!
# The rotated map in floating point arithmetic

`RotatedGridMap2d` with every operation rounded; `F` is the format of `double`, `G` of `float`, `lib` the C library.
-/

namespace PathPlanning

noncomputable section

/-- `c * a - s * b` with rounded operations (Point2d.cpp:36, RotatedGridMap2d.h:66, 78, 99). -/
def rotXF (F : Fmt) (c s a b : ℝ) : ℝ := F.fl (F.fl (c * a) - F.fl (s * b))

/-- `s * a + c * b` with rounded operations (Point2d.cpp:37, RotatedGridMap2d.h:67, 79, 100). -/
def rotYF (F : Fmt) (c s a b : ℝ) : ℝ := F.fl (F.fl (s * a) + F.fl (c * b))

/-- `Point2d::rotate` (Point2d.cpp:33-39). -/
def P2.rotateF (F : Fmt) (lib : Lib) (p : P2) (a : ℝ) : P2 :=
  ⟨rotXF F (lib.cos a) (lib.sin a) p.x p.y, rotYF F (lib.cos a) (lib.sin a) p.x p.y⟩

namespace RMap

/-- `setOrigin` (RotatedGridMap2d.h:51-54). -/
def setOriginF (F : Fmt) (lib : Lib) (m : RMap) (p : P2) : RMap :=
  let q := p.rotateF F lib (-m.yaw)
  { m with base := m.base.setOrigin q.x q.y }

/-- `point2cell` (RotatedGridMap2d.h:71-87). -/
def point2cellF (F : Fmt) (lib : Lib) (m : RMap) (p : P2) : CRes (Bool × UCell) := do
  let c := lib.cos (-m.yaw)
  let s := lib.sin (-m.yaw)
  let rx := rotXF F c s p.x p.y
  let ry := rotYF F c s p.x p.y
  let x ← castU (F.fl (F.fl (rx - m.base.ox) / m.base.res))
  let y ← castU (F.fl (F.fl (ry - m.base.oy) / m.base.res))
  pure (m.base.isInMap (toI32 x) (toI32 y), ⟨x, y⟩)

/-- `cell2point` (double overload, RotatedGridMap2d.h:89-101). -/
def cell2pointF (F : Fmt) (lib : Lib) (m : RMap) (k : UCell) : P2 :=
  let nx := F.fl (m.base.res * F.fl ((k.x : ℝ) + 1 / 2))
  let ny := F.fl (m.base.res * F.fl ((k.y : ℝ) + 1 / 2))
  let c := lib.cos m.yaw
  let s := lib.sin m.yaw
  let rx := F.fl (nx + m.base.ox)
  let ry := F.fl (ny + m.base.oy)
  ⟨rotXF F c s rx ry, rotYF F c s rx ry⟩

/-- `cell2point` (float overload, RotatedGridMap2d.h:56-68): every variable is a `float`, the expressions that contain `res_`,
`origin_` or `yaw_` are computed in `double` and converted. -/
def cell2pointFloat (F G : Fmt) (lib : Lib) (m : RMap) (k : UCell) : P2 :=
  let nx := G.fl (F.fl (m.base.res * F.fl ((k.x : ℝ) + 1 / 2)))
  let ny := G.fl (F.fl (m.base.res * F.fl ((k.y : ℝ) + 1 / 2)))
  let c := G.fl (lib.cos m.yaw)
  let s := G.fl (lib.sin m.yaw)
  let rx := G.fl (F.fl (nx + m.base.ox))
  let ry := G.fl (F.fl (ny + m.base.oy))
  ⟨rotXF G c s rx ry, rotYF G c s rx ry⟩

end RMap
end

end PathPlanning
