import Verif.Prelude
import Verif.Model.GridMap
import Mathlib.Analysis.SpecialFunctions.Complex.Arg
import Mathlib.Analysis.SpecialFunctions.Sqrt

/-!
# Model of `Point2d`, `Pose2d`, `MapMath`, `TmpMath`

`double` is modelled by `ℝ`.
-/

noncomputable section

namespace PathPlanning

/-- C `atan2(y, x)`: the argument of `x + i y`, in `(-π, π]`; `atan2(0,0) = 0`.
(External: the C library; modelled by its mathematical meaning.) -/
def atan2 (y x : ℝ) : ℝ := Complex.arg ⟨x, y⟩

/-- `Point2d` (include/cslibs_path_planning/common/Point2d.h:56-60). -/
@[ext] structure P2 where
  x : ℝ
  y : ℝ

namespace P2

/-- `operator+` (Point2d.h:87-92). -/
def add (a b : P2) : P2 := ⟨a.x + b.x, a.y + b.y⟩
/-- `operator-` (Point2d.h:94-99). -/
def sub (a b : P2) : P2 := ⟨a.x - b.x, a.y - b.y⟩
/-- unary `operator-` (Point2d.h:101-106). -/
def neg (a : P2) : P2 := ⟨-a.x, -a.y⟩
/-- `operator*(double)` (Point2d.h:74-79). -/
def smul (a : P2) (f : ℝ) : P2 := ⟨a.x * f, a.y * f⟩
/-- `operator/(double)` (Point2d.h:67-72). -/
def sdiv (a : P2) (f : ℝ) : P2 := ⟨a.x / f, a.y / f⟩

instance : Add P2 := ⟨add⟩
instance : Sub P2 := ⟨sub⟩
instance : Neg P2 := ⟨neg⟩

@[simp] theorem add_x (a b : P2) : (a + b).x = a.x + b.x := rfl
@[simp] theorem add_y (a b : P2) : (a + b).y = a.y + b.y := rfl
@[simp] theorem sub_x (a b : P2) : (a - b).x = a.x - b.x := rfl
@[simp] theorem sub_y (a b : P2) : (a - b).y = a.y - b.y := rfl
@[simp] theorem neg_x (a : P2) : (-a).x = -a.x := rfl
@[simp] theorem neg_y (a : P2) : (-a).y = -a.y := rfl

/-- `Point2d::from_polar` (src/common/Point2d.cpp:28-31). -/
def fromPolar (angle radius : ℝ) : P2 := ⟨Real.cos angle * radius, Real.sin angle * radius⟩

/-- `Point2d::rotate` (Point2d.cpp:33-39). -/
def rotate (p : P2) (a : ℝ) : P2 :=
  ⟨Real.cos a * p.x - Real.sin a * p.y, Real.sin a * p.x + Real.cos a * p.y⟩

/-- `Point2d::ortho` (Point2d.cpp:41-47). -/
def ortho (p : P2) : P2 := ⟨p.y, -p.x⟩

/-- `Point2d::distance_to_origin`, `length` (Point2d.cpp:64-72). -/
def length (p : P2) : ℝ := Real.sqrt (p.x ^ 2 + p.y ^ 2)

/-- `Point2d::resize` (Point2d.cpp:54-62); for the zero vector the C++ division yields NaN
coordinates, which are not modelled (theorems assume a non-zero vector). -/
def resize (p : P2) (size : ℝ) : P2 :=
  let f := size / p.length
  ⟨p.x * f, p.y * f⟩

/-- `Point2d::normalize` (Point2d.cpp:49-52). -/
def normalize (p : P2) : P2 := p.resize 1

/-- `Point2d::angle` (Point2d.cpp:74-77). -/
def angle (p : P2) : ℝ := atan2 p.y p.x

end P2

/-- `Pose2d` (include/cslibs_path_planning/common/Pose2d.h:36-42). -/
@[ext] structure Pose where
  x : ℝ
  y : ℝ
  theta : ℝ

namespace Pose

/-- default constructor (src/common/Pose2d.cpp:16-19). -/
def zero : Pose := ⟨0, 0, 0⟩
/-- `Point2d(const Pose2d&)` (Point2d.cpp:22-26). -/
def pt (p : Pose) : P2 := ⟨p.x, p.y⟩
/-- `distance_to` (Pose2d.cpp:26-31). -/
def distTo (p q : Pose) : ℝ :=
  let dx := p.x - q.x
  let dy := p.y - q.y
  Real.sqrt (dx * dx + dy * dy)
/-- `distance_to_origin` (Pose2d.cpp:33-36). -/
def distOrigin (p : Pose) : ℝ := Real.sqrt (p.x * p.x + p.y * p.y)
/-- `isEqual` (Pose2d.cpp:38-44); `delta` is the external `MathHelper::AngleDelta`. -/
def isEqual (delta : ℝ → ℝ → ℝ) (p q : Pose) (deps teps : ℝ) : Prop :=
  p.distTo q ≤ deps ∧ |delta p.theta q.theta| ≤ teps
/-- `operator-` (Pose2d.h:49-54): the orientation of the result is that of a default pose. -/
def sub (p q : Pose) : Pose := ⟨p.x - q.x, p.y - q.y, 0⟩
/-- `operator+` (Pose2d.h:56-61). -/
def add (p q : Pose) : Pose := ⟨p.x + q.x, p.y + q.y, 0⟩
/-- `operator/` (Pose2d.h:63-68). -/
def sdiv (p : Pose) (f : ℝ) : Pose := ⟨p.x / f, p.y / f, 0⟩
/-- `operator*` (Pose2d.h:71-83). -/
def smul (p : Pose) (f : ℝ) : Pose := ⟨p.x * f, p.y * f, 0⟩
/-- `dot` (Pose2d.h:85-87). -/
def dot (p q : Pose) : ℝ := p.x * q.x + p.y * q.y

end Pose

/-- `pos2map(double,...)` and `pos2map(Pose2d,...)` (src/common/MapMath.cpp:15-19, 27-33). -/
def pos2map (m : GridMap ℝ) (p : Pose) : Pose :=
  ⟨(p.x - m.ox) / m.res, (p.y - m.oy) / m.res, p.theta⟩

/-- `map2pos` (MapMath.cpp:21-25, 35-41). -/
def map2pos (m : GridMap ℝ) (p : Pose) : Pose :=
  ⟨m.res * p.x + m.ox, m.res * p.y + m.oy, p.theta⟩

/-- `tmpmath::round` (include/cslibs_path_planning/common/TmpMath.hpp:8-11): the conversion of the
floating value to `int` truncates and is undefined if out of range. -/
def tmpRound {K : Type} [Field K] [LinearOrder K] [FloorRing K] (x : K) : CRes Int :=
  castI (if 0 ≤ x then x + 1 / 2 else x - 1 / 2)

/-! ### The rotated map -/

/-- `RotatedGridMap2d` (include/cslibs_path_planning/common/RotatedGridMap2d.h:18-142):
a `SimpleGridMap2d` plus `yaw_`. -/
structure RMap where
  base : GridMap ℝ
  yaw : ℝ

namespace RMap

/-- `set(data, w, h, yaw)` (RotatedGridMap2d.h:40-45). -/
def set (m : RMap) (d : List UInt8) (w h : Nat) (yaw : ℝ) : RMap :=
  ⟨m.base.setData d w h, yaw⟩

/-- `setOrigin` (RotatedGridMap2d.h:51-54). -/
def setOrigin (m : RMap) (p : P2) : RMap :=
  let q := p.rotate (-m.yaw)
  { m with base := m.base.setOrigin q.x q.y }

/-- `getOrigin` (RotatedGridMap2d.h:48-49). -/
def getOrigin (m : RMap) : P2 := ⟨m.base.ox, m.base.oy⟩

/-- `cell2pointSubPixel` (RotatedGridMap2d.h:103-115). -/
def cell2pointSub (m : RMap) (x y : ℝ) : P2 :=
  let nx := m.base.res * x
  let ny := m.base.res * y
  let c := Real.cos m.yaw
  let s := Real.sin m.yaw
  let rx := nx + m.base.ox
  let ry := ny + m.base.oy
  ⟨c * rx - s * ry, s * rx + c * ry⟩

/-- `cell2point` (RotatedGridMap2d.h:89-101; the float overload 56-68 computes the same). -/
def cell2point (m : RMap) (c : UCell) : P2 :=
  let nx := m.base.res * ((c.x : ℝ) + 1 / 2)
  let ny := m.base.res * ((c.y : ℝ) + 1 / 2)
  let co := Real.cos m.yaw
  let s := Real.sin m.yaw
  let rx := nx + m.base.ox
  let ry := ny + m.base.oy
  ⟨co * rx - s * ry, s * rx + co * ry⟩

/-- `point2cell` (RotatedGridMap2d.h:71-87). -/
def point2cell (m : RMap) (p : P2) : CRes (Bool × UCell) := do
  let c := Real.cos (-m.yaw)
  let s := Real.sin (-m.yaw)
  let rx := c * p.x - s * p.y
  let ry := s * p.x + c * p.y
  let x ← castU ((rx - m.base.ox) / m.base.res)
  let y ← castU ((ry - m.base.oy) / m.base.res)
  pure (m.base.isInMap (toI32 x) (toI32 y), ⟨x, y⟩)

/-- `isInMap(double,double)` (RotatedGridMap2d.h:121-132): neither origin nor resolution occur. -/
def isInMapD (m : RMap) (p : P2) : CRes Bool := do
  let c := Real.cos (-m.yaw)
  let s := Real.sin (-m.yaw)
  let px ← castI (c * p.x - s * p.y)
  let py ← castI (s * p.x + c * p.y)
  pure (decide (0 ≤ px) && decide (0 ≤ py) && decide (px < toI32 m.base.width) &&
    decide (py < toI32 m.base.height))

end RMap

end PathPlanning
