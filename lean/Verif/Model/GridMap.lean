import Verif.Prelude

/-!
# Model of `SimpleGridMap2d`

Sources: `/repo/include/cslibs_path_planning/common/SimpleGridMap2d.h`,
`/repo/src/common/SimpleGridMap2d.cpp`,
`/repo/include/cslibs_path_planning/common/GridMap2d.h` (point overloads).

`double` is an exact number of an ordered field `K`; `unsigned int` arithmetic on indices wraps
modulo `2^32`; reading or writing outside `data_` is undefined behaviour.
-/

namespace PathPlanning

/-- A cell of a map in `unsigned int` coordinates. -/
structure UCell where
  x : Nat
  y : Nat
deriving DecidableEq, Repr

/-- Fields of `SimpleGridMap2d` (SimpleGridMap2d.h:186-209).  `no_information_` is an `int`,
`-1` meaning "disabled". -/
structure GridMap (K : Type) where
  width : Nat
  height : Nat
  res : K
  ox : K
  oy : K
  data : List UInt8
  lower : UInt8
  upper : UInt8
  noInfo : Int

namespace GridMap

section basic
variable {K : Type}

/-- Constructor (SimpleGridMap2d.cpp:14-19): origin (0,0), thresholds 50 / 200, no-information
disabled, `data_.resize(width_*height_)` with the product computed in `unsigned int`. -/
def mk' [Zero K] (w h : Nat) (r : K) : GridMap K where
  width := w
  height := h
  res := r
  ox := 0
  oy := 0
  data := List.replicate (wrapU (w * h)) 0
  lower := 50
  upper := 200
  noInfo := -1

/-- The index expression `y*width_ + x` in `unsigned int` (SimpleGridMap2d.h:103,106). -/
def index (m : GridMap K) (c : UCell) : Nat := wrapU (wrapU (c.y * m.width) + c.x)

/-- `getValue` (SimpleGridMap2d.h:102-103). -/
def getValue (m : GridMap K) (c : UCell) : CRes UInt8 := vget m.data (m.index c)

/-- `setValue` (SimpleGridMap2d.h:105-106). -/
def setValue (m : GridMap K) (c : UCell) (v : UInt8) : CRes (GridMap K) := do
  let d ← vset m.data (m.index c) v
  pure { m with data := d }

/-- `set(value)`: every stored byte is overwritten (SimpleGridMap2d.h:86-92). -/
def fill (m : GridMap K) (v : UInt8) : GridMap K :=
  { m with data := m.data.map fun _ => v }

/-- `set(data, w, h)` (SimpleGridMap2d.h:76-80). -/
def setData (m : GridMap K) (d : List UInt8) (w h : Nat) : GridMap K :=
  { m with width := w, height := h, data := d }

/-- `setLowerThreshold` (SimpleGridMap2d.h:45-46). -/
def setLower (m : GridMap K) (t : UInt8) : GridMap K := { m with lower := t }
/-- `setUpperThreshold` (SimpleGridMap2d.h:53-54). -/
def setUpper (m : GridMap K) (t : UInt8) : GridMap K := { m with upper := t }
/-- `setNoInformationValue` (SimpleGridMap2d.h:60-61). -/
def setNoInfo (m : GridMap K) (v : Int) : GridMap K := { m with noInfo := v }
/-- `setResolution` (SimpleGridMap2d.h:67-68). -/
def setRes (m : GridMap K) (r : K) : GridMap K := { m with res := r }
/-- `setOrigin` (SimpleGridMap2d.h:120-121). -/
def setOrigin (m : GridMap K) (x y : K) : GridMap K := { m with ox := x, oy := y }

/-- The test `no_information_ != -1 && val == no_information_` (SimpleGridMap2d.h:125,133,141):
the byte is promoted to `int`. -/
def isNoInfoByte (m : GridMap K) (v : UInt8) : Bool :=
  m.noInfo != -1 && ((v.toNat : Int) == m.noInfo)

/-- Decision of `isFree` on the value read (SimpleGridMap2d.h:125-128). -/
def freeByte (m : GridMap K) (v : UInt8) : Bool :=
  if m.isNoInfoByte v then false else decide (v ≤ m.lower)

/-- Decision of `isOccupied` on the value read (SimpleGridMap2d.h:133-136). -/
def occByte (m : GridMap K) (v : UInt8) : Bool :=
  if m.isNoInfoByte v then false else decide (m.upper ≤ v)

/-- Decision of `isNoInformation` on the value read (SimpleGridMap2d.h:141-145). -/
def noInfByte (m : GridMap K) (v : UInt8) : Bool :=
  if m.isNoInfoByte v then true else decide (m.lower < v) && decide (v < m.upper)

/-- `isFree(x,y)` (SimpleGridMap2d.h:123-129). -/
def isFree (m : GridMap K) (c : UCell) : CRes Bool := do
  let v ← m.getValue c
  pure (m.freeByte v)

/-- `isOccupied(x,y)` (SimpleGridMap2d.h:131-137). -/
def isOccupied (m : GridMap K) (c : UCell) : CRes Bool := do
  let v ← m.getValue c
  pure (m.occByte v)

/-- `isNoInformation(x,y)` (SimpleGridMap2d.h:139-146). -/
def isNoInformation (m : GridMap K) (c : UCell) : CRes Bool := do
  let v ← m.getValue c
  pure (m.noInfByte v)

/-- `isInMap(int,int)` (SimpleGridMap2d.h:175-176); `(int)width_` is a two's complement cast. -/
def isInMap (m : GridMap K) (x y : Int) : Bool :=
  !(decide (x < 0) || decide (y < 0) || decide (toI32 m.width ≤ x) || decide (toI32 m.height ≤ y))

end basic

section num
variable {K : Type} [Field K] [LinearOrder K] [IsStrictOrderedRing K] [FloorRing K]

/-- `point2cell` (SimpleGridMap2d.h:148-155): both coordinates are converted to `unsigned int`
(undefined behaviour if not representable), the return value is `isInMap((int)x,(int)y)`. -/
def point2cell (m : GridMap K) (px py : K) : CRes (Bool × UCell) := do
  let x ← castU ((px - m.ox) / m.res)
  let y ← castU ((py - m.oy) / m.res)
  pure (m.isInMap (toI32 x) (toI32 y), ⟨x, y⟩)

/-- `point2cellSubPixel` (SimpleGridMap2d.h:156-163). -/
def point2cellSubPixel (m : GridMap K) (px py : K) : CRes (Bool × K × K) := do
  let x := (px - m.ox) / m.res
  let y := (py - m.oy) / m.res
  let xi ← castI x
  let yi ← castI y
  pure (m.isInMap xi yi, x, y)

/-- `cell2point` (double overload, SimpleGridMap2d.h:165-168). -/
def cell2point (m : GridMap K) (c : UCell) : K × K :=
  (m.res * ((c.x : K) + 1/2) + m.ox, m.res * ((c.y : K) + 1/2) + m.oy)

/-- `cell2pointSubPixel` (SimpleGridMap2d.h:170-173). -/
def cell2pointSubPixel (m : GridMap K) (x y : K) : K × K :=
  (m.res * x + m.ox, m.res * y + m.oy)

/-- `isInMap(double,double)` (SimpleGridMap2d.h:178-179). -/
def isInMapD (m : GridMap K) (x y : K) : Bool :=
  decide ((x - m.ox) / m.res < (m.width : K)) && decide ((y - m.oy) / m.res < (m.height : K))

/-- `isFree(Point2d)` (GridMap2d.h:184-188): the return value of `point2cell` is ignored. -/
def isFreeP (m : GridMap K) (px py : K) : CRes Bool := do
  let r ← m.point2cell px py
  m.isFree r.2

end num

end GridMap
end PathPlanning
