import Verif.Model.GridMap

/-!
# Model of the Bresenham line iterator and of the code built on it

Sources: `/repo/include/cslibs_path_planning/common/Bresenham2d.h`,
`/repo/src/common/Bresenham2d.cpp`, `LineArea::set` in `/repo/src/common/GridMap2d.cpp:227-254`,
`Manager::isFree/isFreeOrUnknown` (line) in
`/repo/include/cslibs_path_planning/generic/MapManager.hpp:76-119`.
-/

namespace PathPlanning

/-- Fields of `Bresenham2d` (Bresenham2d.h:97-114).  `map_` is an uninitialised pointer until a
successful `set`/`setGrid`: `none`.  Uninitialised integers are modelled as `0`; they are never
read before being set, because `x_ = x1_ ∧ y_ = y1_` holds until then. -/
structure Bres (K : Type) where
  map : Option (GridMap K)
  x0 : Int
  y0 : Int
  x1 : Int
  y1 : Int
  x : Int
  y : Int
  dx : Int
  dy : Int
  sx : Int
  sy : Int
  err : Int

namespace Bres
variable {K : Type}

/-- Constructor (Bresenham2d.cpp:12-15). -/
def fresh : Bres K := ⟨none, 0, 0, 0, 0, 0, 0, 0, 0, 0, 0, 0⟩

/-- Initialisation shared by `set` and `setGrid` (Bresenham2d.cpp:26-41 and 52-64). -/
def start (m : GridMap K) (sx sy ex ey : Int) : Bres K where
  map := some m
  x0 := sx
  y0 := sy
  x1 := ex
  y1 := ey
  x := sx
  y := sy
  dx := |ex - sx|
  dy := -|ey - sy|
  sx := if sx < ex then 1 else -1
  sy := if sy < ey then 1 else -1
  err := |ex - sx| + -|ey - sy|

/-- `setGrid` (Bresenham2d.cpp:44-65): endpoints off the map make the iterator empty at (0,0) and
leave `map_` and the other fields as they were. -/
def setGrid (b : Bres K) (m : GridMap K) (sx sy ex ey : Int) : Bres K :=
  if !m.isInMap sx sy || !m.isInMap ex ey then
    { b with x0 := 0, y0 := 0, x := 0, y := 0, x1 := 0, y1 := 0 }
  else start m sx sy ex ey

/-- `next` (Bresenham2d.cpp:67-77).  Returns the boolean and the new state. -/
def next (b : Bres K) : Bool × Bres K :=
  if b.x = b.x1 ∧ b.y = b.y1 then (false, b)
  else
    let e2 := 2 * b.err
    let b1 := if e2 > b.dy then { b with err := b.err + b.dy, x := b.x + b.sx } else b
    let b2 := if e2 < b1.dx then { b1 with err := b1.err + b1.dx, y := b1.y + b1.sy } else b1
    (true, b2)

/-- A value representable as 32-bit `int`. -/
def fits (z : Int) : Bool := decide (-2147483648 ≤ z) && decide (z ≤ 2147483647)

/-- `next` with every intermediate result checked for signed 32-bit overflow
(Bresenham2d.cpp:67-77); overflow is undefined behaviour. -/
def nextC (b : Bres K) : CRes (Bool × Bres K) :=
  if b.x = b.x1 ∧ b.y = b.y1 then .ok (false, b)
  else
    let e2 := 2 * b.err
    if !fits e2 then .ub else
    let b1 := if e2 > b.dy then { b with err := b.err + b.dy, x := b.x + b.sx } else b
    if !fits b1.err || !fits b1.x then .ub else
    let b2 := if e2 < b1.dx then { b1 with err := b1.err + b1.dx, y := b1.y + b1.sy } else b1
    if !fits b2.err || !fits b2.y then .ub else
    .ok (true, b2)

/-- State after `k` calls of `next`. -/
def after (b : Bres K) (k : Nat) : Bres K := (fun s => (next s).2)^[k] b

/-- `isFree()` of the iterator (Bresenham2d.h:79-81): dereferences `map_`. -/
def isFree (b : Bres K) : CRes Bool :=
  match b.map with
  | none => .ub
  | some m => m.isFree ⟨wrapI b.x, wrapI b.y⟩

/-- `isOccupied()` of the iterator (Bresenham2d.h:86-88). -/
def isOccupied (b : Bres K) : CRes Bool :=
  match b.map with
  | none => .ub
  | some m => m.isOccupied ⟨wrapI b.x, wrapI b.y⟩

/-- `isNoInformation()` of the iterator (Bresenham2d.h:93-95). -/
def isNoInformation (b : Bres K) : CRes Bool :=
  match b.map with
  | none => .ub
  | some m => m.isNoInformation ⟨wrapI b.x, wrapI b.y⟩

/-- `value()` of the iterator (Bresenham2d.h:72-74). -/
def value (b : Bres K) : CRes UInt8 :=
  match b.map with
  | none => .ub
  | some m => m.getValue ⟨wrapI b.x, wrapI b.y⟩

/-- `coordinates( x, y )` (Bresenham2d.h:65-67). -/
def coordinates (b : Bres K) : UCell := ⟨wrapI b.x, wrapI b.y⟩

end Bres

/-- The loop `for(;;)` of `LineArea::set` (GridMap2d.cpp:246-253).  `none` = fuel exhausted
(shown impossible for enough fuel). -/
def lineLoop (x1 y1 dx dy sx sy : Int) : Nat → Int → Int → Int → List (Int × Int) →
    Option (List (Int × Int))
  | 0, _, _, _, _ => none
  | fuel + 1, x0, y0, err, acc =>
    let acc := acc ++ [(x0, y0)]
    if x0 = x1 ∧ y0 = y1 then some acc
    else
      let e2 := 2 * err
      let (err, x0) := if e2 > dy then (err + dy, x0 + sx) else (err, x0)
      let (err, y0) := if e2 < dx then (err + dx, y0 + sy) else (err, y0)
      lineLoop x1 y1 dx dy sx sy fuel x0 y0 err acc

/-- The part of `LineArea::set` after the endpoints have been converted to cells
(GridMap2d.cpp:241-253). -/
def lineCells (fuel : Nat) (x0 y0 x1 y1 : Int) : Option (List (Int × Int)) :=
  lineLoop x1 y1 |x1 - x0| (-|y1 - y0|) (if x0 < x1 then 1 else -1) (if y0 < y1 then 1 else -1)
    fuel x0 y0 (|x1 - x0| + -|y1 - y0|) []

section num
variable {K : Type} [Field K] [LinearOrder K] [IsStrictOrderedRing K] [FloorRing K]

/-- `LineArea::set` (GridMap2d.cpp:227-254). -/
def lineAreaSet (fuel : Nat) (m : GridMap K) (s e : K × K) : CRes (Option (List (Int × Int))) :=
  if !m.isInMapD s.1 s.2 || !m.isInMapD e.1 e.2 then .ok (some [])
  else do
    let a ← m.point2cell s.1 s.2
    let b ← m.point2cell e.1 e.2
    pure (lineCells fuel (toI32 a.2.x) (toI32 a.2.y) (toI32 b.2.x) (toI32 b.2.y))

/-- `Bresenham2d::set` (Bresenham2d.cpp:17-42). -/
def Bres.set (b : Bres K) (m : GridMap K) (s e : K × K) : CRes (Bres K) :=
  if !m.isInMapD s.1 s.2 || !m.isInMapD e.1 e.2 then
    .ok { b with x0 := 0, y0 := 0, x := 0, y := 0, x1 := 0, y1 := 0 }
  else do
    let p ← m.point2cell s.1 s.2
    let q ← m.point2cell e.1 e.2
    pure (Bres.start m (toI32 p.2.x) (toI32 p.2.y) (toI32 q.2.x) (toI32 q.2.y))

end num

/-- The loop `while(bresenham.next()) { if(blocked(cell)) return false; } return true;`
(MapManager.hpp:87-97 and 111-118).  `none` = fuel exhausted. -/
def lineScan {K : Type} (ok : UCell → CRes Bool) : Nat → Bres K → CRes (Option Bool)
  | 0, _ => .ok none
  | fuel + 1, b =>
    let r := b.next
    if r.1 then do
      let f ← ok ⟨wrapI r.2.x, wrapI r.2.y⟩
      if f then lineScan ok fuel r.2 else pure (some false)
    else pure (some true)

section num2
variable {K : Type} [Field K] [LinearOrder K] [IsStrictOrderedRing K] [FloorRing K]

/-- Common part of the two line checks: asserts and `setGrid` with floored coordinates
(MapManager.hpp:77-82, 101-106).  A failed assert is `ub`. -/
def lineCheck (fuel : Nat) (b : Bres K) (m : GridMap K) (ok : UCell → CRes Bool)
    (sx sy ex ey : K) : CRes (Option Bool) :=
  if sx < 0 ∨ sy < 0 ∨ ex < 0 ∨ ey < 0 then .ub
  else lineScan ok fuel (b.setGrid m ⌊sx⌋ ⌊sy⌋ ⌊ex⌋ ⌊ey⌋)

/-- `Manager::isFree(sx,sy,ex,ey)` (MapManager.hpp:76-98).  `map_->isFree(x,y,theta)` ignores theta
on every map class of the library (GridMap2d.cpp:23-26); coordinates beyond the `int` range are
not modelled (the conversion of the floored value would be undefined). -/
def managerLineFree (fuel : Nat) (b : Bres K) (m : GridMap K) (sx sy ex ey : K) :
    CRes (Option Bool) :=
  lineCheck fuel b m m.isFree sx sy ex ey

/-- `Manager::isFreeOrUnknown(sx,sy,ex,ey)` (MapManager.hpp:100-119). -/
def managerLineFreeOrUnknown (fuel : Nat) (b : Bres K) (m : GridMap K) (sx sy ex ey : K) :
    CRes (Option Bool) :=
  lineCheck fuel b m (fun c => do
    let n ← m.isNoInformation c
    if n then pure true else m.isFree c) sx sy ex ey

end num2
end PathPlanning
