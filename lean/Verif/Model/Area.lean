import Verif.Model.Bresenham

/-!
# Model of map areas

Sources: `/repo/include/cslibs_path_planning/common/GridMap2d.h` (classes `MapArea2d`, `CircleArea`,
`CircleBuffer`, `LineArea`), `/repo/src/common/GridMap2d.cpp`,
`/repo/src/common/CollisionGridMap2d.cpp` (class `RobotArea`).
-/

namespace PathPlanning

/-- The interface `MapArea2d` (GridMap2d.h:22-59) as a record of functions on a state type. -/
structure MapArea (S : Type) where
  begin : S → CRes S
  next : S → Bool × S
  getCell : S → CRes (Int × Int)
  getValue : S → CRes UInt8
  setValue : S → UInt8 → CRes S

namespace MapArea
variable {S K : Type}

/-- The user-level loop `area.begin(); while(area.next()) area.getCell(x,y)`, collecting the cells.
`none` = fuel exhausted. -/
def drainLoop (A : MapArea S) : Nat → S → List (Int × Int) → CRes (Option (List (Int × Int)))
  | 0, _, _ => .ok none
  | n + 1, s, acc =>
    if (A.next s).1 then do
      let c ← A.getCell (A.next s).2
      A.drainLoop n (A.next s).2 (acc ++ [c])
    else .ok (some acc)

/-- See `drainLoop`. -/
def drain (A : MapArea S) (fuel : Nat) (s : S) : CRes (Option (List (Int × Int))) := do
  let s ← A.begin s
  A.drainLoop fuel s []

/-- Loop of `isAreaFree` (GridMap2d.cpp:73-78). -/
def freeLoop (A : MapArea S) (m : GridMap K) : Nat → S → CRes (Option Bool)
  | 0, _ => .ok none
  | n + 1, s =>
    if (A.next s).1 then do
      let c ← A.getCell (A.next s).2
      if m.isInMap c.1 c.2 then do
        let f ← m.isFree ⟨wrapI c.1, wrapI c.2⟩
        if !f then .ok (some false) else A.freeLoop m n (A.next s).2
      else A.freeLoop m n (A.next s).2
    else .ok (some true)

/-- `GridMap2d::isAreaFree` (GridMap2d.cpp:69-79). -/
def isAreaFree (A : MapArea S) (m : GridMap K) (fuel : Nat) (s : S) : CRes (Option Bool) := do
  let s ← A.begin s
  A.freeLoop m fuel s

/-- Loop of `isAreaNoInformation` (GridMap2d.cpp:85-90). -/
def noInfoLoop (A : MapArea S) (m : GridMap K) : Nat → S → CRes (Option Bool)
  | 0, _ => .ok none
  | n + 1, s =>
    if (A.next s).1 then do
      let c ← A.getCell (A.next s).2
      if m.isInMap c.1 c.2 then do
        let f ← m.isNoInformation ⟨wrapI c.1, wrapI c.2⟩
        if f then .ok (some false) else A.noInfoLoop m n (A.next s).2
      else A.noInfoLoop m n (A.next s).2
    else .ok (some true)

/-- `GridMap2d::isAreaNoInformation` (GridMap2d.cpp:81-91). -/
def isAreaNoInformation (A : MapArea S) (m : GridMap K) (fuel : Nat) (s : S) :
    CRes (Option Bool) := do
  let s ← A.begin s
  A.noInfoLoop m fuel s

/-- Loop of `isAreaOccupied` (GridMap2d.cpp:97-101). -/
def occLoop (A : MapArea S) (m : GridMap K) : Nat → S → CRes (Option Bool)
  | 0, _ => .ok none
  | n + 1, s =>
    if (A.next s).1 then do
      let c ← A.getCell (A.next s).2
      if m.isInMap c.1 c.2 then do
        let f ← m.isOccupied ⟨wrapI c.1, wrapI c.2⟩
        if f then .ok (some true) else A.occLoop m n (A.next s).2
      else A.occLoop m n (A.next s).2
    else .ok (some false)

/-- `GridMap2d::isAreaOccupied` (GridMap2d.cpp:93-103). -/
def isAreaOccupied (A : MapArea S) (m : GridMap K) (fuel : Nat) (s : S) : CRes (Option Bool) := do
  let s ← A.begin s
  A.occLoop m fuel s

/-- Loop of `setAreaValue(area, value)` (GridMap2d.cpp:51-55). -/
def setLoop (A : MapArea S) (v : UInt8) : Nat → S → GridMap K → CRes (Option (GridMap K))
  | 0, _, _ => .ok none
  | n + 1, s, m =>
    if (A.next s).1 then do
      let c ← A.getCell (A.next s).2
      if m.isInMap c.1 c.2 then do
        let m ← m.setValue ⟨wrapI c.1, wrapI c.2⟩ v
        A.setLoop v n (A.next s).2 m
      else A.setLoop v n (A.next s).2 m
    else .ok (some m)

/-- `GridMap2d::setAreaValue(area, value)` (GridMap2d.cpp:47-56). -/
def setAreaValue (A : MapArea S) (m : GridMap K) (v : UInt8) (fuel : Nat) (s : S) :
    CRes (Option (GridMap K)) := do
  let s ← A.begin s
  A.setLoop v fuel s m

/-- Loop of `setAreaValue(area)` (GridMap2d.cpp:40-44): the value comes from the area. -/
def writeLoop (A : MapArea S) : Nat → S → GridMap K → CRes (Option (GridMap K))
  | 0, _, _ => .ok none
  | n + 1, s, m =>
    if (A.next s).1 then do
      let c ← A.getCell (A.next s).2
      if m.isInMap c.1 c.2 then do
        let v ← A.getValue (A.next s).2
        let m ← m.setValue ⟨wrapI c.1, wrapI c.2⟩ v
        A.writeLoop n (A.next s).2 m
      else A.writeLoop n (A.next s).2 m
    else .ok (some m)

/-- `GridMap2d::setAreaValue(area)` (GridMap2d.cpp:36-45). -/
def writeArea (A : MapArea S) (m : GridMap K) (fuel : Nat) (s : S) :
    CRes (Option (GridMap K)) := do
  let s ← A.begin s
  A.writeLoop fuel s m

/-- Loop of `getAreaValues` (GridMap2d.cpp:62-66). -/
def readLoop (A : MapArea S) (m : GridMap K) : Nat → S → CRes (Option S)
  | 0, _ => .ok none
  | n + 1, s =>
    if (A.next s).1 then do
      let c ← A.getCell (A.next s).2
      if m.isInMap c.1 c.2 then do
        let v ← m.getValue ⟨wrapI c.1, wrapI c.2⟩
        let s' ← A.setValue (A.next s).2 v
        A.readLoop m n s'
      else A.readLoop m n (A.next s).2
    else .ok (some (A.next s).2)

/-- `GridMap2d::getAreaValues` (GridMap2d.cpp:58-67). -/
def readArea (A : MapArea S) (m : GridMap K) (fuel : Nat) (s : S) : CRes (Option S) := do
  let s ← A.begin s
  A.readLoop m fuel s

end MapArea

/-! ### `CircleArea`, `CircleBuffer`, `LineArea` -/

/-- Fields of `CircleArea` (GridMap2d.h:323-336) and of its subclass `CircleBuffer`
(`values`, GridMap2d.h:388). -/
structure CircleSt where
  value : UInt8
  cells : List (Int × Int)
  cx : Int
  cy : Int
  counter : Nat
  values : List UInt8 := []

/-- `CircleArea::begin/next/getCell/getValue` (GridMap2d.h:294-311); `setValue` is the empty base
implementation (GridMap2d.h:57-58). -/
def circleArea : MapArea CircleSt where
  begin s := .ok { s with counter := 0 }
  next s := if s.counter < s.cells.length then (true, { s with counter := s.counter + 1 })
            else (false, s)
  getCell s := do
    let c ← vget s.cells s.counter
    pure (c.1 + s.cx, c.2 + s.cy)
  getValue s := .ok s.value
  setValue s _ := .ok s

/-- `CircleBuffer::getValue/setValue` (GridMap2d.h:374-384). -/
def circleBuffer : MapArea CircleSt :=
  { circleArea with
    getValue := fun s => vget s.values s.counter
    setValue := fun s v => do
      let vs ← vset s.values s.counter v
      pure { s with values := vs } }

/-- Fields of `LineArea` (GridMap2d.h:442-450). -/
structure LineSt where
  counter : Nat
  cells : List (Int × Int)
  value : UInt8

/-- `LineArea::begin/next/getCell/getValue` (GridMap2d.h:423-440). -/
def lineArea : MapArea LineSt where
  begin s := .ok { s with counter := 0 }
  next s := if s.counter < s.cells.length then (true, { s with counter := s.counter + 1 })
            else (false, s)
  getCell s := vget s.cells s.counter
  getValue s := .ok s.value
  setValue s _ := .ok s

/-! ### `RobotArea` -/

/-- Fields of `RobotArea` used by the iteration (CollisionGridMap2d.h:65-91).  `x_`,`y_` are doubles
that only ever hold ints. -/
structure RobotSt where
  x : Int
  y : Int
  init : Bool
  idx : Int
  cells : List (Int × Int)

/-- `RobotArea::begin/next/getCell/getValue/setValue` (CollisionGridMap2d.cpp:100-138); the `assert`
in `begin` is `ub` when violated; a negative index is out of bounds. -/
def robotArea : MapArea RobotSt where
  begin s := if s.init then .ok { s with idx := -1 } else .ub
  next s := (decide (s.idx + 1 < (s.cells.length : Int)), { s with idx := s.idx + 1 })
  getCell s := if s.idx < 0 then .ub else do
    let c ← vget s.cells s.idx.toNat
    pure (s.x + c.1, s.y + c.2)
  getValue _ := .ok 0
  setValue s _ := .ok s

/-- `RobotArea::setPosition` (CollisionGridMap2d.cpp:85-90). -/
def RobotSt.setPosition (s : RobotSt) (x y : Int) : RobotSt := { s with x := x, y := y, init := true }

/-! ### Construction of the cells of a circle -/

/-- `addHorizontalLine(y, x0, x1)` (GridMap2d.cpp:183-193): the cells appended to `cells_`. -/
def horizontalLine (y x0 x1 : Int) : List (Int × Int) :=
  let (x0, x1) := if x0 > x1 then (x1, x0) else (x0, x1)
  (List.range (x1 + 1 - x0).toNat).map fun (k : Nat) => (x0 + (k : Int), y)

/-- The loop `while(x < cell_radius)` of `CircleArea::init` (GridMap2d.cpp:165-176).
`none` = fuel exhausted. -/
def circleLoop (r : Int) : Nat → (f ddx ddy x y : Int) → List (Int × Int) →
    Option (List (Int × Int))
  | 0, _, _, _, _, _, _ => none
  | n + 1, f, ddx, ddy, x, y, acc =>
    if x < r then
      let (y, ddy, f) := if f ≥ 0 then (y - 1, ddy + 2, f + (ddy + 2)) else (y, ddy, f)
      let x := x + 1
      let ddx := ddx + 2
      let f := f + ddx
      circleLoop r n f ddx ddy x y (acc ++ horizontalLine x (-y) y ++ horizontalLine (-x) (-y) y)
    else some acc

/-- The cells computed by `CircleArea::init` for a given `cell_radius`
(GridMap2d.cpp:157-176). -/
def circleCells (fuel : Nat) (r : Int) : Option (List (Int × Int)) :=
  circleLoop r fuel (1 - r) 1 (-2 * r) 0 r (horizontalLine 0 (-r) (0 + r))

section num
variable {K : Type} [Field K] [LinearOrder K] [IsStrictOrderedRing K] [FloorRing K]

/-- `CircleArea::setCenter` (GridMap2d.cpp:124-131). -/
def CircleSt.setCenter (s : CircleSt) (m : GridMap K) (px py : K) : CRes CircleSt := do
  let r ← m.point2cell px py
  if r.1 then pure { s with cx := toI32 r.2.x, cy := toI32 r.2.y } else pure s

/-- `CircleArea::init` (GridMap2d.cpp:133-181).  `none` = fuel exhausted. -/
def CircleSt.initC (s : CircleSt) (fuel : Nat) (m : GridMap K) (px py radius : K) :
    CRes (Option CircleSt) := do
  let s := { s with cells := [], counter := 0 }
  let r ← m.point2cell px py
  if !r.1 || decide (radius ≤ 0) then pure (some s) else do
    let s ← s.setCenter m px py
    if radius ≤ m.res then pure (some { s with cells := s.cells ++ [(0, 0)] }) else do
      let cr ← castI (radius / m.res)
      match circleCells fuel cr with
      | none => pure none
      | some cs => pure (some { s with cells := s.cells ++ cs })

/-- The constructor of `CircleArea` (GridMap2d.cpp:114-122). -/
def CircleSt.ctor (fuel : Nat) (m : GridMap K) (px py radius : K) : CRes (Option CircleSt) :=
  CircleSt.initC ⟨0, [], 0, 0, 0, []⟩ fuel m px py radius

/-- `CircleBuffer::init` (GridMap2d.cpp:207-214): `resize` followed by `assign`. -/
def CircleSt.initBuffer (s : CircleSt) (fuel : Nat) (m : GridMap K) (px py radius : K) :
    CRes (Option CircleSt) := do
  let r ← CircleSt.initC s fuel m px py radius
  pure (r.map fun s => { s with values := List.replicate s.cells.length s.value })

end num

end PathPlanning
