import Verif.Model.Vec
import Verif.Model.Area

/-!
# Model of `CollisionGridMap2d` and of the construction of `RobotArea`

Sources: `/repo/src/common/CollisionGridMap2d.cpp`,
`/repo/include/cslibs_path_planning/common/CollisionGridMap2d.h`.

`double` is `ℝ`.  The iteration of `RobotArea` is in `Model/Area.lean`.
-/

noncomputable section

namespace PathPlanning

/-- The inner loop of the constructor (CollisionGridMap2d.cpp:49-54): the points passed to
`cells_.emplace_back`, for the remaining number of rounds and the current `i_col`. -/
def colLoop (left right : P2) (inc : ℝ) : Nat → ℝ → List P2
  | 0, _ => []
  | n + 1, i => (left + (right - left).smul i) :: colLoop left right inc n (i + inc)

/-- The outer loop (CollisionGridMap2d.cpp:45-57). -/
def rowLoop (bl fl fr br : P2) (incRow incCol : ℝ) (cols : Nat) : Nat → ℝ → List P2
  | 0, _ => []
  | n + 1, i =>
    colLoop (bl + (fl - bl).smul i) (fr + (br - fr).smul i) incCol cols 0 ++
      rowLoop bl fl fr br incRow incCol cols n (i + incRow)

/-- The points sampled by the constructor (CollisionGridMap2d.cpp:20-57).  For `width = 0` the number
of rows is `ceil(0.0/0.0)` converted to `int`: undefined.  For `steps_col = 0` the infinite `inc_col`
is not used for a point. -/
def footPoints (forward backward width theta : ℝ) : CRes (List P2) :=
  if width = 0 then .ub
  else do
    let hw := width / 2
    let fr := (⟨forward, -hw⟩ : P2).rotate theta
    let fl := (⟨forward, hw⟩ : P2).rotate theta
    let br := (⟨backward, -hw⟩ : P2).rotate theta
    let bl := (⟨backward, hw⟩ : P2).rotate theta
    let mPerStep := width / 8
    let stepsRow ← castI ((⌈width / mPerStep⌉ : Int) : ℝ)
    let stepsCol ← castI ((⌈(forward - backward) / mPerStep⌉ : Int) : ℝ)
    let incRow : ℝ := 1 / stepsRow
    let incCol : ℝ := 1 / stepsCol
    pure (rowLoop bl fl fr br incRow incCol (stepsCol + 1).toNat (stepsRow + 1).toNat 0)

/-- `Cell(const Eigen::Vector2d&)` for every point (CollisionGridMap2d.h:85-87): conversion of both
coordinates to `int`. -/
def toCells : List P2 → CRes (List (Int × Int))
  | [] => .ok []
  | p :: ps => do
    let x ← castI p.x
    let y ← castI p.y
    let r ← toCells ps
    pure ((x, y) :: r)

/-- The constructor of `RobotArea` (CollisionGridMap2d.cpp:20-83); `idx` is not initialised
(`junk`). -/
def RobotSt.new (forward backward width theta : ℝ) (junk : Int) : CRes RobotSt := do
  let ps ← footPoints forward backward width theta
  let cs ← toCells ps
  pure { x := 0, y := 0, init := false, idx := junk, cells := cs }

/-- `ANGLE_DISCRETIZATION` (CollisionGridMap2d.h:28). -/
def ANGLE_DISCRETIZATION : Nat := 128

/-- The orientation area number `t` is built for (CollisionGridMap2d.cpp:151). -/
def areaTheta (t : Nat) : ℝ := 2 * Real.pi * ((t : ℝ) / ((ANGLE_DISCRETIZATION : ℝ) + 1))

/-- The loop of the constructor (CollisionGridMap2d.cpp:150-155). -/
def mkAreas (f b w : ℝ) (junk : Int) : Nat → Nat → CRes (List RobotSt)
  | 0, _ => .ok []
  | n + 1, t => do
    let a ← RobotSt.new f b w (areaTheta t) junk
    let as ← mkAreas f b w junk n (t + 1)
    pure (a :: as)

/-- `CollisionGridMap2d` (CollisionGridMap2d.h:26-50): the base map and `areas_`. -/
structure CMap where
  base : RMap
  areas : List RobotSt

namespace CMap

/-- Constructor (CollisionGridMap2d.cpp:147-156); the base class constructor is `GridMap.mk'` plus the
yaw (src/common/RotatedGridMap2d.cpp). -/
def new (w h : Nat) (yaw res forward backward width : ℝ) (junk : Int) : CRes CMap := do
  let as ← mkAreas (forward / res) (backward / res) (width / res) junk ANGLE_DISCRETIZATION 0
  pure ⟨⟨GridMap.mk' w h res, yaw⟩, as⟩

/-- `while(t < 0) t += 2*M_PI;` (CollisionGridMap2d.cpp:186, 203, 224), bounded. -/
def up : Nat → ℝ → Option ℝ
  | 0, t => if t < 0 then none else some t
  | n + 1, t => if t < 0 then up n (t + 2 * Real.pi) else some t

/-- `while(t >= 2*M_PI) t -= 2*M_PI;` (CollisionGridMap2d.cpp:187, 204, 225), bounded. -/
def down : Nat → ℝ → Option ℝ
  | 0, t => if t ≥ 2 * Real.pi then none else some t
  | n + 1, t => if t ≥ 2 * Real.pi then down n (t - 2 * Real.pi) else some t

/-- C `round`: to the nearest integer, halves away from zero, as `int`. -/
def roundI (t : ℝ) : CRes Int := castI (((if 0 ≤ t then ⌊t + 1 / 2⌋ else ⌈t - 1 / 2⌉ : Int)) : ℝ)

/-- The expression `areas_[(int) round(t)]` after the two loops (CollisionGridMap2d.cpp:185-190): the
index, `none` if the bound on the rounds is reached. -/
def areaIndex (fuel : Nat) (theta : ℝ) : CRes (Option Int) :=
  match (up fuel theta).bind (down fuel) with
  | none => .ok none
  | some t => some <$> roundI t

/-- Selecting the area and moving it (CollisionGridMap2d.cpp:185-191): the area and the new state;
an index outside the array is undefined behaviour. -/
def select (c : CMap) (fuel : Nat) (x y : Nat) (theta : ℝ) : CRes (Option (RobotSt × CMap)) := do
  match ← areaIndex fuel theta with
  | none => pure none
  | some k =>
    if k < 0 then .ub
    else do
      let a ← vget c.areas k.toNat
      let a := a.setPosition (toI32 x) (toI32 y)
      pure (some (a, { c with areas := c.areas.set k.toNat a }))

/-- `isOccupiedRotated` (CollisionGridMap2d.cpp:175-194): answer and state afterwards. -/
def isOccupiedRotated (c : CMap) (fuel : Nat) (x y : Nat) (theta : ℝ) :
    CRes (Option (Bool × CMap)) := do
  if !c.base.base.isInMap (toI32 x) (toI32 y) then pure (some (false, c))
  else
    let o ← c.base.base.isOccupied ⟨x, y⟩
    if o then pure (some (true, c))
    else
      match ← c.select fuel x y theta with
      | none => pure none
      | some (a, c') => do
        let r ← robotArea.isAreaOccupied c.base.base fuel a
        pure (r.map fun b => (b, c'))

/-- `isFreeRotated` (CollisionGridMap2d.cpp:196-211). -/
def isFreeRotated (c : CMap) (fuel : Nat) (x y : Nat) (theta : ℝ) :
    CRes (Option (Bool × CMap)) := do
  if !c.base.base.isInMap (toI32 x) (toI32 y) then pure (some (false, c))
  else
    let o ← c.base.base.isFree ⟨x, y⟩
    if !o then pure (some (false, c))
    else
      match ← c.select fuel x y theta with
      | none => pure none
      | some (a, c') => do
        let r ← robotArea.isAreaFree c.base.base fuel a
        pure (r.map fun b => (b, c'))

/-- `isNoInformationRotated` (CollisionGridMap2d.cpp:214-232). -/
def isNoInformationRotated (c : CMap) (fuel : Nat) (x y : Nat) (theta : ℝ) :
    CRes (Option (Bool × CMap)) := do
  if !c.base.base.isInMap (toI32 x) (toI32 y) then pure (some (false, c))
  else
    let o ← c.base.base.isOccupied ⟨x, y⟩
    if o then pure (some (false, c))
    else
      match ← c.select fuel x y theta with
      | none => pure none
      | some (a, c') => do
        let r ← robotArea.isAreaNoInformation c.base.base fuel a
        pure (r.map fun b => (b, c'))

/-- `isFree(x, y, theta)` called on a `CollisionGridMap2d` (GridMap2d.cpp:23-26): the class does not
override it, so the footprint is not used and `theta` is ignored. -/
def isFreeTheta (c : CMap) (x y : Nat) (_theta : ℝ) : CRes Bool := c.base.base.isFree ⟨x, y⟩

end CMap

end PathPlanning
