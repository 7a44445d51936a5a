import Verif.Model.Bresenham

/-!
# Model of the line and point checks of `DynamicDirectionalStateSpaceManager`
(`/repo/include/cslibs_path_planning/generic/MapManager.hpp:529-542, 663-755`)
-/

namespace PathPlanning

section
variable {K : Type}

/-- `isFree(int x, int y, double theta)` (MapManager.hpp:734-739): false outside the map. The maps of
the library ignore theta (GridMap2d.cpp:23-26). -/
def ptFree (m : GridMap K) (x y : Int) : CRes Bool :=
  if x < 0 ∨ y < 0 ∨ toI32 m.width ≤ x ∨ toI32 m.height ≤ y then .ok false
  else m.isFree ⟨x.toNat, y.toNat⟩

/-- `isFreeOrUnknown(int x, int y, double theta)` (MapManager.hpp:740-745): true outside the map. -/
def ptFreeOrUnknown (m : GridMap K) (x y : Int) : CRes Bool :=
  if x < 0 ∨ y < 0 ∨ toI32 m.width ≤ x ∨ toI32 m.height ≤ y then .ok true
  else do
    let o ← m.isOccupied ⟨x.toNat, y.toNat⟩
    pure (!o)

/-- `isOccupied(int x, int y, double theta)` (MapManager.hpp:750-755): false outside the map. -/
def ptOccupied (m : GridMap K) (x y : Int) : CRes Bool :=
  if x < 0 ∨ y < 0 ∨ toI32 m.width ≤ x ∨ toI32 m.height ≤ y then .ok false
  else m.isOccupied ⟨x.toNat, y.toNat⟩

/-- The scan loop shared by the three line checks (MapManager.hpp:668-681, 691-705, 716-729):
`hit x y` is tested only when the skip counter is 0; a hit ends the scan.  The unsigned subtraction
`x - padding` converted to `int` is the integer subtraction.  `none` = fuel exhausted. -/
def dynScan (hit : Int → Int → CRes Bool) (skips : Int) : Nat → Int → Bres K → CRes (Option Bool)
  | 0, _, _ => .ok none
  | fuel + 1, skip, b =>
    let r := b.next
    if r.1 then do
      let f ← (if skip = 0 then hit (r.2.x - 32) (r.2.y - 32) else .ok false)
      if f then pure (some true)
      else dynScan hit skips fuel (if skip + 1 > skips then 0 else skip + 1) r.2
    else pure (some false)

end

section num
variable {K : Type} [Field K] [LinearOrder K] [IsStrictOrderedRing K] [FloorRing K]

/-- `bresenham_skips` (MapManager.hpp:537-539). -/
def dynSkips (m : GridMap K) : CRes Int := castI ((1 / 2 : K) / m.res)

/-- `setGrid` with the padding added (MapManager.hpp:664, 687, 712). -/
def dynSetGrid (b : Bres K) (m : GridMap K) (sx sy ex ey : K) : Bres K :=
  b.setGrid m ⌊sx + 32⌋ ⌊sy + 32⌋ ⌊ex + 32⌋ ⌊ey + 32⌋

/-- `isFree(sx,sy,ex,ey)` (MapManager.hpp:663-684); finally the *end* cell is tested (conversion of
`double` to `int` truncates). -/
def dynLineFree (fuel : Nat) (skips : Int) (b : Bres K) (m : GridMap K) (sx sy ex ey : K) :
    CRes (Option Bool) := do
  let r ← dynScan (fun x y => do let f ← ptFree m x y; pure (!f)) skips fuel 0
    (dynSetGrid b m sx sy ex ey)
  match r with
  | none => pure none
  | some true => pure (some false)
  | some false => do
    let f ← ptFree m (truncC ex) (truncC ey)
    pure (some f)

/-- `isFreeOrUnknown(sx,sy,ex,ey)` (MapManager.hpp:686-708); finally the *start* cell is tested. -/
def dynLineFreeOrUnknown (fuel : Nat) (skips : Int) (b : Bres K) (m : GridMap K) (sx sy ex ey : K) :
    CRes (Option Bool) := do
  let r ← dynScan (fun x y => do let f ← ptFreeOrUnknown m x y; pure (!f)) skips fuel 0
    (dynSetGrid b m sx sy ex ey)
  match r with
  | none => pure none
  | some true => pure (some false)
  | some false => do
    let f ← ptFreeOrUnknown m (truncC sx) (truncC sy)
    pure (some f)

/-- `isOccupied(sx,sy,ex,ey)` (MapManager.hpp:711-732). -/
def dynLineOccupied (fuel : Nat) (skips : Int) (b : Bres K) (m : GridMap K) (sx sy ex ey : K) :
    CRes (Option Bool) := do
  let r ← dynScan (ptOccupied m) skips fuel 0 (dynSetGrid b m sx sy ex ey)
  match r with
  | none => pure none
  | some true => pure (some true)
  | some false => do
    let f ← ptOccupied m (truncC ex) (truncC ey)
    pure (some f)

end num

end PathPlanning
