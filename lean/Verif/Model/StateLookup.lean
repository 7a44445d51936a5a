import Verif.Model.Managers

/-!
# Model of the `lookup` overloads of the oriented node managers (`generic/MapManager.hpp`)

`Model/Managers` has the index functions and the initialisation; here are the public entry points
that take poses, with the conversions of their arguments.  Coordinates are exact numbers.
-/

namespace PathPlanning

noncomputable section

/-- `StateSpaceManager::lookup(const PointT&)` (MapManager.hpp:291-297): the coordinates are
converted to `unsigned`. -/
def ssLookupRef (clamp : ℝ → ℝ) (w h : Nat) (x y θ : ℝ) : CRes Nat := do
  let yu ← castU y
  let xu ← castU x
  let t ← angle2index clamp 36 θ
  ssIndex w h 36 xu yu t

/-- `StateSpaceManager::lookup(int, int, double)` (MapManager.hpp:299-304); `x >= w` compares an
`int` with an `unsigned`, i.e. after conversion to `unsigned`. -/
def ssLookupI (clamp : ℝ → ℝ) (w h : Nat) (x y : Int) (θ : ℝ) : CRes Nat :=
  if x < 0 ∨ y < 0 ∨ w ≤ wrapI x ∨ h ≤ wrapI y then .throw "OutsideMapException"
  else do
    let t ← angle2index clamp 36 θ
    ssIndex w h 36 (wrapI x) (wrapI y) t

/-- `StateSpaceManager::lookup(double, double, double)` (MapManager.hpp:305-310). -/
def ssLookupD (clamp : ℝ → ℝ) (w h : Nat) (x y θ : ℝ) : CRes Nat :=
  if x < 0 ∨ y < 0 ∨ (w : ℝ) ≤ x ∨ (h : ℝ) ≤ y then .throw "OutsideMapException"
  else do
    let xi ← GMgr.floorI x
    let yi ← GMgr.floorI y
    ssLookupI clamp w h xi yi θ

/-- `DirectionalStateSpaceManager::lookup(const PointT&)` (MapManager.hpp:387-393): conversion to
`unsigned`, then (as arguments of `index`) to `int`. -/
def dsLookupRef (clamp : ℝ → ℝ) (w h : Nat) (x y θ : ℝ) (forward : Bool) : CRes Nat := do
  let yu ← castU y
  let xu ← castU x
  let t ← angle2index clamp 32 θ
  dsIndex w h 32 (toI32 xu) (toI32 yu) (toI32 t) forward

/-- `DirectionalStateSpaceManager::lookup(const Pose2d&)` (MapManager.hpp:394-399): a pose has no
driving direction, forward is assumed. -/
def dsLookupPose (clamp : ℝ → ℝ) (w h : Nat) (x y θ : ℝ) : CRes Nat := do
  let yu ← castU y
  let xu ← castU x
  let t ← angle2index clamp 32 θ
  dsIndex w h 32 (toI32 xu) (toI32 yu) (toI32 t) true

/-- `DirectionalStateSpaceManager::lookup(int, int, double, bool)` (MapManager.hpp:401-407). -/
def dsLookupI (clamp : ℝ → ℝ) (w h : Nat) (x y : Int) (θ : ℝ) (forward : Bool) : CRes Nat := do
  let t ← angle2index clamp 32 θ
  if x < 0 ∨ y < 0 ∨ toI32 w ≤ x ∨ toI32 h ≤ y ∨ toI32 t < 0 ∨ toI32 32 ≤ toI32 t then
    .throw "OutsideMapException"
  else dsIndex w h 32 x y (toI32 t) forward

/-- `DirectionalStateSpaceManager::lookup(double, double, double, bool)` (MapManager.hpp:408-413). -/
def dsLookupD (clamp : ℝ → ℝ) (w h : Nat) (x y θ : ℝ) (forward : Bool) : CRes Nat :=
  if x < 0 ∨ y < 0 ∨ (w : ℝ) ≤ x ∨ (h : ℝ) ≤ y then .throw "OutsideMapException"
  else do
    let xi ← GMgr.floorI x
    let yi ← GMgr.floorI y
    dsLookupI clamp w h xi yi θ forward

end

end PathPlanning
