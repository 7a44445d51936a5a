import Verif.Model.Vec

/-!
# Model of the node managers (`generic/MapManager.hpp`)

Nodes are cells of an array; a node "pointer" is the index of the cell.  Of a node only the
coordinates written by `NodeType::init` are kept here (the search labels are in `Model/Search`).
-/

namespace PathPlanning

/-- The initialisation loops of the managers: for every key (in loop order) the node at the
computed index is initialised. -/
def initLoop {κ β : Type} (ix : κ → CRes Nat) (val : κ → β) : List κ → List β → CRes (List β)
  | [], a => .ok a
  | k :: ks, a => do
    let i ← ix k
    let a' ← vset a i (val k)
    initLoop ix val ks a'

/-- `for y < h, for x < w` in loop order. -/
def keys2 (w h : Nat) : List (Nat × Nat) :=
  (List.range h).flatMap fun y => (List.range w).map fun x => (x, y)

/-- `for y < h, for x < w, for t < n` in loop order. -/
def keys3 (w h n : Nat) : List (Nat × Nat × Nat) :=
  (keys2 w h).flatMap fun p => (List.range n).map fun t => (p.1, p.2, t)

/-- `for y, for x, for t, for f in {0,1}` in loop order. -/
def keys4 (w h n : Nat) : List (Nat × Nat × Nat × Bool) :=
  (keys3 w h n).flatMap fun p => [(p.1, p.2.1, p.2.2, false), (p.1, p.2.1, p.2.2, true)]

/-! ### `GridMapManager` -/

/-- `GridMapManager` (MapManager.hpp:157-226): `w`, `h` and the node array. -/
structure GMgr where
  w : Nat
  h : Nat
  data : List (Nat × Nat)
deriving DecidableEq

namespace GMgr

/-- `index` (MapManager.hpp:198-200), `unsigned` arithmetic. -/
def index (w : Nat) (x y : Nat) : Nat := wrapU (y * w + x)

/-- `setMap` / `initMap` (MapManager.hpp:50-59, 180-196): allocation of `w*h` nodes (unsigned
product) and initialisation.  `junk` is the content of a default-constructed node. -/
def setMap (w h : Nat) (junk : Nat × Nat) : CRes GMgr := do
  let a := List.replicate (wrapU (w * h)) junk
  let a ← initLoop (fun k => .ok (index w k.1 k.2)) (fun k => k) (keys2 w h) a
  pure ⟨w, h, a⟩

/-- `contains(int,int)` on the map the manager was given (MapManager.hpp:130-132,
SimpleGridMap2d.h:175-176). -/
def contains (g : GMgr) (x y : Int) : Bool :=
  !(decide (x < 0) || decide (y < 0) || decide (toI32 g.w ≤ x) || decide (toI32 g.h ≤ y))

/-- `lookup(int,int)` (MapManager.hpp:212-217). -/
def lookup (g : GMgr) (x y : Int) : CRes Nat :=
  if x < 0 ∨ y < 0 ∨ toI32 g.w ≤ x ∨ toI32 g.h ≤ y then .throw "OutsideMapException"
  else .ok (index g.w (wrapI x) (wrapI y))

section
variable {K : Type} [Field K] [LinearOrder K] [FloorRing K]

/-- `std::floor` followed by the conversion to `int`. -/
def floorI (d : K) : CRes Int :=
  if -2147483648 ≤ ⌊d⌋ ∧ ⌊d⌋ < 2147483648 then .ok ⌊d⌋ else .ub

/-- `lookup(double,double)` (MapManager.hpp:218-223). -/
def lookupD (g : GMgr) (x y : K) : CRes Nat :=
  if x < 0 ∨ y < 0 then .throw "OutsideMapException"
  else do
    let xi ← floorI x
    let yi ← floorI y
    g.lookup xi yi

/-- `lookup(const PointT&)` for a point with `double` coordinates (MapManager.hpp:202-210): the
coordinates are converted to `unsigned` before the comparison. -/
def lookupRef (g : GMgr) (x y : K) : CRes Nat := do
  let yu ← castU y
  let xu ← castU x
  if g.w ≤ xu ∨ g.h ≤ yu then .throw "OutsideMapException"
  else .ok (index g.w xu yu)

end
end GMgr

/-! ### `StateSpaceManager`, `DirectionalStateSpaceManager` -/

/-- `StateSpaceManager::index` (MapManager.hpp:281-286).  (As written the `throw` names a
non-existent member type, so the function template only compiles as long as nobody uses it; the
intended exception is modelled.) -/
def ssIndex (w h slots : Nat) (x y t : Nat) : CRes Nat :=
  if w ≤ x ∨ h ≤ y ∨ slots ≤ t then .throw "OutsideMapException"
  else .ok (wrapU (y * w + x + t * w * h))

/-- `StateSpaceManager::initMap` (MapManager.hpp:255-278): 36 orientation slots; the orientation is
stored as slot number (`stheta + dtheta * t`, see `slotTheta`). -/
def ssInit (w h : Nat) (junk : Nat × Nat × Nat) : CRes (List (Nat × Nat × Nat)) :=
  initLoop (fun k => ssIndex w h 36 k.1 k.2.1 k.2.2) (fun k => k) (keys3 w h 36)
    (List.replicate (wrapU (w * h * 36)) junk)

/-- `DirectionalStateSpaceManager::index` (MapManager.hpp:375-382); `dimension = w*h*theta_slots`
(349). -/
def dsIndex (w h slots : Nat) (x y t : Int) (fwd : Bool) : CRes Nat :=
  if x < 0 ∨ y < 0 ∨ toI32 w ≤ x ∨ toI32 h ≤ y ∨ t < 0 ∨ toI32 slots ≤ t then
    .throw "OutsideMapException"
  else .ok (wrapU (y.toNat * w + x.toNat + t.toNat * w * h +
    (if fwd then 0 else wrapU (w * h * slots))))

/-- `DirectionalStateSpaceManager::initMap` (MapManager.hpp:343-372): 32 slots, two directions. -/
def dsInit (w h : Nat) (junk : Nat × Nat × Nat) : CRes (List (Nat × Nat × Nat)) :=
  initLoop (fun k => dsIndex w h 32 k.1 k.2.1 k.2.2.1 k.2.2.2) (fun k => (k.1, k.2.1, k.2.2.1))
    (keys4 w h 32) (List.replicate (wrapU (2 * wrapU (w * h * 32))) junk)

noncomputable section

/-- Orientation of slot `t`: `stheta + dtheta * t` (MapManager.hpp:257-258, 274). -/
def slotTheta (slots t : Nat) : ℝ := 0 - Real.pi + 2 * Real.pi / slots * t

/-- `angle2index` (MapManager.hpp:287-289, 383-385, 591-593); `clamp` is the external
`MathHelper::AngleClamp`. -/
def angle2index (clamp : ℝ → ℝ) (slots : Nat) (theta : ℝ) : CRes Nat :=
  castU ((clamp theta + Real.pi) / (2 * Real.pi) * ((slots - 1 : Nat) : ℝ))

end

/-- Contract of the external `MathHelper::AngleClamp`: the result is an equivalent angle in
`[-π, π]`. -/
structure ClampSpec (clamp : ℝ → ℝ) : Prop where
  lo : ∀ t, -Real.pi ≤ clamp t
  hi : ∀ t, clamp t ≤ Real.pi
  mod : ∀ t, ∃ k : Int, clamp t = t + k * (2 * Real.pi)

/-! ### `DynamicDirectionalStateSpaceManager` -/

/-- `Chunk` (MapManager.hpp:441-510) with `chunk_size = 32`, `theta_slots = 32`. -/
structure Chunk where
  ox : Int
  oy : Int
  data : List (Int × Int × Nat)

/-- `Chunk::chunk_index` (MapManager.hpp:472-480); `chunk_dimension = 32*32*32`. -/
def chunkIndex (ox oy : Int) (mx my : Int) (t : Nat) (fwd : Bool) : CRes Nat :=
  let cx := mx - ox
  let cy := my - oy
  if cx < 0 ∨ cy < 0 ∨ 32 ≤ cx ∨ 32 ≤ cy then .throw "OutsideMapException"
  else .ok (cx.toNat + cy.toNat * 32 + t * 32 * 32 + (if fwd then 0 else 32 * 32 * 32))

/-- `Chunk::Chunk` (MapManager.hpp:444-465). -/
def Chunk.new (ox oy : Int) (junk : Int × Int × Nat) : CRes Chunk := do
  let a ← initLoop (fun k : Nat × Nat × Nat × Bool =>
      chunkIndex ox oy (ox + k.1) (oy + k.2.1) k.2.2.1 k.2.2.2)
    (fun k => (ox + k.1, oy + k.2.1, k.2.2.1)) (keys4 32 32 32)
    (List.replicate (2 * (32 * 32 * 32)) junk)
  pure ⟨ox, oy, a⟩

/-- `Chunk::lookup` (MapManager.hpp:482-500); the steering angle is not used. -/
def Chunk.lookup (c : Chunk) (mx my : Int) (t : Nat) (fwd : Bool) : CRes Nat :=
  chunkIndex c.ox c.oy mx my t fwd

/-- The manager (MapManager.hpp:757-780): map size and the chunk table. -/
structure DMgr where
  w : Nat
  h : Nat
  chunksW : Nat
  chunks : List (Option Chunk)

/-- A node pointer: which chunk, which cell of it. -/
abbrev NRef := Nat × Nat

namespace DMgr

/-- `setMap` / `initMap` (MapManager.hpp:529-542, 573-588): padding 32; the chunk table is
emptied. -/
def setMap (w h : Nat) : DMgr :=
  let ww := w + 2 * 32
  let hh := h + 2 * 32
  ⟨w, h, ww / 32 + 1, List.replicate ((ww / 32 + 1) * (hh / 32 + 1)) none⟩

/-- The range test of `lookup`, `hasNode` and `contains` (MapManager.hpp:610, 634, 646). -/
def contains (d : DMgr) (x y : Int) : Bool :=
  !(decide (x < -32) || decide (y < -32) || decide (toI32 (wrapU (d.w + 32)) ≤ x) ||
    decide (toI32 (wrapU (d.h + 32)) ≤ y))

/-- Chunk coordinate of `x` (MapManager.hpp:613-616): C division truncates. -/
def chunkCoord (x : Int) : Int := if x < 0 then x.tdiv 32 - 1 else x.tdiv 32

/-- Table index `cyp * chunks_w + cxp` as `std::size_t` (MapManager.hpp:618-622). -/
def slot (d : DMgr) (x y : Int) : Nat :=
  (((chunkCoord y + 1) * d.chunksW + (chunkCoord x + 1)) % 18446744073709551616).toNat

/-- `lookup(int x, int y, unsigned t, int, bool forward)` (MapManager.hpp:609-630).  The state is
returned also if an exception is thrown: a chunk may have been created before. -/
def lookup (d : DMgr) (junk : Int × Int × Nat) (x y : Int) (t : Nat) (fwd : Bool) :
    DMgr × CRes NRef :=
  if d.contains x y = false ∨ 32 ≤ t then (d, .throw "OutsideMapException")
  else
    let s := d.slot x y
    match d.chunks[s]? with
    | none => (d, .throw "std::out_of_range")
    | some (some c) => (d, do let i ← c.lookup x y t fwd; pure (s, i))
    | some none =>
      match Chunk.new (chunkCoord x * 32) (chunkCoord y * 32) junk with
      | .ok c => ({ d with chunks := d.chunks.set s (some c) },
          do let i ← c.lookup x y t fwd; pure (s, i))
      | .throw e => (d, .throw e)
      | .ub => (d, .ub)

/-- The node behind a pointer. -/
def node (d : DMgr) (r : NRef) : Option (Int × Int × Nat) := do
  let c ← (← d.chunks[r.1]?)
  c.data[r.2]?

/-- `hasNode` (MapManager.hpp:633-642): `x / chunk_size` is an unsigned division, and the padding is
not added. -/
def hasNode (d : DMgr) (x y : Int) (t : Nat) : CRes Bool :=
  if d.contains x y = false ∨ 32 ≤ t then .throw "OutsideMapException"
  else
    let cx := toI32 (wrapI x / 32)
    let cy := toI32 (wrapI y / 32)
    let s := ((cy * d.chunksW + cx) % 18446744073709551616).toNat
    match d.chunks[s]? with
    | none => .throw "std::out_of_range"
    | some c => .ok c.isSome

/-- A request to the manager. -/
structure Req where
  x : Int
  y : Int
  t : Nat
  fwd : Bool
deriving DecidableEq

/-- A history of lookups: the state afterwards (results are ignored, exceptions are caught by the
caller). -/
def run (junk : Int × Int × Nat) (d : DMgr) : List Req → DMgr
  | [] => d
  | r :: rs => run junk (d.lookup junk r.x r.y r.t r.fwd).1 rs

end DMgr

end PathPlanning
