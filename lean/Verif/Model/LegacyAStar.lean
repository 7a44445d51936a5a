import Verif.Model.GridMap

/-!
# Model of the stand-alone A* planner (`lib_path::AStar`)

Sources: `/repo/src/a_star/AStar.cpp`, `/repo/src/a_star/OpenList.cpp`, `/repo/src/a_star/Node.cpp`
and their headers in `/repo/include/cslibs_path_planning/a_star/`.

The floating-point part is abstracted completely: `Arith F` gives the results of the four
floating-point expressions of the code as arbitrary functions on an arbitrary type `F`.  Every
statement proved for all `Arith` therefore holds for exact numbers and for IEEE arithmetic alike.
`int` index arithmetic is exact: `mapWidth * mapHeight < 2^31` is the precondition under which no
`int` expression of the code overflows for cells of the map.
-/

namespace PathPlanning.Legacy

/-- `waypoint_t` (Node.h:15-18): a cell, `x` and `y` are `int`. -/
abbrev WP := Int × Int

/-- The floating-point expressions of the planner. -/
structure Arith (F : Type) where
  /-- the literal `0` of AStar.cpp:79 -/
  zero : F
  /-- `distance + mNeighbors[i].distance` (AStar.cpp:95); `true` for a diagonal step (`sqrt(2)`),
  `false` for a straight one (`1`) (AStar.cpp:27-34) -/
  addStep : F → Bool → F
  /-- `getDistanceToStart`: (start, position) (AStar.cpp:137-140) -/
  pred : WP → WP → F
  /-- `Node::getValue()` of a node with the given distance and prediction: the sum converted to
  `int` (Node.cpp:41-50) -/
  value : F → F → Int
  /-- `(distance + prediction) > v` with `v` an `int` (OpenList.cpp:77) -/
  worse : F → F → Int → Bool

/-- `Node` (Node.h:20-50).  The parent pointer is an index into the node array. -/
structure Node (F : Type) where
  pos : WP
  dist : F
  pred : F
  parent : Option Nat
  visited : Bool
  init : Bool

/-- `OpenList` (OpenList.h:14-46).  `arr` is the malloc'ed node array (indices `< count`; every
access of the code is guarded by the range test of OpenList.cpp:62), `opn` is the multiset of node
pointers in iteration order, `used` the vector of nodes to reset. -/
structure OL (F : Type) where
  width : Int
  count : Int
  arr : Nat → Node F
  opn : List Nat
  used : List Nat

variable {F K : Type}

/-- `Node::reset` (Node.cpp:60-63). -/
def Node.reset (n : Node F) : Node F := { n with visited := false, init := false }

/-- `OpenList::OpenList`, `initialize` (OpenList.cpp:17-21, 29-42): `mem` is the content of the
malloc'ed memory; only the two flags of every node are written. -/
def OL.create (w h : Int) (mem : Nat → Node F) : OL F where
  width := w
  count := w * h
  arr := fun i => (mem i).reset
  opn := []
  used := []

/-- `OpenList::prepareNewSearch` (OpenList.cpp:44-57): reset every used node, empty both lists. -/
def OL.prepare (o : OL F) : OL F :=
  { o with
    arr := fun i => if i ∈ o.used then (o.arr i).reset else o.arr i
    used := []
    opn := [] }

/-- Key of a node in the multiset: `NodeValueCompare` compares `getValue()` (OpenList.h:30-33). -/
def OL.key (A : Arith F) (o : OL F) (i : Nat) : Int := A.value (o.arr i).dist (o.arr i).pred

/-- Number of elements before `mNodeValues.lower_bound(node)`: those with a smaller key. -/
def OL.lowerBound (A : Arith F) (o : OL F) (i : Nat) : Nat :=
  (o.opn.takeWhile fun j => decide (o.key A j < o.key A i)).length

/-- `OpenList::getNode` followed by `mNodeValues.erase(position)` (OpenList.cpp:83-88, 117-138):
walk from the lower bound to the first element equal to the node; walking past the end dereferences
`end()` (the loop tests `*lowerBound` before it compares with `end()`), undefined behaviour. -/
def OL.eraseNode (A : Arith F) (o : OL F) (i : Nat) : CRes (OL F) :=
  let k := o.lowerBound A i
  if i ∈ o.opn.drop k then
    .ok { o with opn := o.opn.take k ++ (o.opn.drop k).erase i }
  else .ub

/-- `mNodeValues.insert(mNodeValues.lower_bound(node), node)` (OpenList.cpp:95-96): inserted just
before the first element whose key is not smaller. -/
def OL.insertNode (A : Arith F) (o : OL F) (i : Nat) : OL F :=
  let k := o.lowerBound A i
  { o with opn := o.opn.take k ++ i :: o.opn.drop k }

/-- Replace one node of the array. -/
def OL.setNode (o : OL F) (i : Nat) (n : Node F) : OL F :=
  { o with arr := fun j => if j = i then n else o.arr j }

/-- `OpenList::addNode` (OpenList.cpp:59-107). -/
def OL.addNode (A : Arith F) (o : OL F) (p : WP) (d pr : F) (par : Option Nat) : CRes (OL F) :=
  let idx := p.1 + p.2 * o.width
  if o.count ≤ idx ∨ idx < 0 then .ok o
  else
    let i := idx.toNat
    if (o.arr i).init = false then
      let o1 := o.setNode i ⟨p, d, pr, par, false, true⟩
      .ok (OL.insertNode A { o1 with used := o1.used ++ [i] } i)
    else if (o.arr i).visited || A.worse d pr (o.key A i) then .ok o
    else do
      let o1 ← o.eraseNode A i
      -- `Node::update(distance, parent)` (Node.cpp:32-35)
      let o2 := o1.setNode i { o1.arr i with dist := d, parent := par }
      .ok (o2.insertNode A i)

/-- `OpenList::getFirstNode` (OpenList.cpp:140-149): `none` is `NULL`. -/
def OL.getFirst (o : OL F) : OL F × Option Nat :=
  match o.opn with
  | [] => (o, none)
  | i :: rest => ({ (o.setNode i { o.arr i with visited := true }) with opn := rest }, some i)

/-- `AStar::isFreeWay` (AStar.cpp:119-124). -/
def isFreeWay (m : GridMap K) (p : WP) : CRes Bool :=
  if m.isInMap p.1 p.2 then m.isFree ⟨p.1.toNat, p.2.toNat⟩ else .ok false

/-- `mNeighbors` (AStar.cpp:27-34): offset and whether the step is diagonal. -/
def neighbors : List (WP × Bool) :=
  [((-1, -1), true), ((0, -1), false), ((1, -1), true), ((-1, 0), false), ((1, 0), false),
   ((-1, 1), true), ((0, 1), false), ((1, 1), true)]

/-- The `for` loop over the neighbours (AStar.cpp:84-98) for the node `p`. -/
def expand (A : Arith F) (m : GridMap K) (start : WP) (p : Nat) :
    List (WP × Bool) → OL F → CRes (OL F)
  | [], o => .ok o
  | nb :: rest, o => do
    let pose : WP := ((o.arr p).pos.1 + nb.1.1, (o.arr p).pos.2 + nb.1.2)
    let fr ← isFreeWay m pose
    if fr then
      let o' ← o.addNode A pose (A.addStep (o.arr p).dist nb.2) (A.pred start pose) (some p)
      expand A m start p rest o'
    else expand A m start p rest o

/-- The `while` loop (AStar.cpp:83-103).  `fuel` counts its tests; the outer `none` means that the
fuel was exhausted, `(o, none)` that the open list ran empty, `(o, some p)` that `p` is the start. -/
def searchLoop (A : Arith F) (m : GridMap K) (start : WP) :
    Nat → OL F → Nat → CRes (Option (OL F × Option Nat))
  | 0, _, _ => .ok none
  | fuel + 1, o, p =>
    if (o.arr p).pos.1 ≠ start.1 ∨ (o.arr p).pos.2 ≠ start.2 then do
      let o1 ← expand A m start p neighbors o
      match o1.getFirst with
      | (o2, none) => .ok (some (o2, none))
      | (o2, some q) => searchLoop A m start fuel o2 q
    else .ok (some (o, some p))

/-- The final walk along the parent pointers (AStar.cpp:106-110). -/
def follow (o : OL F) : Nat → Option Nat → Option (List WP)
  | _, none => some []
  | 0, some _ => none
  | fuel + 1, some i => (follow o fuel (o.arr i).parent).map ((o.arr i).pos :: ·)

/-- Result of `planPath`: the object afterwards, the return value and `getLastPath()`. -/
structure Plan (F : Type) where
  ol : OL F
  found : Bool
  path : List WP

/-- `AStar::search` (AStar.cpp:76-113); dereferencing the first node when the open list is empty is
undefined behaviour. -/
def search (A : Arith F) (m : GridMap K) (fuel : Nat) (o : OL F) (start goal : WP) :
    CRes (Option (Plan F)) := do
  let o1 ← o.prepare.addNode A goal A.zero (A.pred start goal) none
  match o1.getFirst with
  | (_, none) => .ub
  | (o2, some p) =>
    match ← searchLoop A m start fuel o2 p with
    | none => .ok none
    | some (o3, none) => .ok (some ⟨o3, false, []⟩)
    | some (o3, some s) => .ok ((follow o3 fuel (some s)).map fun path => ⟨o3, true, path⟩)

/-- `AStar::planPath` (AStar.cpp:56-74). -/
def planPath (A : Arith F) (m : GridMap K) (fuel : Nat) (o : OL F) (start goal : WP) :
    CRes (Option (Plan F)) :=
  if !m.isInMap start.1 start.2 then .ok (some ⟨o, false, []⟩)
  else if !m.isInMap goal.1 goal.2 then .ok (some ⟨o, false, []⟩)
  else search A m fuel o start goal

/-- `AStar::setNewMap` (AStar.cpp:42-54): `cur` is what `*mMap` is *at the time of the call*, `new`
the new map, `mem` the memory content if a new list has to be allocated. -/
def setNewMap (cur new : GridMap K) (o : OL F) (mem : Nat → Node F) : OL F :=
  if cur.width ≠ new.width ∨ cur.height ≠ new.height then
    OL.create (toI32 new.width) (toI32 new.height) mem
  else o

end PathPlanning.Legacy
