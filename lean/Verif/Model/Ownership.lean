import Verif.Model.Managers

/-!
# Model of who owns which heap memory

Every class of the library that calls `new`, `delete`, `malloc` or `free` itself: `Curve` and
`CurveGenerator`, `CollisionGridMap2d` with its `RobotArea`s, the node managers, `AStar` with its
`OpenList`, `HeuristicHolonomicObstacles`' static table and the maze generator.

The heap maps addresses to blocks.  Freeing a block which is not live or which was allocated in
another way, and accessing a block which is not live or outside its size, is undefined behaviour.
Of the content of a block only what matters here is kept: how it was allocated, its number of
elements, the parent pointer of a `RobotArea` and a tag for all the rest.  Simplification:
allocation never fails, and addresses are never reused (so that a dangling pointer stays
recognisable).
-/

namespace PathPlanning.Own

/-- How a block was allocated (`new`, `new[]`, `malloc`). -/
inductive Kind where
  | single
  | array
  | malloc
deriving DecidableEq, Repr

/-- A heap block. -/
structure Block where
  kind : Kind
  size : Nat
  parent : Nat
  tag : Nat
deriving DecidableEq, Repr

/-- The heap: the next unused address and the live blocks. -/
structure Heap where
  next : Nat
  mem : Nat → Option Block

namespace Heap

/-- The heap before the first allocation. -/
def empty : Heap := ⟨0, fun _ => none⟩

/-- Change of one address. -/
def put (H : Heap) (a : Nat) (b : Option Block) : Heap :=
  { H with mem := fun c => if c = a then b else H.mem c }

/-- `new`, `new[]`, `malloc`. -/
def alloc (H : Heap) (b : Block) : Nat × Heap :=
  (H.next, { next := H.next + 1, mem := fun c => if c = H.next then some b else H.mem c })

/-- `delete`, `delete[]`, `free`, depending on `k`. -/
def free (k : Kind) (H : Heap) (a : Nat) : CRes Heap :=
  match H.mem a with
  | none => .ub
  | some b => if b.kind = k then .ok (H.put a none) else .ub

/-- Access through a pointer. -/
def deref (H : Heap) (a : Nat) : CRes Block :=
  match H.mem a with
  | none => .ub
  | some b => .ok b

/-- Access to element `n` of an array. -/
def elem (H : Heap) (a n : Nat) : CRes Unit :=
  match H.mem a with
  | none => .ub
  | some b => if n < b.size then .ok () else .ub

/-- Change of the content of the block a pointer points to. -/
def write (H : Heap) (a : Nat) (f : Block → Block) : CRes Heap := do
  let b ← H.deref a
  pure (H.put a (some (f b)))

end Heap

/-- `for(...) delete *it;` -/
def freeAll (k : Kind) : Heap → List Nat → CRes Heap
  | H, [] => .ok H
  | H, a :: l => do
    let H ← H.free k a
    freeAll k H l

/-! ### `Curve`, `CurveGenerator` -/

/-- `CurveSegment::clone()` (LineSegment.cpp:25-28, CircleSegment.cpp:21-24): `new T(*this)`. -/
def cloneSeg (H : Heap) (a : Nat) : CRes (Nat × Heap) := do
  let b ← H.deref a
  pure (H.alloc { b with kind := .single, size := 1 })

/-- The loop of the copy constructor of `Curve` (Curve.cpp:43-46). -/
def cloneAll : Heap → List Nat → CRes (List Nat × Heap)
  | H, [] => .ok ([], H)
  | H, a :: l => do
    let (n, H) ← cloneSeg H a
    let (ns, H) ← cloneAll H l
    pure (n :: ns, H)

/-- `Curve::add` (Curve.cpp:87-94): a clone of the segment passed by reference is appended; the
segment itself lives elsewhere (in `CurveGenerator::parse` on the stack), `tag` is its content. -/
def curveAdd (H : Heap) (segs : List Nat) (tag : Nat) : List Nat × Heap :=
  let (n, H) := H.alloc ⟨.single, 1, 0, tag⟩
  (segs ++ [n], H)

/-- `Curve::~Curve` (Curve.cpp:49-55). -/
def curveFree (H : Heap) (segs : List Nat) : CRes Heap := freeAll .single H segs

/-- Several `Curve::add` calls on a new curve (CurveGenerator.cpp:77-166). -/
def curveBuild : Heap → List Nat → List Nat → List Nat × Heap
  | H, segs, [] => (segs, H)
  | H, segs, t :: ts =>
    let (segs, H) := curveAdd H segs t
    curveBuild H segs ts

/-- Copies of all curves of a vector (a reallocating `push_back` copies the elements: `Curve` has a
user-declared copy constructor and destructor, hence no move constructor). -/
def copyCurves : Heap → List (List Nat) → CRes (List (List Nat) × Heap)
  | H, [] => .ok ([], H)
  | H, c :: cs => do
    let (n, H) ← cloneAll H c
    let (ns, H) ← copyCurves H cs
    pure (n :: ns, H)

/-- Destruction of all curves of a vector. -/
def freeCurves : Heap → List (List Nat) → CRes Heap
  | H, [] => .ok H
  | H, c :: cs => do
    let H ← curveFree H c
    freeCurves H cs

/-- `std::vector<Curve>::push_back` (CurveGenerator.cpp:170): the new element is copied; if the
capacity is used up, the old elements are copied to new storage and destroyed. `cap'` is the new
capacity the implementation chooses. -/
def pushCurve (H : Heap) (curves : List (List Nat)) (cap cap' : Nat) (c : List Nat) :
    CRes (List (List Nat) × Nat × Heap) := do
  let (n, H) ← cloneAll H c
  if curves.length < cap then pure (curves ++ [n], cap, H)
  else do
    let (cs, H) ← copyCurves H curves
    let H ← freeCurves H curves
    pure (cs ++ [n], cap', H)

/-- `CurveGenerator::parse` (CurveGenerator.cpp:76-179) as far as memory is concerned: a local curve
gets the segments `tags`; if the text is accepted the curve is appended to `m_curves`; the local
curve is destroyed in any case. -/
def genParse (H : Heap) (curves : List (List Nat)) (cap cap' : Nat) (tags : List Nat)
    (accepted : Bool) : CRes (List (List Nat) × Nat × Heap) := do
  let (c, H) := curveBuild H [] tags
  let (cs, k, H) ← if accepted then pushCurve H curves cap cap' c else pure (curves, cap, H)
  let H ← curveFree H c
  pure (cs, k, H)

/-! ### `CollisionGridMap2d` -/

/-- `ANGLE_DISCRETIZATION` (CollisionGridMap2d.h:28). -/
def slots : Nat := 128

/-- The loop of the constructor of `CollisionGridMap2d` (CollisionGridMap2d.cpp:150-155):
`me` is the address of the map, `tag t` the content of the `t`-th area. -/
def areasNew (me : Nat) (tag : Nat → Nat) : Heap → List Nat → List Nat × Heap
  | H, [] => ([], H)
  | H, t :: ts =>
    let (a, H) := H.alloc ⟨.single, 1, me, tag t⟩
    let (as, H) := areasNew me tag H ts
    (a :: as, H)

/-- The loop of the copy constructor (CollisionGridMap2d.cpp:162-165): the copied `RobotArea` has
the parent of the original until `setParent(this)`. -/
def areasCopy (me : Nat) : Heap → List Nat → CRes (List Nat × Heap)
  | H, [] => .ok ([], H)
  | H, a :: l => do
    let b ← H.deref a
    let (n, H) := H.alloc { b with kind := .single, size := 1 }
    let H ← H.write n fun b => { b with parent := me }
    let (ns, H) ← areasCopy me H l
    pure (n :: ns, H)

/-! ### The node managers with one array -/

/-- `GridMapManager`, `StateSpaceManager`, `DirectionalStateSpaceManager`. -/
inductive MKind where
  | grid
  | space
  | directional
deriving DecidableEq, Repr

/-- The number of nodes allocated (MapManager.hpp:189, 268, 349 and 359), `unsigned` arithmetic. -/
def MKind.count (w h : Nat) : MKind → Nat
  | .grid => wrapU (w * h)
  | .space => wrapU (w * h * 36)
  | .directional => wrapU (2 * wrapU (w * h * 32))

/-- The initialisation loop accesses `data[index(...)]` for every key. -/
def touchAll {κ : Type} (H : Heap) (a : Nat) (ix : κ → CRes Nat) : List κ → CRes Unit
  | [] => .ok ()
  | k :: ks => do
    let i ← ix k
    H.elem a i
    touchAll H a ix ks

/-- The initialisation loops (MapManager.hpp:191-195, 271-277, 363-371). -/
def MKind.initNodes (H : Heap) (a w h : Nat) : MKind → CRes Unit
  | .grid => touchAll H a (fun k => .ok (GMgr.index w k.1 k.2)) (keys2 w h)
  | .space => touchAll H a (fun k => ssIndex w h 36 k.1 k.2.1 k.2.2) (keys3 w h 36)
  | .directional =>
    touchAll H a (fun k => dsIndex w h 32 k.1 k.2.1 k.2.2.1 k.2.2.2) (keys4 w h 32)

/-- `initMap(replace)` (MapManager.hpp:180-196, 255-278, 343-372): the new value of `data`. -/
def initMap (k : MKind) (H : Heap) (data : Option Nat) (w h : Nat) (replace : Bool) :
    CRes (Option Nat × Heap) := do
  let alloc := data.isNone || replace
  let H ← match data with
    | some a => if alloc then H.free .array a else pure H
    | none => pure H
  let (data, H) :=
    if alloc then
      let (a, H) := H.alloc ⟨.array, k.count w h, 0, 0⟩
      (some a, H)
    else (data, H)
  match data with
  | some a => do
    k.initNodes H a w h
    pure (data, H)
  | none => pure (data, H)

/-! ### `DynamicDirectionalStateSpaceManager` -/

/-- `new Chunk(...)` (MapManager.hpp:440-465): the chunk and its array of cells. -/
def chunkNew (H : Heap) : (Nat × Nat) × Heap :=
  let (c, H) := H.alloc ⟨.single, 1, 0, 0⟩
  let (d, H) := H.alloc ⟨.array, 2 * (32 * 32 * 32), 0, 0⟩
  ((c, d), H)

/-- `delete c` for a `Chunk*` (MapManager.hpp:467-470, 560): nothing for a null pointer. -/
def chunkFree (H : Heap) : Option (Nat × Nat) → CRes Heap
  | none => .ok H
  | some (c, d) => do
    let _ ← H.deref c
    let H ← H.free .array d
    H.free .single c

/-- `clearChunks` (MapManager.hpp:556-566). -/
def clearChunks : Heap → List (Option (Nat × Nat)) → CRes Heap
  | H, [] => .ok H
  | H, c :: cs => do
    let H ← chunkFree H c
    clearChunks H cs

/-- The number of chunks (MapManager.hpp:575-579, 586). -/
def chunkCount (w h : Nat) : Nat := ((w + 64) / 32 + 1) * ((h + 64) / 32 + 1)

/-- `lookup` (MapManager.hpp:609-630) as far as the chunk table is concerned: `n` is the index of the
chunk (`chunks.at` throws if there is none), `i` the index of the node in the chunk. -/
def dynLookup (H : Heap) (chunks : List (Option (Nat × Nat))) (n i : Nat) :
    CRes ((Nat × Nat) × List (Option (Nat × Nat)) × Heap) :=
  match chunks[n]? with
  | none => .throw "std::out_of_range"
  | some (some (c, d)) => do
    let _ ← H.deref c
    H.elem d i
    pure ((d, i), chunks, H)
  | some none => do
    let ((c, d), H) := chunkNew H
    let _ ← H.deref c
    H.elem d i
    pure ((d, i), chunks.set n (some (c, d)), H)

/-! ### `AStar`, `OpenList` -/

/-- `new OpenList(w, h)` (AStar.cpp:53, OpenList.cpp:17-42): the object and its array. -/
def openNew (H : Heap) (w h : Nat) : (Nat × Nat) × Heap :=
  let (o, H) := H.alloc ⟨.single, 1, 0, 0⟩
  let (a, H) := H.alloc ⟨.malloc, w * h, 0, 0⟩
  ((o, a), H)

/-- `delete mNodesList` (AStar.cpp:37-40, 46; OpenList.cpp:23-27). -/
def openFree (H : Heap) (p : Nat × Nat) : CRes Heap := do
  let _ ← H.deref p.1
  let H ← H.free .malloc p.2
  H.free .single p.1

/-- `AStar::setNewMap` (AStar.cpp:42-54). `cw`, `ch` is the size of the old map at the moment of the
call, `none` if there is no old map. -/
def astarSet (H : Heap) (nodes : Option (Nat × Nat)) (cur : Option (Nat × Nat)) (w h : Nat) :
    CRes (Option (Nat × Nat) × Heap) := do
  let (nodes, H) ← match cur, nodes with
    | some (cw, ch), some p =>
      if cw ≠ w ∨ ch ≠ h then do
        let H ← openFree H p
        pure (none, H)
      else pure (some p, H)
    | _, nodes => pure (nodes, H)
  match nodes with
  | some p => pure (some p, H)
  | none =>
    let (p, H) := openNew H w h
    pure (some p, H)

/-! ### The objects and the operations on them -/

/-- The objects of a program, with the pointers they contain. -/
inductive Obj where
  /-- `Curve`: `m_sequence` -/
  | curve (segs : List Nat)
  /-- `CurveGenerator`: `m_curves` and its capacity -/
  | gen (curves : List (List Nat)) (cap : Nat)
  /-- `CollisionGridMap2d`: `areas_` -/
  | cmap (areas : List Nat)
  /-- a node manager with one array: `w`, `h`, `data` -/
  | mgr (k : MKind) (w h : Nat) (data : Option Nat)
  /-- `DynamicDirectionalStateSpaceManager`: `chunks` -/
  | dyn (chunks : List (Option (Nat × Nat)))
  /-- `AStar`: `mNodesList` -/
  | astar (nodes : Option (Nat × Nat))
  /-- `HeuristicHolonomicObstacles::costs` -/
  | costs (data : Option Nat)
  /-- `Maze::visited` -/
  | maze (data : Nat)
deriving DecidableEq, Repr

/-- The state of the program: the heap and the objects that exist. -/
structure St where
  heap : Heap
  obj : Nat → Option Obj

/-- Before the first operation. -/
def St.init : St := ⟨Heap.empty, fun _ => none⟩

/-- Change of one object. -/
def St.set (s : St) (i : Nat) (H : Heap) (o : Option Obj) : St :=
  ⟨H, fun j => if j = i then o else s.obj j⟩

/-- What the user can do.  The number `i` stands for the address of an object. -/
inductive Op where
  /-- `new Curve` (Curve.cpp:20-28) -/
  | newCurve (i : Nat)
  /-- `Curve::add` -/
  | addSeg (i tag : Nat)
  /-- a member function of the curve changes its `n`-th segment -/
  | editSeg (i n tag : Nat)
  /-- a new curve `i` copied from curve `j` (also `find_path` if `j` is a curve) -/
  | copyCurve (i j : Nat)
  /-- `CurveGenerator()` -/
  | newGen (i : Nat)
  /-- `CurveGenerator::parse`; `cap` is the capacity chosen if the vector has to grow -/
  | parse (i cap : Nat) (tags : List Nat) (accepted : Bool)
  /-- `CurveGenerator::find_path` of generator `j` returns a copy of its `n`-th curve -/
  | findPath (i j n : Nat)
  /-- `CollisionGridMap2d(...)` -/
  | newMap (i : Nat) (tag : Nat → Nat)
  /-- `CollisionGridMap2d(copy)` -/
  | copyMap (i j : Nat)
  /-- a collision test uses the `n`-th area of the map (`setPosition` etc.) -/
  | useArea (i n tag : Nat)
  /-- constructor of a node manager -/
  | newMgr (i : Nat) (k : MKind)
  /-- `setMap` of a node manager -/
  | setMap (i w h : Nat)
  /-- access to node `n` of a manager -/
  | node (i n : Nat)
  /-- constructor of the dynamic manager -/
  | newDyn (i : Nat)
  /-- `setMap` of the dynamic manager -/
  | setMapDyn (i w h : Nat)
  /-- `lookup` of the dynamic manager -/
  | lookup (i n k : Nat)
  /-- `AStar(map)` -/
  | newAStar (i w h : Nat)
  /-- `AStar::setNewMap`; the old map is `cw` × `ch` now -/
  | setNewMap (i cw ch w h : Nat)
  /-- the static member `costs` exists -/
  | newCosts (i : Nat)
  /-- `HeuristicHolonomicObstacles::setMap`; `w`, `h` include the padding -/
  | setCosts (i w h : Nat)
  /-- `Maze(w, h)` -/
  | newMaze (i n : Nat)
  /-- the destructor -/
  | destroy (i : Nat)
  /-- the assignment operator or copy constructor the compiler generates: object `i` becomes a
  member-wise copy of object `j` -/
  | memberwise (i j : Nat)

/-- The destructors: Curve.cpp:49-55, CollisionGridMap2d.cpp:168-173, MapManager.hpp:176-178,
251-253, 334-336, 525-527, AStar.cpp:37-40, MapGenerators.hpp:61-63; that of a `CurveGenerator`
destroys its curves; the static table is never destroyed. -/
def destroy (H : Heap) : Obj → CRes (Heap × Option Obj)
  | .curve segs => do pure (← curveFree H segs, none)
  | .gen cs _ => do pure (← freeCurves H cs, none)
  | .cmap as => do pure (← freeAll .single H as, none)
  | .mgr _ _ _ none => .ok (H, none)
  | .mgr _ _ _ (some a) => do pure (← H.free .array a, none)
  | .dyn cs => do pure (← clearChunks H cs, none)
  | .astar none => .ok (H, none)
  | .astar (some p) => do pure (← openFree H p, none)
  | .costs d => .ok (H, some (.costs d))
  | .maze a => do pure (← H.free .array a, none)

/-- A constructor at an address that is in use is not a program of the language: no effect here. -/
def ifFree (s : St) (i : Nat) (f : Heap × Option Obj) : CRes St :=
  match s.obj i with
  | none => .ok (s.set i f.1 f.2)
  | some _ => .ok s

/-- One operation.  Operations on objects that do not exist or are of another class have no effect
(there is no such program).  A C++ exception leaves the state as it is. -/
def step (s : St) : Op → CRes St
  | .newCurve i => ifFree s i (s.heap, some (.curve []))
  | .addSeg i tag =>
    match s.obj i with
    | some (.curve segs) =>
      let (segs, H) := curveAdd s.heap segs tag
      .ok (s.set i H (some (.curve segs)))
    | _ => .ok s
  | .editSeg i n tag =>
    match s.obj i with
    | some (.curve segs) =>
      match segs[n]? with
      | some a => do
        let H ← s.heap.write a fun b => { b with tag := tag }
        pure (s.set i H (some (.curve segs)))
      | none => .ok s
    | _ => .ok s
  | .copyCurve i j =>
    match s.obj i, s.obj j with
    | none, some (.curve segs) => do
      let (ns, H) ← cloneAll s.heap segs
      pure (s.set i H (some (.curve ns)))
    | _, _ => .ok s
  | .newGen i => ifFree s i (s.heap, some (.gen [] 0))
  | .parse i cap' tags accepted =>
    match s.obj i with
    | some (.gen cs cap) => do
      let (cs, cap, H) ← genParse s.heap cs cap cap' tags accepted
      pure (s.set i H (some (.gen cs cap)))
    | _ => .ok s
  | .findPath i j n =>
    match s.obj i, s.obj j with
    | none, some (.gen cs _) =>
      match cs[n]? with
      | some segs => do
        let (ns, H) ← cloneAll s.heap segs
        pure (s.set i H (some (.curve ns)))
      | none => .ok s
    | _, _ => .ok s
  | .newMap i tag =>
    let (as, H) := areasNew i tag s.heap (List.range slots)
    ifFree s i (H, some (.cmap as))
  | .copyMap i j =>
    match s.obj i, s.obj j with
    | none, some (.cmap as) => do
      let (ns, H) ← areasCopy i s.heap as
      pure (s.set i H (some (.cmap ns)))
    | _, _ => .ok s
  | .useArea i n tag =>
    match s.obj i with
    | some (.cmap as) =>
      match as[n]? with
      | some a => do
        let H ← s.heap.write a fun b => { b with tag := tag }
        pure (s.set i H (some (.cmap as)))
      | none => .ok s
    | _ => .ok s
  | .newMgr i k => ifFree s i (s.heap, some (.mgr k 0 0 none))
  | .setMap i w h =>
    match s.obj i with
    | some (.mgr k w0 h0 data) => do
      let (data, H) ← initMap k s.heap data w h (decide (w0 ≠ w) || decide (h0 ≠ h))
      pure (s.set i H (some (.mgr k w h data)))
    | _ => .ok s
  | .node i n =>
    match s.obj i with
    | some (.mgr k w h (some a)) =>
      if n < k.count w h then do
        s.heap.elem a n
        pure s
      else .ok s
    | _ => .ok s
  | .newDyn i => ifFree s i (s.heap, some (.dyn []))
  | .setMapDyn i w h =>
    match s.obj i with
    | some (.dyn cs) => do
      let H ← clearChunks s.heap cs
      pure (s.set i H (some (.dyn (List.replicate (chunkCount w h) none))))
    | _ => .ok s
  | .lookup i n k =>
    match s.obj i with
    | some (.dyn cs) =>
      if k < 2 * (32 * 32 * 32) then
        match dynLookup s.heap cs n k with
        | .ok (_, cs, H) => .ok (s.set i H (some (.dyn cs)))
        | .throw _ => .ok s
        | .ub => .ub
      else .ok s
    | _ => .ok s
  | .newAStar i w h =>
    match s.obj i with
    | none => do
      let (p, H) ← astarSet s.heap none none w h
      pure (s.set i H (some (.astar p)))
    | some _ => .ok s
  | .setNewMap i cw ch w h =>
    match s.obj i with
    | some (.astar p) => do
      let (p, H) ← astarSet s.heap p (some (cw, ch)) w h
      pure (s.set i H (some (.astar p)))
    | _ => .ok s
  | .newCosts i => ifFree s i (s.heap, some (.costs none))
  | .setCosts i w h =>
    match s.obj i with
    | some (.costs d) => do
      -- `delete [] costs; costs = NULL; ... costs = new double[w * h];` (Heuristics.hpp:327-334)
      let H ← match d with
        | some a => s.heap.free .array a
        | none => pure s.heap
      let (a, H) := H.alloc ⟨.array, wrapU (w * h), 0, 0⟩
      pure (s.set i H (some (.costs (some a))))
    | _ => .ok s
  | .newMaze i n =>
    -- `visited = new int[N]` (MapGenerators.hpp:72)
    let (a, H) := s.heap.alloc ⟨.array, n, 0, 0⟩
    ifFree s i (H, some (.maze a))
  | .destroy i =>
    match s.obj i with
    | some o => do
      let (H, o) ← destroy s.heap o
      pure (s.set i H o)
    | none => .ok s
  | .memberwise i j =>
    match s.obj j with
    | some o => .ok (s.set i s.heap (some o))
    | none => .ok s

/-- A sequence of operations. -/
def run : St → List Op → CRes St
  | s, [] => .ok s
  | s, op :: ops => do
    let s ← step s op
    run s ops

end PathPlanning.Own
