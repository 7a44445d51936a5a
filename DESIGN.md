# Formal model of cslibs_path_planning in Lean 4 — design

## Layout

| place | content |
|---|---|
| `lean/Verif/Prelude.lean` | C++ outcome type (`ok` / exception / undefined behaviour), machine-integer conversions |
| `lean/Verif/Model/*.lean` | the model, function by function, each definition citing file and lines in /repo |
| `lean/Verif/Spec/*.lean`  | small independent specifications (adjacency, walks, discs, best candidates, ...) |
| `lean/Verif/Lemmas/*.lean` | helper lemmas |
| `lean/Verif/Props/*.lean` | the property theorems (one file per component) with a non-vacuity `example` beside each |
| `seeded/LOG.jsonl` | mutation experiments: model edits and the theorems that rejected them |
| `MANIFEST.json` | property -> theorem names |

## Trusted base

* Lean 4.33.0's kernel, and Mathlib's definitions. Axioms used: at most `propext`, `Classical.choice`, `Quot.sound`.
  No own axioms, no `native_decide`, no `bv_decide`.
* The reading of /repo: the tie between code and model is manual; each definition cites its source lines.

### Modelling conventions

* **Undefined behaviour is an outcome.** Partial C++ operations return `CRes α = ok a | throw e | ub`.
* **Machine integers.** Where wrap-around matters (`y*width_+x` on `unsigned`, `(unsigned)double`, `abs`, `2*err_`) the
  32-bit behaviour is in the model; elsewhere `Int`/`Nat` with a separate theorem bounding the values.
* **double** is modelled as exact numbers: an arbitrary linearly ordered (floor) field, `ℚ` in concrete witnesses, `ℝ` where
  square roots / trigonometry occur. Rounding is modelled separately, as IEEE rounding to nearest with unbounded exponents, for the
  grid search (C87), the conversions between points and cells (C88, rotated maps C117), the steering searches (C106, C109, C110) and the distance transformation (C125);
  elsewhere rounding errors are not modelled, and NaN, infinities, overflow and underflow nowhere. Structural search theorems
  hold for any linearly ordered cost type with an arbitrary `add`, so they do not use exactness at all.
* **External code** (cslibs_utils' `MathHelper::AngleClamp`, `DynamicPrioritySet`, `boost::random`, `clock`) is a parameter with its
  contract stated as a hypothesis.
* **Loops** are structural recursion or well-founded recursion; if a loop is modelled with fuel, a theorem shows the fuel suffices.
* **Heap objects** (nodes, curves) are records in arrays / functions, pointers are indices.

### What is modelled, with its simplifications

| module | code | simplifications |
|---|---|---|
| GridMap, Area, Bresenham, DynLine | `common/{GridMap2d,SimpleGridMap2d,RotatedGridMap2d,Bresenham2d}`, line checks of `MapManager.hpp` | `double` exact; 32-bit index arithmetic kept |
| Search, GridSearch, OpenLists, Schedule | `generic/{SearchAlgorithm,Common,NodeManager,DirectNeighborhood,Heuristics,Intermission}.hpp` | graph, cost type, open list and time limit abstract; `DynamicPrioritySet` (external) by contract |
| Managers | `generic/MapManager.hpp` | chunks as a partial function; `AngleClamp` (external) by contract |
| LegacyAStar | `a_star/*` | all floating point operations are arbitrary functions |
| ReedsShepp, Expansion, Table | `ReedsShepp/{CircleSegment,LineSegment,Curve,CurveGenerator,GeometryHelper,CostPrecomputation}`, `generic/ReedsSheppExpansion.hpp`, table heuristic of `Heuristics.hpp` | exact reals; the six-digit text format of the table is not modelled; reading loop has fuel |
| Shapes | `geometry/{line,circle,intersector,tangentor,shape}` | line/line intersection is an external call and not modelled |
| Collision | `common/{CollisionGridMap2d,MapMath}` | shallow copy assignment (double delete) not modelled |
| Steering | `generic/{SteeringNeighborhood,DynamicSteeringNeighborhood,NonHolonomicNeighborhood}` | `int` as ℤ (8-bit fields as in the code), nodes in a store |
| DistTrans | `generic/DistanceTransformation.hpp`, `HeuristicHolonomicObstacles` | costs as `WithTop (WithTop ℝ)`, exact reals |
| Sampling | `sampling/*` | `rand` is a parameter, heap as a list of events |
| TimeLimit | `SearchAlgorithm.hpp` `setTimeLimit`, `time_limit_`, `stamp_abort_` | the clock counts nanoseconds; product with 1e3 exact |
| KinSearch, SteerSearch | `SearchAlgorithm.hpp` with `SteeringNeighborhood.hpp`/`DynamicSteeringNeighborhood.h` on `DynamicDirectionalStateSpaceManager`, `SteeringNode`, `DirectionalNode::getPoses` | nodes hold poses written during the search; pose-to-pose searches without analytic expansion; exact reals |
| StateLookup | `MapManager.hpp` `lookup` of `StateSpaceManager` and `DirectionalStateSpaceManager` | exact reals; `StateSpaceManager` as if the exception type it names existed |
| KinHistory, SteerHistory | the same search on nodes left by earlier ones (`init`, `initStartPose`, `initGoalPose`) | each earlier call may have been left at any point (`During`) |
| CustomHistory | `findPath(from, goal_test)`, `findPathWithStartConfiguration` on nodes left by earlier searches | as KinCustom |
| Statics | static members of `DynamicNeighborhoodBase` and `NonHolonomicNeighborhood`, `setMap` of several objects | threads |
| Counters | counters of a search object over several searches | `int` overflow of the counters |
| KinCounters | counters after a search that stores poses in its nodes | `int` overflow of the counters; counters after an exception in the middle of an expansion |
| HybridHistory | later searches with analytic expansion, with the nodes afterwards | state of the expansion after an exception in it (no such exception exists: C79) |
| DStar | `GenericDynSearchAlgorithm` (`DStar2D`), `DHeuristicNode`, `getDelta` | `start`/`goal` read as single nodes (as it stands the class does not compile); drawing marks; rounding; the container `DynamicPrioritySet` (external, any selection) |
| KinCustom | `SearchAlgorithm.hpp` `findPath(from, goal_test)`, `findPathWithStartConfiguration` over nodes with poses | `terminate` calls `addGoalCandidate` at most once, for the node it is given |
| MapGen | `evaluation/MapGenerators.hpp` | `rand` is a stream, endless loops are the outcome `none`, OpenCV's rounding is a parameter; Hilbert level ≤ 0 not modelled |
| Renderer, Evaluator | `evaluation/{Renderer,Util}.hpp`, `evaluation/evaluator.{h,cpp}` | OpenCV primitives by the pixels they cover; files as lossless storage; GUI loop not modelled |
| FloatSteer | `SteeringNeighborhood::advance`, `DynamicSteeringNeighborhood::advance` in floating point | rounding to nearest, unbounded exponents; `sin cos tan` of the C library as parameters with `LibOk`; `STEER_DELTA * step` rounded, then truncated |
| Float, FloatMap, FloatAngle | `double`/`float` arithmetic of `gridAlgo`, `SimpleGridMap2d::{point2cell,cell2point}` and `angle2index` | rounding to nearest, any tie rule, unbounded exponents; `hypot` correctly rounded |
| Ownership | constructors, destructors, copies, (re)allocations of `Curve`, `CurveGenerator`, `CollisionGridMap2d`, the node managers, `AStar`/`OpenList`, the static cost table, `Maze` | heap of blocks with kind and size; allocation never fails; addresses are not reused |
| FourWs | `Bot4ws::update`, `Path4wsSimulator`, `SimBot4Ws::setSpeed` | `float` as reals; `rand()` arbitrary; `SimBot4Ws::update` is not valid C++ and not modelled |
| FloatRot | `RotatedGridMap2d` and `Point2d::rotate` in floating point | as FloatMap; sine and cosine of the C library with error `2u` |
| DistTransRound | `DistanceTransformation.hpp` findPathImp, backtrack, `HeuristicHolonomicObstacles` in floating point | rounding to nearest, unbounded exponents; largest double + step = largest double |
| DuringSearch | grid search on a map that is written to while it runs | the map changes only between expansions (from the intermission callback) |
| Editor | mouse and key handlers of `evaluation/evaluator.cpp` | rectangles as integer pairs; rendering left out |
| DrawThread | drawing thread and `wait()` of the evaluator | interleavings of atomic steps |
| CurveRenderer | `ReedsShepp/CurveRenderer` | the drawn points, not the pixels |
| Vec | `common/{Point2d,Pose2d,TmpMath,MapMath}` | exact reals |

### Not modelled

Windows and pixels of the GUI of the evaluation tool (its event handlers are modelled: C115, the protocol of its drawing thread: C114),
anti-aliased lines and text of `Renderer.hpp`, executables and unit tests; floating point rounding outside the properties listed above,
NaN, infinities; performance. Code that does not compile when instantiated is modelled only where its intention is plain
(`GenericDynSearchAlgorithm`/`DHeuristicNode`: C96); `DistanceTransformationSearch`, `NonHolonomicNeighborhood::iterateFreeNeighbors`
and `evaluator`'s `run()` (it calls `algo.setStart`/`setGoal`, which no search has) are not modelled.

## Plan per property

| id | modelled | proof |
|---|---|---|
| C01 | `SimpleGridMap2d` fields, ctor, `set*`, `getValue/setValue` with 32-bit index | refinement to `cell -> byte` by induction over the history |
| C02 | `isFree/isOccupied/isNoInformation` | case analysis over all bytes and ints |
| C03-C05 | `cell2point`, `point2cell`, `isInMap` over an ordered field | floor arithmetic; refutations for negative points |
| C06-C07 | `RotatedGridMap2d` over ℝ | trig identities; refutations |
| C08,C11 | `isArea*`, `setAreaValue`, `getAreaValues` over an abstract area iteration | induction on the iteration |
| C09,C12 | area iterators as state machines | universal negative theorem (out-of-bounds) / positive for RobotArea |
| C10 | midpoint circle loop | loop invariant `f = (x+1)^2 + ... ` and disc coverage |
| C13-C15,C17 | Bresenham state machine | invariant `err = ...`, measure, bounds |
| C16 | `Manager::isFree(line)` | from C13; refutation for off-map endpoints |
| C18-C21 | node managers | index arithmetic; chunk invariant over lookup histories; refutation at -32 |
| C22-C24 | `AStar`, `OpenList` | invariant over expansions |
| C25-C34 | `GenericSearchAlgorithm` over an abstract graph and open-list policy | invariants over expansions, measure for termination |
| C35,C36 | queue managers, `Intermission` | refinement, counting |
| C37-C42 | `CurveGenerator`, `Curve`, segments, geometry helper | induction over the pattern / list; algebra over ℝ |
| C43-C47 | `geometry/` | algebra over ℝ |
| C48,C49 | sampling | induction |
| C50,C51 | collision map, math helpers | algebra |
| C52 | steering neighbourhoods | invariant over successor generation |
| C53,C54 | distance transformation, obstacle heuristic | invariants; refutations |
| C55 | generators | induction on the order |
| C56 | expansion throttle | induction over calls |
| C57,C58 | line checks, `hasNode` of the dynamic state manager | exact characterisation of the tested cells; refutation |
| C59 | legacy A* | potential argument over the invariant of C22 |
| C60-C62 | `CurveGenerator::find_path` | geometry over ℝ: each construction ends at the goal configuration; free-space existence; state independence |
| C63 | `tangentor` | algebra over ℝ; refutations |
| C64,C65 | steering nodes along parent pointers, `NonHolonomicNeighborhood` | invariant over the search |
| C66 | goal tests of all neighbourhoods | distance bounds |
| C67 | pattern constructions vs every motion following the pattern | uniqueness of each construction |
| C68 | table heuristic, `CostPrecomputation` | index arithmetic; every run dereferences null |
| C69 | `ReedsSheppExpansion` | from C38, C39, C41, C56, C60 |
| C70 | search over nodes whose pose is written during the search (`Model/KinSearch`), instance on the chunk manager with the steering neighbourhoods (`Model/SteerSearch`) | termination measure of finitely many reachable costs; map operations total on reachable poses |
| C71 | same | invariant: stored pose = move from a reachable pose of the predecessor; without heuristic popped nodes are final |
| C72 | same | at exhaustion every stored pose was expanded; `DeadEnd` in Spec/SteerSearch |
| C73 | same | straight-only vehicle: C72 forces the path, its poses by induction |
| C74 | `DMgr` (chunks created on demand) against `padLookup` | refinement, from C21 |
| C75 | `GoalTest`, `findPathCustom` in `Model/Search` | general loop invariant of C01; a closed node was put to the test |
| C76 | same | without a goal node no heuristic enters the keys: Dijkstra invariant; simulation between runs with different heuristic goals |
| C77 | `candidatePaths`, `getPathCandidates` | induction over the emptied queue; every candidate is closed, so its predecessor chain reaches the start |
| C78 | `findPathBetween`, `findPathToTest` in `Model/Reversed` over the searches of C70 - C77 | a solution of the bicycle equations run backwards is a solution with the other driving direction; C71 on the search from `to` to `from` |
| C79 | Model/HybridSearch adds an arbitrary expansion with its own persistent state to the search of C70; Spec/HybridSearch says what a path ending with an expansion is (`EndsExpanded`), Spec/HybridRS for the Reeds-Shepp expansion (`HybridPath`, `ForwardWay`). Invariant proof over the main loop on top of C70/C71; the fuel of the way point loop is eliminated (`untilDone`). `start_expansion_ub`: the start node has no predecessor, so `backtrack` dereferences null; shown with the completeness of the generator inside a free rectangle (Props/RSBox). |
| C80 | The model of C23-C31 on arbitrary labels; Spec/SearchHistory: `Used` (all histories of one object, with the start nodes used), `CloserWalk`. Invariant relative to the labels at the beginning of the search (`HCore`): nodes whose label has decreased in this search have a backtrack chain within this search; potential argument for termination; `HAll` (touched nodes are waiting or relaxed) for completeness. |
| C81 | The grid model of C27 with the unit step costs of `BFSNeighborhood` (evaluator.h:32-49); `getDelta`. From `dijkstra_optimal`: the cost of a walk is its number of moves. |
| C82 | Model/Renderer: images as functions of row and column, `at` outside is undefined; Spec/Renderer: `InSquare`, `OnRaster`. Induction over the loops of `renderMap`/`fill`; extremes of the focus loop by induction. |
| C83 | `analyze`, `visualizeSearchSpaceGrid`, `fillCell`. Floor arithmetic; refutation at distance 0. |
| C84 | Mouse callbacks of the evaluator on `ℤ` pixels; heading by `Complex.arg`. Division arithmetic; refutation for clicks. |
| C85 | `generateMap` on the grid map model of C01, `invertMap`, files as lossless storage. Induction over the cells; refutation for other sizes. |
| C86 | Counters of the video recording. Induction over the calls of `draw`. |
| C87 | The search model run on `F.D`, the representable numbers with rounded operations. Frontier argument with rounded costs, `(1+u)^k` error accounting. |
| C88 | `point2cell` / `cell2point` with every operation rounded. Relative error bounds; refutation by exact evaluation of the binary rounding. |
| C89 | Heap of blocks, objects as the pointers they hold, histories of operations. Separation-style invariant (live blocks = blocks of exactly one object), framed per operation; refutations for member-wise copies. |
| C90 | Four-wheel-steering bots over the reals, simulation as a function of the random numbers. Induction over steps; circle by an invariant centre. |
| C91 | The lookup overloads of the two array managers over the reals with the external angle clamp as a parameter. Floor and sector arithmetic. |
| C92 | The search over nodes with stored poses, begun on the labels and contents of any history. Invariant relative to the labels at the beginning ("entered by this search"), then the instances for the two steering neighbourhoods on the chunk manager. |
| C93 | The static members of the neighbourhood classes as one shared record, programs as lists of operations on several objects. Induction over the program; scaling of the bicycle model; refutation with concrete maps. |
| C94 | `KSt` search with a goal test as arbitrary function of the whole search state. Simulation by the search with no goal (`kIterateT_more`), then the invariants of `KinSearch`; instances for both steering neighbourhoods. |
| C95 | `initStartNode` next to `initStartPose`: equality of the two searches; a concrete search from a backward configuration. |
| C96 | Nodes with distance, one-step value and keys, arbitrary selection from the open list: invariant (open nodes have a value below their distance, values are justified by predecessors, expanded nodes have reached neighbours), termination because distances decrease in a well-ordered set of sums of step costs, walking the predecessors; grid instance against `Spec/GridPath`; concrete counterexamples. |
| C97 | The simulation of C94 on the invariant of C92: the search with a goal test is the search without goal nodes, relative to the labels at the beginning; `During` describes every intermediate state of every kind of search, so that a history can end anywhere. |
| C98 | Invariant of the zero-heuristic run (`DomEnd`): a closed state's pose, predecessors and cost never change again, and for every closed state every offered neighbour's state was reached at most as expensively; following a drive from its start, the first prefix that is not the stored one has a rival. No new code modelled: the steering searches of C70/C71. |
| C99 | Model/Counters (persistent `touched`), Model/Search for the rest. `Balance`: size of the open list + expansions = starts + insertions, marks + repeated = marks before + expansions, preserved by every iteration of any search. `WorkInv` for consistent heuristics: no closed node is ever reopened (its total is at most the last key taken, every later offer at least), so each edge inserts at most once and taking a closed node changes nothing; fuel bound from the balance. |
| C100 | No new model: `SegClear` (C39) and `Track` (C60) of the curve found. Lemmas/Clearance: a digital line has a cell within one row and column of every point of the ideal line (discrete intermediate value theorem along the longer axis + `WithinHalfCell`); a digital circle has, for every direction, a cell `(a, b)` with `b = floor(R s)` in the right octant, at most 1 inside and less than 2 outside, and its direction differs by at most `pi/(R-1)` (cross product below 2, length above `R-1`). Truncation of end points, centre and radius adds less than one cell each. Finding `corner_cut` computed at `find_path` level. |
| C101 | No new model: `LineOk`, `DrivesTo` of the paths of C71/C72. Spec/DriveClearance: points of a driven stretch (`OnDrive`, any motion of the bicycle model from the pose), `arcMargin`, `Inflated`. Lemmas/ChordBound: interpolation error of a function with Lipschitz derivative by convexity of `f + M s^2/2`; a motion is determined by where it starts. Then `Clear.line_cover` (C100) for the chord, at most `skips` line cells to the next tested one, start cell tested after truncation (equal to the floor on the map). Finding `arc_hits_obstacle`: arc of 60 degrees with ten cells radius. |
| C102 | Model/KinCounters: `kFindPathStats`, `padFindPathStats` (getters after the searches of C66/C71). Lemmas/KinCount: the balance of C99 is kept by every move (`kTry_process`); without heuristic (`KMono`) an entry that is out of date inserts nothing because all moves of an expanded node are relaxed, a node taken for the first time inserts at most one entry per move, so touched <= moves * expanded is an invariant and bounds the iterations. Concrete run for the finding. |
| C103 | Spec/MotionClear (`MotionClear`: which cells of a motion driven from a given pose must be free; `OnMotion`), Spec/HybridClearance (`SafeDrive`, `SafeWay`, `SafeHybridPath`). findPath of the curve generator is shown to return motions that are `MotionClear` (`findPath_motionClear`, which C39, C49, C69, C79 now use instead of a statement about an unanchored curve); a turn is near a tested cell except within an arc of pi/(floor(r)-1) of its ends, the ends of the straight are tested, the start of the expansion is near a cell of the line test of the step before, the goal cell is not occupied, so every point is within turnGap + skips + 1 of a cell that is not occupied (`csc_near`). |
| C104 | Spec/HybridSearch `RefusesAll`, Props/HybridComplete `OpenWay`. Invariant of the hybrid loop: a node that is closed and not open again was, with its present pose, refused an expansion to every goal node (Lemmas/HybridRefuse); transported to poses of the steering searches; with period 0 the second call at a pose is always an attempt, and C69's completeness in a free rectangle contradicts a refusal. Props/HybridRun: a complete concrete search. |
| C105 | Model/HybridHistory `xIterateS xSearchS xFindOn padFindXOn` (the hybrid search with the nodes it leaves), Spec/HybridHistory. The invariant `KHInv` of later searches (C92) through the hybrid loop; predecessors of start nodes never change during a search (`during_startPrev`), so an expansion at a start node follows the predecessors of earlier searches; every state in which a hybrid search can end is a state `During` a search without expansion, so histories are closed. Props/HybridHistEx: concrete stale path. |
| C106 | Model/FloatAngle `slotCoordF angle2indexF slotThetaF` (every operation rounded, `M_PI` the rounded π, the external clamp with an error e), Spec/FloatAngle. Error analysis operation by operation (`slotCoordF_err`: (e/6+8u) sectors per sector), then truncation of a number less than one outside [0, n]. |
| C107 | Spec/LaterClearance. The geometry of C101 and C103 (`dyn_step_near`, `RS.csc_near`) for the paths of C92 and C105; for an expansion at the start pose the free start cell (tested by `padInitOn`) takes the place of the last tested step. |
| C108 | Spec/GridClearance (`cellCentre OnCellPath DiscMeets FarFrom DiscClear Fits`). Geometry of one step (the obstacle is on the same side of both ends, or beside a diagonal step: then the disc meets it only at distance sqrt(2) d or more), lifted to chains; combined with the paths of C80 (any history), C22 and the distance transform. |
| C109 | Model/FloatSteer (`advance` of both steering neighbourhoods with every operation rounded, library functions as parameters), Spec/FloatSteer (`LibOk Executes PoseNear DrivesNear posErr headErr driftErr`). Relative error calculus (`Rel`) for one step, linear growth of the heading error and quadratic growth of the position error by induction over the path; combined with `kin_path` (C81) instantiated with rounded costs. |
| C110 | Spec/FloatClearance (`Passes`, `execMargin`). The executed drive stays near the computed poses (C109), an arc near its chord (C100), the chord near the digital line tested by the search; so every passed point is within the margin of a tested cell. |
| C111 | Model/CellCost (`getCost`), Spec/MapChange (`recolour SameClasses OnlyFreed upTo`). Class-only dependence: equality of the predicates handed to the searches, by unfolding and induction over the loops that read the map. Removal of obstacles: paths stay paths, combined with completeness and optimality (C23, C27, C30, C38). There and back: reversal of grid paths. |
| C112 | Model/CurveRenderer (`draw_map` on the image model of C82, `draw` and `draw_arrow` as lists of drawing calls), Spec/CurveRenderer (`pixelOf InPicture ahead`). Induction over the cells; the iteration of the curve from C41; floor arithmetic. |
| C113 | Seg.weight of an accepted segment = cost of the element (Spec/RSOpt `motionCost`), summed by C38's `check_weight`; chord ≤ arc by `1 - x²/2 ≤ cos x`, triangle inequality along the motion. With map costs: Spec/MotionPrice (`PaidCells MotionPrice`) along the track of the curve, cells from C39's specifications of the line and the ring. |
| C114 | Model/DrawThread: interleaving transition system of one worker and arbitrarily many clients. Invariant over all executions (mutex owner, flag, sleeping worker implies a pending notification), ranking for the worker's own steps, reachability for liveness. |
| C115 | Model/Editor: the two event handlers as functions on the evaluator's state (picture, map, files, drag state, mode), generators as parameters. Invariants over all event sequences (map shows picture; files up to date unless a pose is being dragged), exact effect of complete gestures by induction over the movements. |
| C116 | Model/DuringSearch: the loop of C25 with neighbours `maps k` at expansion `k`. Invariant with two neighbour relations (ever free for soundness and termination, always free for completeness and cost). Two concrete runs show that the result may be out of date. Distinct cells of a path come from distinct iterations (Props/DuringMoments: every predecessor pointer remembers the iteration that set it). |
| C117 | Model/FloatRot: every operation of `RotatedGridMap2d` rounded, sine and cosine from a C library with error `2u`. Error of a rounded rotation `5u(|a|+|b|)`, composed with the bounds of C88; a counterexample for `float`. |
| C118 | `gridAlgo` on two maps related by `Spec.Motion` (signed coordinate exchange plus shift); legacy A* likewise | paths are carried over in both directions and C27's optimality is used on each side; concatenation of paths for the triangle inequality |
| C119 | `Gen.findPath` on two problems related by `Spec.Frame` or reversed (`Spec.backMotion`) | driving commutes with the frame; the moved motion of the found curve is a competitor in C67's optimality, in both directions |
| C120 | `kLoopDuring`/`padFindPathDuring`: the search loop of C71/C75 with the map test of expansion `k` taken from the map of that moment | two-map invariant: legal for some map seen so far, saturated for the steps all maps accept; sandwich of the fixed-map theorems; without heuristic and with maps that only get blocked, the monotone-queue invariant of C71 survives each change of map (`exact_blocking`), with vanishing obstacles it does not (`inexact_when_freed`); moments (`Moments`): which iteration set which predecessor pointer with which pose, so distinct steps of a path were accepted by distinct maps |
| C121 | `xSearchDuring`/`padFindPathXDuring`: the hybrid search loop of C79 with map test and analytic expansion of iteration `k` on the map of that moment | invariant of C120 up to the last iteration; soundness of the expansion (C51) on the map of the last iteration |
| C122 | `kLoopTDuring`/`padFindTestDuring`: the loop with a goal test of C94, iteration `k` on the map of that moment | the two invariants of C120 (accepted by some map, relaxed for steps accepted by all maps) carried through the loop with a goal test; monotone maps give the exact drive; moments as in C120 |
| C123 | `searchLoopTDuring`/`findPathCustomDuring`: the loop with a goal test of C75, iteration `k` on the neighbours of that moment | the invariants of C116 (`VInv`, `Moments`) carried through the loop with a goal test; for shortest paths into a region a bound for the distance each node had when it was first taken from the queue |
| C124 | `interCalls`, the search loops with the call at their end (`searchLoopCB`, `kLoopCB`), the static variables threaded through all searches of a program (`runSearches`) | the schedule theorem of C36 summed over the calls of a search; the loops with and without call run in step |
| C125 | the two-pass relaxation, back-tracking and the heuristic over any type of costs with a monotone addition that makes nothing smaller (`Model/DistTransRound`), used with rounded numbers | after k rounds the costs are at most those of all walks of k steps and always those of a walk; walks without repeated cells have at most (w-2)(h-2) steps; one rounding per step |
| C126 | histories of searches each on its own changing neighbours (`Spec/SearchMaps`, models of C80, C116, C123) | the invariant of C80 with the stored costs over all neighbours seen so far; walks of the search at hand use only its own neighbours |
| C127 | models of C53, C54 and C25 | values are lengths of shortest walks (C53); walks are reversed, joined, moved and turned into paths of the searches (C111, C118) |
| C128 | models of C25, C34, C60, C75, C119 | one round of both runs is the same until the shorter limit strikes: the shorter run is a beginning of the longer; candidates are never dropped while a search runs; after the loop the best candidate, or nothing, is returned |
| C129 | Model/TimeLimit, TimeLimitHybrid, TimeLimitTest, TimeLimitKinTest: stamp_abort_ from the limit and the first clock reading, the test of a round from the k-th reading | the abstract `abort` predicate of C34 and C128 is computed from the clock; rounds before the end have readings before the limit |
| C130 | Model/KinHistory, Model/SteerHistory; no new model | false of the code; invariant of the first search: each tried move of an expanded start node leads nowhere or to a node already known at no larger cost; this survives every later search, so a search from these nodes adds nothing |

## Findings (each is a theorem, see the notes in MANIFEST.json)

The status `partial` marks properties whose full statement is false of the code: the theorems then give the exact behaviour, the part that
holds, and a refutation. Selected findings:

* maps: `point2cell` accepts a strip left of/below the map (C04), `isInMap(point)` has no lower bound (C05), rotated maps mix up origins (C07);
* areas: iterating circle and line areas skips the first cell and reads past the end (C09); `isAreaNoInformation` is inverted (C08);
* managers: orientation slots are off by one (C20), the chunk map fails on the lines x = -32, y = -32 (C21), `hasNode` looks at the wrong chunk (C58),
  line checks test only every (skips+1)-th cell (C57);
* search: the second search from the same start fails (C31), documented exceptions are never thrown (C32), reopening may make the returned
  path undrivable (C64), an expansion at the start node is undefined behaviour (C69);
* Reeds-Shepp: reading an uninitialised maximum arc (C38), turns sampled beyond their end, straights sampled too coarsely (C41), overlapping
  circles never connected (C67), backward expansion never succeeds (C69), the cost table cannot be produced (C68);
* geometry: `selectStartPoint` tolerance (C44), `Circle::toPoints` without centre, `Line::toPoses` without last pose (C47), tangents from the
  small circle never found (C63);
* sampling: rings wider than their diameter, skewed gain (C48), expensive curves discarded (C49); collision map: bow-tie footprint, radians
  used as index (C50);
* heuristics: the obstacle heuristic overestimates at the border and ignores padding (C54).
