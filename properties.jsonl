{"id": "C01", "title": "Grid map behaves like a total function on its cells", "statement": "After any history of setValue / fill (set(value)) / set(data,w,h) calls made with in-map coordinates, getValue(x,y) for every in-map cell returns the value most recently written to that very cell (0 if never written); a write changes no other cell, and no call of the history has undefined behaviour as long as width*height < 2^32.", "quantifier": "every map size with w*h < 2^32, every operation history, every cell", "why_tests_cant": "needs every pair (written cell, read cell) on every map size; index collisions or 32-bit wraps only appear for particular sizes", "anchors": ["include/cslibs_path_planning/common/SimpleGridMap2d.h: SimpleGridMap2d", "src/common/SimpleGridMap2d.cpp"]}
{"id": "C02", "title": "Each cell is exactly one of free / occupied / no-information", "statement": "With lower threshold < upper threshold every cell value is reported by exactly one of isFree, isOccupied, isNoInformation, whatever the no-information value; for arbitrary thresholds at least one of them holds, and free and occupied hold together exactly when upper <= value <= lower and the value is not the no-information value.", "quantifier": "every cell value, every threshold pair, every no-information value (any int)", "why_tests_cant": "a finite but large table of byte values x thresholds x int no-information values", "anchors": ["include/cslibs_path_planning/common/SimpleGridMap2d.h: SimpleGridMap2d::isFree/isOccupied/isNoInformation"]}
{"id": "C03", "title": "Cell -> point -> cell round trip on SimpleGridMap2d", "statement": "For every in-map cell, cell2point gives the centre of the cell and point2cell of that point succeeds and returns the same cell, for every origin and every positive resolution; more generally point2cell of every point of the half-open square of an in-map cell returns that cell, and distinct cells have distinct points.", "quantifier": "every origin, resolution > 0, map size, cell and point (exact arithmetic)", "why_tests_cant": "continuum of points, origins and resolutions", "anchors": ["include/cslibs_path_planning/common/SimpleGridMap2d.h: SimpleGridMap2d::cell2point", "include/cslibs_path_planning/common/SimpleGridMap2d.h: SimpleGridMap2d::point2cell"]}
{"id": "C04", "title": "point2cell accepts exactly the points on the map", "statement": "point2cell returns true iff the point lies on the map rectangle [origin, origin + size*resolution), and never has undefined behaviour for a point of the plane.", "quantifier": "every point of the plane, origin, resolution > 0, map size", "why_tests_cant": "continuum of points; the failing strip is only one cell wide", "anchors": ["include/cslibs_path_planning/common/SimpleGridMap2d.h: SimpleGridMap2d::point2cell"]}
{"id": "C05", "title": "isInMap(point) agrees with the map rectangle", "statement": "isInMap(double,double) returns true iff the point lies on the map rectangle, so that a point reported in the map can be safely converted with point2cell.", "quantifier": "every point of the plane, origin, resolution > 0, map size", "why_tests_cant": "the inputs are points of a continuum; the boundaries between cells are hit only by particular values", "anchors": ["include/cslibs_path_planning/common/SimpleGridMap2d.h: SimpleGridMap2d::isInMap(double,double)"]}
{"id": "C06", "title": "Rotated map: cell -> point -> cell round trip", "statement": "On a RotatedGridMap2d, point2cell(cell2point(c)) succeeds and returns c for every in-map cell, every rotation, every origin set with setOrigin and every positive resolution.", "quantifier": "every rotation angle, origin, resolution > 0, map size, cell (exact arithmetic)", "why_tests_cant": "continuum of rotations and origins", "anchors": ["include/cslibs_path_planning/common/RotatedGridMap2d.h: RotatedGridMap2d"]}
{"id": "C07", "title": "Rotated map: origin and isInMap are meaningful", "statement": "getOrigin returns what setOrigin stored, and isInMap(double,double) is true exactly for the points of the rotated map rectangle.", "quantifier": "every rotation, origin, resolution, point", "why_tests_cant": "the inputs are real numbers; samples cannot cover the boundaries of the branches", "anchors": ["include/cslibs_path_planning/common/RotatedGridMap2d.h: getOrigin, setOrigin, isInMap"]}
{"id": "C08", "title": "Area queries quantify over exactly the in-map cells of the area", "statement": "For an area whose iteration yields the cells cs: isAreaFree is true iff every in-map cell of cs is free, isAreaOccupied iff some in-map cell of cs is occupied, isAreaNoInformation iff the in-map cells carry no information; off-map cells of the area never influence the answer and are never read.", "quantifier": "every map, every area (list of cells, in or off the map)", "why_tests_cant": "all cell lists x all maps", "anchors": ["src/common/GridMap2d.cpp: GridMap2d::isAreaFree, isAreaNoInformation, isAreaOccupied"]}
{"id": "C09", "title": "Iterating a CircleArea / LineArea visits every cell of the area once", "statement": "begin(); while(next()) getCell(...) visits each cell of a CircleArea or LineArea exactly once, in order, without undefined behaviour.", "quantifier": "every circle area and line area with at least one cell", "why_tests_cant": "must hold for every size; out-of-bounds reads of one element are silent in tests", "anchors": ["include/cslibs_path_planning/common/GridMap2d.h: CircleArea::begin/next/getCell, LineArea::begin/next/getCell"]}
{"id": "C10", "title": "CircleArea covers its disc", "statement": "The cells of a CircleArea of cell radius R contain every cell (a,b) with a*a+b*b <= R*R around the centre, no cell outside the square |a|,|b| <= R, and no cell twice; radius <= resolution gives exactly the centre cell; a centre off the map or a radius <= 0 gives no cell.", "quantifier": "every radius, resolution, centre and map", "why_tests_cant": "the radius is unbounded", "anchors": ["src/common/GridMap2d.cpp: CircleArea::init, addHorizontalLine"]}
{"id": "C11", "title": "Area writes touch exactly the area", "statement": "setAreaValue(area, v) sets every in-map cell of the area to v and leaves every other cell of the map unchanged; writing and re-reading the same area (getAreaValues into a buffer) is lossless.", "quantifier": "every map, area and value", "why_tests_cant": "all cell lists x all maps", "anchors": ["src/common/GridMap2d.cpp: GridMap2d::setAreaValue, getAreaValues"]}
{"id": "C12", "title": "Robot footprint iteration visits every footprint cell once", "statement": "begin(); while(next()) getCell(...) over a RobotArea visits precisely its cells, in order, each once, relative to the set origin, without undefined behaviour, and can be restarted.", "quantifier": "every footprint cell list", "why_tests_cant": "the lists are unbounded", "anchors": ["src/common/CollisionGridMap2d.cpp: RobotArea", "include/cslibs_path_planning/common/CollisionGridMap2d.h: RobotArea"]}
{"id": "C13", "title": "Bresenham line iterator reaches the end through adjacent cells", "statement": "After setGrid with in-map endpoints, next() returns true exactly max(|dx|,|dy|) times, every step moves to one of the 8 neighbours, the last cell is the end cell, every visited cell lies in the bounding box of the endpoints (hence in the map), no cell is visited twice, and afterwards next() keeps returning false without moving.", "quantifier": "every pair of in-map endpoints on every map", "why_tests_cant": "unbounded coordinates, a loop without bound", "anchors": ["src/common/Bresenham2d.cpp: Bresenham2d::setGrid, next"]}
{"id": "C14", "title": "Bresenham line stays within half a cell of the ideal segment", "statement": "Every cell visited by the iterator deviates from the ideal line through the endpoints by at most half a cell along the minor axis.", "quantifier": "every pair of endpoints, every step", "why_tests_cant": "the coordinates are unbounded", "anchors": ["src/common/Bresenham2d.cpp: Bresenham2d::setGrid, next"]}
{"id": "C15", "title": "LineArea holds exactly the Bresenham cells", "statement": "For endpoints on the map, LineArea::set stores max(|dx|,|dy|)+1 cells: the start cell followed by the cells the Bresenham iterator visits; for endpoints off the map it stores none.", "quantifier": "every map and pair of endpoints", "why_tests_cant": "unbounded coordinates; loop termination", "anchors": ["src/common/GridMap2d.cpp: LineArea::set"]}
{"id": "C16", "title": "A line reported free crosses no obstacle", "statement": "If the map manager's isFree(sx,sy,ex,ey) returns true, both endpoints are on the map and every Bresenham cell from start to end is free (analogously isFreeOrUnknown: none is occupied).", "quantifier": "every map content and pair of endpoints", "why_tests_cant": "all maps x all endpoint pairs", "anchors": ["include/cslibs_path_planning/generic/MapManager.hpp: Manager::isFree, isFreeOrUnknown"]}
{"id": "C17", "title": "Line drawing never overflows int", "statement": "On maps of at most 2^29 cells per side every intermediate value of the Bresenham iterator fits a 32-bit signed int, so no step has undefined behaviour.", "quantifier": "every pair of endpoints and step", "why_tests_cant": "extreme coordinates on huge maps", "anchors": ["src/common/Bresenham2d.cpp: Bresenham2d::setGrid, next"]}
{"id": "C18", "title": "Grid node lookup is exact", "statement": "GridMapManager::lookup(int,int) returns the node of exactly that cell (distinct cells get distinct nodes, node coordinates equal the requested cell) iff contains(x,y), and throws OutsideMapException otherwise; lookup by world-scale doubles (floor) agrees.", "quantifier": "every map size, every pair of ints / doubles", "why_tests_cant": "unbounded coordinates incl. negative values", "anchors": ["include/cslibs_path_planning/generic/MapManager.hpp: GridMapManager::lookup, index, contains"]}
{"id": "C19", "title": "Oriented state lookup is injective and in bounds", "statement": "For StateSpaceManager and DirectionalStateSpaceManager the slot of (x,y,orientation slot[,direction]) is in bounds of the allocation for in-map cells and different states get different slots.", "quantifier": "every map size, every cell, orientation and direction", "why_tests_cant": "map sizes are unbounded", "anchors": ["include/cslibs_path_planning/generic/MapManager.hpp: StateSpaceManager::index, DirectionalStateSpaceManager::index"]}
{"id": "C20", "title": "Orientation discretisation is consistent", "statement": "For every angle in [-pi,pi) the orientation slot is in range, and looking up a node with its own stored orientation returns that node.", "quantifier": "every angle, every slot count >= 2", "why_tests_cant": "the inputs are angles (a continuum) and the wrong slots occur only next to the slot boundaries", "anchors": ["include/cslibs_path_planning/generic/MapManager.hpp: angle2index, initMap"]}
{"id": "C21", "title": "Chunked state lookup is total, injective and persistent", "statement": "DynamicDirectionalStateSpaceManager::lookup returns, for every cell for which contains() holds, the node of exactly that cell; the same call always returns the same node no matter which other lookups happened before; cells outside throw and change nothing.", "quantifier": "every map size, every history of lookups", "why_tests_cant": "histories of lookups; negative padding coordinates", "anchors": ["include/cslibs_path_planning/generic/MapManager.hpp: DynamicDirectionalStateSpaceManager::lookup"]}
{"id": "C22", "title": "A* path is a valid collision-free path", "statement": "When AStar::planPath returns true the path starts at the start cell, ends at the goal cell, consecutive cells are 8-neighbours, and every cell except possibly the goal is in the map and free; when it returns false the path is empty.", "quantifier": "every map, start, goal and history of earlier searches", "why_tests_cant": "the claim ranges over every map of every size", "anchors": ["src/a_star/AStar.cpp: AStar::planPath", "src/a_star/OpenList.cpp"]}
{"id": "C23", "title": "A* finds a path whenever one exists and always terminates", "statement": "AStar::planPath terminates after at most width*height expansions and returns false only if start or goal is off the map or no 8-connected route of free cells joins goal to start.", "quantifier": "every map, start, goal", "why_tests_cant": "the claim ranges over every map and asserts termination, which no finite run can refute", "anchors": ["src/a_star/AStar.cpp: AStar::planPath"]}
{"id": "C24", "title": "A* searches are independent of history", "statement": "The result of planPath does not depend on which searches the same object ran before.", "quantifier": "every finite history of earlier searches on the same map", "why_tests_cant": "the claim ranges over every history of calls on one object; a stale member shows only after particular sequences", "anchors": ["src/a_star/OpenList.cpp: prepareNewSearch", "src/a_star/AStar.cpp"]}
{"id": "C25", "title": "Generic search returns only valid paths", "statement": "A non-empty path returned by findPath begins at a start node, ends at a node in the goal region, consecutive nodes are neighbours in the chosen neighbourhood, and every node after the start is free (not occupied), whatever open list, heuristic and costs.", "quantifier": "every map/graph, start set, goal, heuristic, open-list policy, cost type", "why_tests_cant": "the claim ranges over every graph and every order in which equal candidates are taken", "anchors": ["include/cslibs_path_planning/generic/SearchAlgorithm.hpp: GenericSearchAlgorithm::findPathImp, processNeighbor, backtrack", "include/cslibs_path_planning/generic/Common.hpp", "include/cslibs_path_planning/generic/NodeManager.hpp"]}
{"id": "C26", "title": "The distance stored at the end of a returned path is the cost of the path", "statement": "For a returned path, the final node's distance is at least the sum of the step costs along the path and every stored distance is the cost of an actual walk from the start; distances never increase during a search.", "quantifier": "every graph, policy", "why_tests_cant": "the claim is an invariant of every intermediate state of every execution", "anchors": ["include/cslibs_path_planning/generic/SearchAlgorithm.hpp: GenericSearchAlgorithm::findPathImp, processNeighbor, backtrack", "include/cslibs_path_planning/generic/Common.hpp", "include/cslibs_path_planning/generic/NodeManager.hpp"]}
{"id": "C27", "title": "Dijkstra and A* return minimum-cost paths", "statement": "With non-negative step costs, a min-priority open list and a consistent heuristic (zero for Dijkstra), the returned path has minimum cost among all walks of free nodes from the start set to the goal region minimising cost + heuristic.", "quantifier": "every graph, non-negative costs, consistent heuristic", "why_tests_cant": "the claim ranges over every graph and cost function", "anchors": ["include/cslibs_path_planning/generic/SearchAlgorithm.hpp: GenericSearchAlgorithm::findPathImp, processNeighbor, backtrack", "include/cslibs_path_planning/generic/Common.hpp", "include/cslibs_path_planning/generic/NodeManager.hpp"]}
{"id": "C28", "title": "Shipped heuristics never overestimate on the neighbourhood they are made for", "statement": "The zero, L2 and L-infinity heuristics are consistent for the 8-neighbourhood (and L1, L2, L-inf for the 4-neighbourhood) with the step costs the library uses; the max of admissible heuristics is admissible.", "quantifier": "every pair of cells", "why_tests_cant": "unbounded coordinates; irrational distances", "anchors": ["include/cslibs_path_planning/generic/Heuristics.hpp: HeuristicL1, HeuristicL2, HeuristicLInf, MaxHeuristic", "include/cslibs_path_planning/generic/DirectNeighborhood.hpp"]}
{"id": "C29", "title": "Generic search terminates", "statement": "findPath terminates on every finite map for every open-list policy.", "quantifier": "every finite graph, policy", "why_tests_cant": "termination for every input cannot be observed in finitely many runs", "anchors": ["include/cslibs_path_planning/generic/SearchAlgorithm.hpp: GenericSearchAlgorithm::findPathImp, processNeighbor, backtrack", "include/cslibs_path_planning/generic/Common.hpp", "include/cslibs_path_planning/generic/NodeManager.hpp"]}
{"id": "C30", "title": "Generic search is complete", "statement": "findPath (no time limit, no oversearch) returns an empty path only if no walk of free nodes leads from a free start node to the goal region.", "quantifier": "every finite graph, policy", "why_tests_cant": "the claim ranges over every graph and cost function", "anchors": ["include/cslibs_path_planning/generic/SearchAlgorithm.hpp: GenericSearchAlgorithm::findPathImp, processNeighbor, backtrack", "include/cslibs_path_planning/generic/Common.hpp", "include/cslibs_path_planning/generic/NodeManager.hpp"]}
{"id": "C31", "title": "Searches on the same object are independent of history", "statement": "Calling findPath repeatedly on the same search object and unchanged map gives the same result as calling it on a fresh object.", "quantifier": "every history of searches", "why_tests_cant": "the claim ranges over every history of calls on one object; a stale member shows only after particular sequences", "anchors": ["include/cslibs_path_planning/generic/SearchAlgorithm.hpp: GenericSearchAlgorithm::findPathImp, processNeighbor, backtrack", "include/cslibs_path_planning/generic/Common.hpp", "include/cslibs_path_planning/generic/NodeManager.hpp"]}
{"id": "C32", "title": "Start / goal errors are reported as documented", "statement": "findPath throws StartOutOfMapException / GoalOutOfMapException / StartNotFreeException / GoalNotFreeException exactly for starts/goals off the map / not free.", "quantifier": "every map, start, goal", "why_tests_cant": "the claim ranges over every map of every size", "anchors": ["include/cslibs_path_planning/generic/SearchAlgorithm.hpp: findPath, initStartPose, initGoalPose"]}
{"id": "C33", "title": "Goal candidates: the cheapest candidate wins", "statement": "With oversearch, the returned path belongs to the goal candidate that minimises the documented candidate criterion among those found, and the search stops only after the oversearch distance beyond the first candidate.", "quantifier": "every graph, candidate set, oversearch distance", "why_tests_cant": "the claim is an invariant of every intermediate state of every execution", "anchors": ["include/cslibs_path_planning/generic/SearchAlgorithm.hpp"]}
{"id": "C34", "title": "A time limit never yields an invalid path", "statement": "Whenever the time limit interrupts the search, the result is either empty or a valid path as in C25.", "quantifier": "every interruption point", "why_tests_cant": "every schedule of the clock", "anchors": ["include/cslibs_path_planning/generic/SearchAlgorithm.hpp"]}
{"id": "C35", "title": "Open lists pop what they promise", "statement": "QueueManager pops in FIFO order, StackManager in LIFO order, over every history of add / remove / clear / next; the mark bits set on a node are independent of each other.", "quantifier": "every history of operations", "why_tests_cant": "the claim ranges over every history of calls on one object; a stale member shows only after particular sequences", "anchors": ["include/cslibs_path_planning/generic/NodeManager.hpp", "include/cslibs_path_planning/generic/Common.hpp: mark, unMark, isMarked"]}
{"id": "C36", "title": "Intermission callback schedule", "statement": "With start s and step n>0 the k-th call triggers the callback iff k <= max(1,s) or (k - max(1,s)) is a multiple of n; with n = 0 never.", "quantifier": "every call count and parameters", "why_tests_cant": "unbounded call counts", "anchors": ["include/cslibs_path_planning/generic/Intermission.hpp"]}
{"id": "C37", "title": "Curve pattern parser accepts exactly the documented language", "statement": "CurveGenerator's parser signals success iff the pattern is a concatenation of well-formed words, on success adds one curve per pattern with the segments in pattern order and directions flipped exactly at '|', on failure adds none.", "quantifier": "every string", "why_tests_cant": "the set of pattern strings is infinite", "anchors": ["src/ReedsShepp/CurveGenerator.cpp: parse"]}
{"id": "C38", "title": "find_path returns the cheapest admissible curve", "statement": "CurveGenerator::find_path returns a curve of minimum weight among the generated curves with weight below the collision threshold and arc below the maximum, and none iff there is no such curve.", "quantifier": "every list of curves and weights", "why_tests_cant": "the claim ranges over every set of stored patterns and every pair of poses", "anchors": ["src/ReedsShepp/CurveGenerator.cpp: find_path"]}
{"id": "C39", "title": "Returned curves are collision free", "statement": "If a curve with a map has a weight below NOT_FREE then every map cell tested on each of its line segments is free; one blocked segment makes the whole curve rejected.", "quantifier": "every map and curve", "why_tests_cant": "the claim ranges over every map of every size", "anchors": ["src/ReedsShepp/LineSegment.cpp", "src/ReedsShepp/Curve.cpp: weight"]}
{"id": "C40", "title": "Arc length sign and range", "statement": "compute_arc_length yields an arc congruent to end - start modulo 2 pi, of absolute value at most 2 pi, positive iff the circle is driven left-forward or right-backward.", "quantifier": "every pair of angles, orientation, direction", "why_tests_cant": "the inputs are angles (a continuum) and the wrong slots occur only next to the slot boundaries", "anchors": ["src/ReedsShepp/CircleSegment.cpp: compute_arc_length"]}
{"id": "C41", "title": "Curve iteration emits all segments in order", "statement": "Iterating a curve emits the concatenation of the poses of its segments in order, each segment its documented number of poses, then ends; reset restarts the same sequence.", "quantifier": "every curve", "why_tests_cant": "unbounded numbers of poses", "anchors": ["src/ReedsShepp/Curve.cpp: reset_iteration, has_next, next", "src/ReedsShepp/LineSegment.cpp", "src/ReedsShepp/CircleSegment.cpp"]}
{"id": "C42", "title": "Tangent construction joins circles smoothly", "statement": "The tangent segments between two turning circles computed by the geometry helper start and end on the circles, at right angles to the radii; tangential middle circles touch both neighbours.", "quantifier": "every pair of circles in general position", "why_tests_cant": "the inputs are pairs of real poses (a continuum)", "anchors": ["src/ReedsShepp/GeometryHelper.cpp"]}
{"id": "C43", "title": "Foot point and distances of lines", "statement": "The foot point of a point on a line is its orthogonal projection: it lies on the line, the connection is perpendicular to the line, and no point of the line is nearer.", "quantifier": "every line and point", "why_tests_cant": "the inputs are real numbers (a continuum); branch boundaries and degenerate positions are hit only by particular values, so samples settle nothing", "anchors": ["src/geometry/line.cpp"]}
{"id": "C44", "title": "Parallel lines and sidedness", "statement": "A parallel at distance d is parallel and every of its points has distance |d| from the line, on the side given by the sign; left/right tests are consistent with it.", "quantifier": "every line, distance, point", "why_tests_cant": "the inputs are real numbers (a continuum); branch boundaries and degenerate positions are hit only by particular values, so samples settle nothing", "anchors": ["src/geometry/line.cpp"]}
{"id": "C45", "title": "Intersections lie on both shapes", "statement": "Every point returned by the intersector for line-circle, circle-circle and arc-arc lies on both shapes up to the tolerance (exactly if the shapes properly cross), and every common point is returned up to the tolerance (line-line is delegated to an external function and not covered).", "quantifier": "every pair of shapes whose centres differ by at least the tolerance", "why_tests_cant": "the inputs are real numbers (a continuum); branch boundaries and degenerate positions are hit only by particular values, so samples settle nothing", "anchors": ["src/geometry/intersector.cpp"]}
{"id": "C46", "title": "Circle arcs keep their end points", "statement": "Changing the start (end) angle of an arc keeps its end (start) point; the arc angle stays within one full turn.", "quantifier": "every circle arc and angle", "why_tests_cant": "the inputs are real numbers (a continuum); branch boundaries and degenerate positions are hit only by particular values, so samples settle nothing", "anchors": ["src/geometry/circle.cpp"]}
{"id": "C47", "title": "Sampled poses of a shape lie on the shape", "statement": "toPoses/toPoints of a line or circle return points on that shape from its start to its end.", "quantifier": "every shape and sampling resolution", "why_tests_cant": "the inputs are real numbers (a continuum); branch boundaries and degenerate positions are hit only by particular values, so samples settle nothing", "anchors": ["src/geometry/line.cpp: toPoses", "src/geometry/circle.cpp: toPoints"]}
{"id": "C48", "title": "Goal regions yield the promised samples", "statement": "A goal region yields exactly the configured number of samples, each at the configured distance range from the centre, then ends.", "quantifier": "every configuration", "why_tests_cant": "unbounded counts, continuum of angles", "anchors": ["src/sampling/RingGoalRegion.cpp", "src/sampling/CentroidRadiusGoalRegion.cpp"]}
{"id": "C49", "title": "Sampling planner returns the best valid curve and leaks nothing", "statement": "SamplingPlanner::createPath returns a valid curve of minimum gain*weight among the goals sampled, or none if there is none; each other curve is released exactly once.", "quantifier": "every goal sequence and curve weights", "why_tests_cant": "the claim ranges over every sequence of goals and weights", "anchors": ["src/sampling/SamplingPlanner.cpp"]}
{"id": "C50", "title": "Footprint collision check covers the robot for its orientation", "statement": "isFree(x,y,theta) of CollisionGridMap2d is true only if every in-map footprint cell for that orientation is free; the orientation index is always in range and the footprint used is the nearest discretised one.", "quantifier": "every orientation, map, footprint", "why_tests_cant": "the inputs are angles (a continuum) and the wrong slots occur only next to the slot boundaries", "anchors": ["src/common/CollisionGridMap2d.cpp"]}
{"id": "C51", "title": "Vector and coordinate helpers obey their laws", "statement": "Rotation is an isometry composing additively, ortho is orthogonal, resize gives the wanted length and keeps the direction, pos2map and map2pos are mutually inverse, round rounds to nearest with ties away from zero.", "quantifier": "all vectors, angles, numbers", "why_tests_cant": "the inputs are real numbers (a continuum); branch boundaries and degenerate positions are hit only by particular values, so samples settle nothing", "anchors": ["src/common/Point2d.cpp", "src/common/MapMath.cpp", "src/common/Pose2d.cpp", "include/cslibs_path_planning/common/TmpMath.hpp"]}
{"id": "C52", "title": "Kinematic neighbourhood respects the steering model", "statement": "Every successor generated by the steering neighbourhood keeps |steering| within the limit, changes the driving direction only when the wheels are straight, and has non-negative step cost.", "quantifier": "every reachable state along every search", "why_tests_cant": "the reachable states form an infinite tree", "anchors": ["include/cslibs_path_planning/generic/SteeringNeighborhood.hpp", "include/cslibs_path_planning/generic/DynamicSteeringNeighborhood.h"]}
{"id": "C53", "title": "Distance transformation gives walk lengths and a descending path", "statement": "After the distance transformation every finite value is the length of an actual obstacle-free walk to the source, and back-tracking along it strictly descends, so it terminates without cycles.", "quantifier": "every map", "why_tests_cant": "the claim ranges over every map and asserts termination, which no finite run can refute", "anchors": ["include/cslibs_path_planning/generic/DistanceTransformation.hpp"]}
{"id": "C54", "title": "Holonomic obstacle heuristic is a lower bound", "statement": "The obstacle heuristic precomputed for a goal never exceeds the true obstacle-aware distance to the goal.", "quantifier": "every map and goal", "why_tests_cant": "the claim ranges over every map of every size", "anchors": ["include/cslibs_path_planning/generic/Heuristics.hpp: HeuristicHolonomicObstacles::setMap"]}
{"id": "C55", "title": "Map generators draw connected corridors", "statement": "The Hilbert generator of order n performs exactly 4^n - 1 unit moves and visits 4^n distinct cells; the maze generator visits every room and removes walls so that any two rooms are joined by exactly one way; in the picture the wall between two neighbouring rooms is either removed completely or intact, and any two rooms are joined by white pixels.", "quantifier": "every order n, map size, room width, start and random sequence", "why_tests_cant": "the order of the curve is unbounded", "anchors": ["include/cslibs_path_planning/evaluation/MapGenerators.hpp"]}
{"id": "C56", "title": "Reeds-Shepp expansion throttling", "statement": "The analytic expansion is attempted on the second call and then exactly every max(1,n)-th call while the best heuristic cost does not improve, where n never exceeds the configured N; no more than max(1,N) calls ever pass without an attempt.", "quantifier": "every call history", "why_tests_cant": "the claim ranges over every history of calls on one object; a stale member shows only after particular sequences", "anchors": ["include/cslibs_path_planning/generic/ReedsSheppExpansion.hpp: expand"]}
{"id": "C57", "title": "Line checks of the dynamic state manager cover the line", "statement": "isFree / isFreeOrUnknown / isOccupied for a line on DynamicDirectionalStateSpaceManager answer for every cell of the line from start to end.", "quantifier": "every map, every pair of end points", "why_tests_cant": "all maps and lines; the failing lines are those near the upper edges and those crossing thin obstacles", "anchors": ["include/cslibs_path_planning/generic/MapManager.hpp: DynamicDirectionalStateSpaceManager::isFree, isFreeOrUnknown, isOccupied"]}
{"id": "C58", "title": "hasNode tells whether the node was created", "statement": "DynamicDirectionalStateSpaceManager::hasNode(x,y,..) is true iff the chunk serving (x,y) has been created by an earlier lookup.", "quantifier": "every map, every history of lookups", "why_tests_cant": "the claim ranges over every history of calls on one object; a stale member shows only after particular sequences", "anchors": ["include/cslibs_path_planning/generic/MapManager.hpp: hasNode"]}
{"id": "C59", "title": "A* paths are at most twice as long as necessary", "statement": "With exact arithmetic the path stored by AStar::planPath is longer than any free route from start to goal by at most one cell width per step of that route (node values are truncated to int), hence at most twice the shortest route.", "quantifier": "every map, start, goal, history and competing route", "why_tests_cant": "all maps and all competing routes", "anchors": ["src/a_star/AStar.cpp: AStar::planPath", "src/a_star/Node.cpp: Node::getValue", "src/a_star/OpenList.cpp: OpenList::addNode"]}
{"id": "C60", "title": "A curve found by the Reeds-Shepp generator is an exact motion", "statement": "The curve returned by find_path, driven element by element with the stored lengths and angles and the configured radius, leads a car exactly from the start pose to the goal pose, headings included.", "quantifier": "every set of patterns with alternating turns, every radius, map, start and goal, every earlier state of the generator", "why_tests_cant": "all real poses and all patterns", "anchors": ["include/cslibs_path_planning/ReedsShepp/CurveGenerator.h: find_path", "src/ReedsShepp/Curve.cpp: check_if_admissible", "src/ReedsShepp/CircleSegment.cpp", "src/ReedsShepp/LineSegment.cpp"]}
{"id": "C61", "title": "The Reeds-Shepp generator finds a way in free space", "statement": "In free space, if a turn-straight-turn pattern is configured and the chosen turning circles are at least two radii apart, find_path returns a curve.", "quantifier": "every radius, cost setting, start and goal pose meeting the distance condition", "why_tests_cant": "continuum of poses and settings", "anchors": ["include/cslibs_path_planning/ReedsShepp/CurveGenerator.h: find_path", "src/ReedsShepp/Curve.cpp: check_if_admissible"]}
{"id": "C62", "title": "Searches for Reeds-Shepp curves do not influence each other", "statement": "find_path overwrites the stored curves; still, after any sequence of earlier calls (other poses, other maps) a call returns exactly what a freshly built generator returns.", "quantifier": "every history of calls", "why_tests_cant": "the claim ranges over every history of calls on one object; a stale member shows only after particular sequences", "anchors": ["include/cslibs_path_planning/ReedsShepp/CurveGenerator.h: find_path", "src/ReedsShepp/Curve.cpp"]}
{"id": "C63", "title": "Tangential paths are smooth and shortest", "statement": "A path from a line to a circle (or back) built with a connecting arc of given radius consists of a part of the line, an arc of that radius and the circle; positions and headings agree at both joints, and the arc is the shortest among all circles that join them; the same for connections between two circles.", "quantifier": "every line, circle and radius", "why_tests_cant": "the inputs are real numbers (a continuum); branch boundaries and degenerate positions are hit only by particular values, so samples settle nothing", "anchors": ["src/geometry/tangentor.cpp", "include/cslibs_path_planning/geometry/tangentor.h"]}
{"id": "C64", "title": "Paths of a steering search are drivable", "statement": "If the search reopens no closed node (consistent heuristic), every path obtained by following the predecessors is a sequence of legal steps of the vehicle model from a start node; without that assumption overwriting a node's pose can break the path.", "quantifier": "every map, expansion order and search bookkeeping", "why_tests_cant": "all search histories; poses from a continuum", "anchors": ["include/cslibs_path_planning/generic/SteeringNeighborhood.hpp: iterateFreeNeighbors", "include/cslibs_path_planning/generic/SearchAlgorithm.hpp"]}
{"id": "C65", "title": "Steps of the non-holonomic neighbourhood", "statement": "Every step has exactly the configured length, is driven along the new heading, turns by at most the configured angle, costs between 1 and 6 times its length, and changes the driving direction only straight.", "quantifier": "every node, move, map rotation", "why_tests_cant": "the inputs are pairs of real poses (a continuum)", "anchors": ["include/cslibs_path_planning/generic/NonHolonomicNeighborhood.hpp: advance"]}
{"id": "C66", "title": "Goal tests accept only poses near the goal", "statement": "The goal test of the dynamic steering neighbourhood accepts exactly the poses within the distance and angle thresholds (angles modulo full turns); that of the static one only accepts poses with the goal heading up to 22.5 degrees and the goal within 10 cm of the last segment, and accepts all poses within 5 cm.", "quantifier": "every pair of poses", "why_tests_cant": "continuum of poses; wrap-around of angles", "anchors": ["include/cslibs_path_planning/generic/DynamicSteeringNeighborhood.h: isGoal", "include/cslibs_path_planning/generic/SteeringNeighborhood.hpp: isGoal"]}
{"id": "C67", "title": "No motion following a pattern is cheaper than the curve found", "statement": "In free space, without map costs and with a large enough maximum arc: if any motion that follows one of the parsed patterns (turn-straight-turn with circles that do not overlap, three turns to alternating sides, or four turns with equal middle angles above 60 degrees around a change of direction), with positive turned angles, drives from the start to the goal, then find_path finds a curve and its weight, which is the cost of the motion it describes, is at most the cost of that motion. Overlapping circles are an exception the caller must know.", "quantifier": "every pattern set, pose pair, turning radius, cost factors and motion", "why_tests_cant": "the inputs are pairs of real poses (a continuum)", "anchors": ["src/ReedsShepp/GeometryHelper.cpp: symmetry_helper, calculate_tangential_circle, test_tangential_double_circle, get_common_tangent", "src/ReedsShepp/CurveGenerator.cpp: find_path", "src/ReedsShepp/Curve.cpp: check_if_admissible"]}
{"id": "C68", "title": "What the table heuristic looks up, and that its table can never be produced", "statement": "After setMap the table heuristic returns, for a pose in column x and row y > 0 of the square around the goal (in the goal's frame), the entry of column x and row dimension-y of an existing angle layer, scaled by the resolutions; outside the square it returns 0. The caller must know: row 0 reads out of bounds, init() keeps the layers of the default file in front of the new ones, the scale is undefined before setMap, and the program that should write the table never completes, for any dimension and number of angles. Parameters outside of the documented ranges are refused, but accepted ones may be too fine for an int.", "quantifier": "every table file, current and goal pose, resolution; every dimension, number of angles and generator setting of the program", "why_tests_cant": "the inputs are pairs of real poses (a continuum)", "anchors": ["include/cslibs_path_planning/generic/Heuristics.hpp: HeuristicNonHolonomicNoObstacles", "src/ReedsShepp/CostPrecomputation.cpp: precompute, main"]}
{"id": "C69", "title": "The analytic expansion hands out exact, free paths to the goal", "statement": "Whatever was computed before: if canExpand reports success, getPath hands out the way points (every 0.15 m on turns, evenly on straights, at least one) of a forward turn-straight-turn motion with radius 1.3 m and less than 180 degrees of turning that leads exactly from the node's pose to the goal pose over free cells. Calls are always defined and terminate. In free space an attempt succeeds whenever such a motion with non-overlapping circles exists and the goal is at least two cells away. Earlier calls influence later ones only through the throttle; the throttle is never reset between searches, and backward nodes never succeed.", "quantifier": "every history of calls (several searches, maps, goals), every node, goal pose and map", "why_tests_cant": "the claim ranges over every history of calls on one object; a stale member shows only after particular sequences", "anchors": ["include/cslibs_path_planning/generic/ReedsSheppExpansion.hpp: canExpand, getPath, expand, find, get"]}
{"id": "C70", "title": "A search with steering always ends, without undefined behaviour", "statement": "A pose-to-pose search with one of the two steering neighbourhoods on the chunk-based map manager ends for every map, start, goal, heuristic and open list, without undefined behaviour. It throws only if start or goal lie outside the padded map (or on its outermost line left or below), or if the vehicle can drive onto one of these two lines; then the exception is OutsideMapException or std::out_of_range.", "quantifier": "every map, start and goal pose, vehicle and neighbourhood parameter, heuristic, open list, candidate option, abort time", "why_tests_cant": "the inputs are pairs of real poses (a continuum)", "anchors": ["include/cslibs_path_planning/generic/SearchAlgorithm.hpp: findPathPose, findPathImp", "include/cslibs_path_planning/generic/DynamicSteeringNeighborhood.h: iterateFreeNeighbors", "include/cslibs_path_planning/generic/SteeringNeighborhood.hpp: iterateFreeNeighbors", "include/cslibs_path_planning/generic/MapManager.hpp: DynamicDirectionalStateSpaceManager"]}
{"id": "C71", "title": "A path found with steering can be driven", "statement": "A returned path begins at the corner of the start cell with the start heading, every pose of it can be reached by steps of the vehicle, the steering angles stay in their limits, and consecutive poses are less than a step and a cell apart; the first step is a motion of the vehicle from the first pose over a line the map accepts, and every further step is such a motion from a reachable pose in the state (cell, heading slot, direction) of the pose before it. The last pose (or, with candidates, a pose in its state) passes the goal test against the goal pose or a reached pose in the goal cell. Without heuristic and with a priority queue every step begins at the pose before it; with a heuristic, even a consistent one, this is false.", "quantifier": "every map, start and goal pose, vehicle and neighbourhood parameter, heuristic, open list, candidate option, abort time", "why_tests_cant": "the inputs are pairs of real poses (a continuum)", "anchors": ["include/cslibs_path_planning/generic/SearchAlgorithm.hpp: findPathImp, processNeighbor, backtrack", "include/cslibs_path_planning/generic/DynamicSteeringNeighborhood.h: advance, iterateFreeNeighbors, isGoal", "include/cslibs_path_planning/generic/SteeringNeighborhood.hpp: advance, iterateFreeNeighbors, isGoal"]}
{"id": "C72", "title": "A search with steering gives up only in a dead end", "statement": "If a search with steering returns no path although its time was not limited, there is a set of reachable poses that contains the start in both driving directions (unless the start is occupied), that no offered step over free lines leaves except into a state of which another pose is in the set, and of which no pose passes the goal test or lies in the goal's cell with heading slot 15. Conversely a path is returned only if start and goal are not occupied.", "quantifier": "every map, start and goal pose, vehicle and neighbourhood parameter, heuristic, open list", "why_tests_cant": "the inputs are pairs of real poses (a continuum)", "anchors": ["include/cslibs_path_planning/generic/SearchAlgorithm.hpp: findPathImp", "include/cslibs_path_planning/generic/DynamicSteeringNeighborhood.h: iterateFreeNeighbors", "include/cslibs_path_planning/generic/SteeringNeighborhood.hpp: iterateFreeNeighbors"]}
{"id": "C73", "title": "The goal heading is respected by searches with steering", "statement": "A returned path ends with the requested heading (within the threshold of the goal test). This is false: the goal is represented by the node of heading slot 15 (around 0) of its cell, whatever the requested heading, and once the search stores a pose there, this pose is the goal. A vehicle that can only drive straight ahead with heading 0 is given a path to every goal ahead of it, for every requested goal heading, and all poses of this path have heading 0.", "quantifier": "every free map, goal heading, thresholds, heuristic and open list", "why_tests_cant": "the inputs are pairs of real poses (a continuum)", "anchors": ["include/cslibs_path_planning/generic/Common.hpp: DirectionalNode::getPoses", "include/cslibs_path_planning/generic/SteeringNode.hpp: init", "include/cslibs_path_planning/generic/SearchAlgorithm.hpp: initGoalPose, goal test"]}
{"id": "C74", "title": "The chunk manager answers like one fixed table", "statement": "After every history of lookups the chunk-based manager answers a lookup of (x, y, slot, direction) with the node of exactly this state, the same one every time and a different one for every other state, or throws; whether it throws and which exception depends only on the request, not on the history. (The lookups of the history must avoid the two outermost lines.)", "quantifier": "every map size, every history of lookups, every request", "why_tests_cant": "the claim ranges over every history of calls on one object; a stale member shows only after particular sequences", "anchors": ["include/cslibs_path_planning/generic/MapManager.hpp: DynamicDirectionalStateSpaceManager::lookup"]}
{"id": "C75", "title": "Searches with a goal test return a walk to an accepted node, and find one if there is one", "statement": "findPath(from, goal_test) always ends without exception. The result is empty and no node was accepted, or it is a walk over neighbouring free nodes from a start node to a node the test accepted, one with the smallest weight among the accepted ones. If it is empty although the search was not aborted, and the test stops the search only at nodes it accepts, then no node the test always accepts can be reached.", "quantifier": "every graph, cost, open list, goal test (including tests that look at the state of the search) and configuration", "why_tests_cant": "the claim ranges over every graph and every order in which equal candidates are taken", "anchors": ["include/cslibs_path_planning/generic/SearchAlgorithm.hpp: findPath, findPathMapPose, findPathImp, addGoalCandidate"]}
{"id": "C76", "title": "A search for a region returns a cheapest path into it; the heuristic goal has no influence", "statement": "With a priority queue a search whose goal test accepts, and stops at, the nodes of a region returns a cheapest walk from the start into the region, whatever heuristic goal the test names (admissible or not). The heuristic goal changes neither the result, nor the candidates, nor the number of expansions: it is evaluated only for nodes already taken from the queue.", "quantifier": "every finite graph with costs that do not decrease, region, heuristic goal", "why_tests_cant": "the claim ranges over every graph and every order in which equal candidates are taken", "anchors": ["include/cslibs_path_planning/generic/SearchAlgorithm.hpp: findPathImp, getHeuristicGoal"]}
{"id": "C77", "title": "getPathCandidates lists a path for every candidate in order of the weights", "statement": "After a search getPathCandidates returns, without exception, exactly one walk from the start for every goal candidate, ordered by increasing weight; after a search with a goal test the first one is the path the search returned; after a search between poses the weights are the distances of the candidates to the goal.", "quantifier": "every graph, goal test, configuration and finished search", "why_tests_cant": "the claim is an invariant of every intermediate state of every execution", "anchors": ["include/cslibs_path_planning/generic/SearchAlgorithm.hpp: getPathCandidates, backtrack"]}
{"id": "C78", "title": "Reversed searches return a path that can be driven from `from` to `to`, in their own convention", "statement": "With a reversed steering neighbourhood findPath(from, to) returns a path that begins near the requested `from` (within the goal tolerance), ends in the corner of the cell of `to`, and can be driven as it is: driving from each pose with the steering angle and in the direction stored in this very pose leads exactly to the next one (to the same cell and heading slot if a heuristic is used). In a search that is not reversed each pose instead stores how it was reached. With a goal test the path of a reversed search ends at `from`, and getPathCandidates is not turned round.", "quantifier": "every map, steering parameters, pair of poses, open list and search options", "why_tests_cant": "the inputs are pairs of real poses (a continuum)", "anchors": ["include/cslibs_path_planning/generic/SearchAlgorithm.hpp: findPath, reverse", "include/cslibs_path_planning/generic/SteeringNeighborhood.hpp: advance, isGoal", "include/cslibs_path_planning/generic/DynamicSteeringNeighborhood.h: advance"]}
{"id": "C79", "title": "A steering search with analytic expansion ends, and its paths can be driven to the goal", "statement": "A pose-to-pose search with steering and Reeds-Shepp expansion, begun with the expansion in any state earlier searches left it in, always ends. Its result is that of the search without expansion, or a path that consists of at least one step of the vehicle from the start pose to a forward pose, and the way points of a free forward turn-straight-turn motion of radius 1.3 m leading exactly from that pose to the goal pose. It is undefined behaviour only if the expansion leads from the start pose itself to the goal; and this happens: the very first search of a process is undefined behaviour whenever such a motion from start to goal with non-overlapping circles exists in a free rectangle of the map.", "quantifier": "every map, start and goal pose, vehicle parameter, heuristic, open list, search option, history of earlier searches", "why_tests_cant": "the inputs are pairs of real poses (a continuum)", "anchors": ["include/cslibs_path_planning/generic/SearchAlgorithm.hpp: hasPoseBeenReached, backtrack, findPathImp", "include/cslibs_path_planning/generic/ReedsSheppExpansion.hpp: canExpand, getPath"]}
{"id": "C80", "title": "Every later search on a used search object is sound", "statement": "After setMap and any number of searches on the same object - any starts, goals, options, goal tests, each finished or cut off by its time limit or an interruption at any point - every further search ends without undefined behaviour, and its result is empty or a walk of free neighbours from one of its own start nodes into its own goal region (or continued by an expansion). Every node of the walk is reached at a strictly smaller cost than the smallest cost at which a walk of an earlier search since setMap came there. Without a time limit this is also sufficient: a path is found exactly if such a strictly closer walk into the goal region exists. getPathCandidates lists walks from the start nodes of the latest search.", "quantifier": "every graph, sequence of searches and options, cut-off point, open list policy", "why_tests_cant": "the claim ranges over every history of calls on one object; a stale member shows only after particular sequences", "anchors": ["include/cslibs_path_planning/generic/SearchAlgorithm.hpp: init, initStartPose, findPathImp, processNeighbor, backtrack, getPathCandidates"]}
{"id": "C81", "title": "Breadth-first grid search returns a path with the fewest moves", "statement": "The breadth-first search (moves of equal cost) over the four or eight neighbours returns a sequence of free cells with the fewest possible moves and finds one whenever one exists. The displacement between two neighbouring cells is the unit step that leads from the first to the second; for cells that are not neighbours it cannot be told apart from a move.", "quantifier": "every map, pair of free cells and neighbourhood", "why_tests_cant": "the claim ranges over every map of every size", "anchors": ["include/cslibs_path_planning/evaluation/evaluator.h: BFS search", "include/cslibs_path_planning/generic/DirectNeighborhood.hpp: getDelta"]}
{"id": "C82", "title": "The rendered map shows every cell at its place", "statement": "Rendering a map paints every pixel of the image in the colour of the cell whose square contains it (rows from bottom to top), except for the raster lines; occupied cells are dark, free cells get a grey value between 100 and 255 that never gets lighter when the heuristic grows; the automatic focus spreads the whole range of greys over the heuristics of the free cells.", "quantifier": "every map, cell size, heuristic", "why_tests_cant": "the claim ranges over every pixel of every image of every size", "anchors": ["include/cslibs_path_planning/evaluation/Renderer.hpp: renderMap, fill, setFocus, findFocus, setMap"]}
{"id": "C83", "title": "Explored nodes are painted at their cells on a continuous colour scale", "statement": "Every explored cell is painted over its whole square, and only those; the colour is a mixture of two consecutive colours of the scale, given by distance divided by the largest distance.", "quantifier": "every set of explored nodes and distances", "why_tests_cant": "the distances are real numbers; the bad index occurs only next to the boundary of the scale", "anchors": ["include/cslibs_path_planning/evaluation/Renderer.hpp: visualizeSearchSpaceGrid, analyze, fillCell"]}
{"id": "C84", "title": "Mouse input selects what it points at", "statement": "Clicking into the square of a cell selects this cell as start or goal; dragging sets the heading to the direction of the drag on the screen; dragging in obstacle mode fills the rectangle of cells between the two cells pointed at.", "quantifier": "every pixel and map size", "why_tests_cant": "the claim ranges over every pixel; whole rows of pixels behave differently from their neighbours", "anchors": ["src/evaluation/evaluator.cpp: mouseCallback, setStart, setGoal"]}
{"id": "C85", "title": "Editing, saving and restoring a map loses nothing", "statement": "The map generated from the edited image has exactly the black cells occupied and all others free; inverting twice restores the image; a new evaluator restores size, image, start and goal of the last save.", "quantifier": "every image, map size, saved state", "why_tests_cant": "the claim ranges over every image and every stored state", "anchors": ["src/evaluation/evaluator.cpp: generateMap, invertMap, saveMap, loadMap, initDefaultMap"]}
{"id": "C86", "title": "The recorded video shows the search at the announced speed", "statement": "The video consists of four seconds of the first picture, every k-th picture of the search, and four seconds of the last picture, where k is the announced speed.", "quantifier": "every number of steps, frame rate and skip count", "why_tests_cant": "the claim ranges over every run length and skip count", "anchors": ["src/evaluation/evaluator.cpp: draw, run", "include/cslibs_path_planning/evaluation/evaluator.h: RENDER"]}
{"id": "C87", "title": "Grid search with rounded costs stays complete and near-optimal", "statement": "With every step cost, every sum of costs and every estimate rounded to double precision, the search on a grid map (4- or 8-neighbourhood, any step width, Euclidean heuristic or none, any priority open list) still terminates, still returns an empty path only if no path of free cells to the goal region exists, and the path it returns on a map of at most a billion cells is at most one millionth longer than any path of free cells to the goal cell.", "quantifier": "every map, rounding mode (any tie-breaking), resolution, step width, start, goal, open list order", "why_tests_cant": "rounding errors accumulate along paths of unbounded length and can reorder the open list; no finite set of maps shows a bound", "anchors": ["include/cslibs_path_planning/generic/SearchAlgorithm.hpp: findPath, processNeighbor", "include/cslibs_path_planning/generic/DirectNeighborhood.hpp: iterateFreeNeighbors", "include/cslibs_path_planning/generic/Heuristics.hpp: HeuristicL2"]}
{"id": "C88", "title": "Point and cell conversions survive rounding", "statement": "In double precision, for every origin and resolution: a point at least a millionth of a cell away from the borders of its cell is converted to that cell, and a cell converted to a point with either overload of cell2point and back is the same cell.", "quantifier": "every origin, resolution, map size, cell, point and rounding mode", "why_tests_cant": "continuum of points; the failures occur only for origins far away relative to the cell size", "anchors": ["include/cslibs_path_planning/common/SimpleGridMap2d.h: SimpleGridMap2d::cell2point (both overloads)", "include/cslibs_path_planning/common/SimpleGridMap2d.h: SimpleGridMap2d::point2cell"]}
{"id": "C89", "title": "No leaks, double frees or dangling owners", "statement": "Creating, using, copying (with the copy constructors the library defines) and destroying curves, curve generators, collision maps, node managers, the legacy planner, the obstacle heuristic's table and mazes, in any order, never accesses or frees memory that is not live, never frees it with the wrong operator, and leaves no block allocated that no object refers to; copies share nothing with their originals; the areas of a collision map refer to that map. Node pointers stay valid until the manager gets a map of another size (dynamic manager: any new map). Assigning an object member-wise breaks this for every class that owns memory.", "quantifier": "every history of operations on any number of objects", "why_tests_cant": "the claim ranges over every history of calls on one object; a stale member shows only after particular sequences", "anchors": ["src/ReedsShepp/Curve.cpp: Curve(const Curve&), ~Curve, add", "src/ReedsShepp/CurveGenerator.cpp: parse, find_path", "src/common/CollisionGridMap2d.cpp: constructors, destructor", "include/cslibs_path_planning/generic/MapManager.hpp: initMap, setMap, clearChunks, lookup, destructors", "src/a_star/AStar.cpp: setNewMap, ~AStar", "src/a_star/OpenList.cpp: initialize, ~OpenList", "include/cslibs_path_planning/generic/Heuristics.hpp: HeuristicHolonomicObstacles::setMap", "include/cslibs_path_planning/evaluation/MapGenerators.hpp: Maze"]}
{"id": "C90", "title": "Four-wheel-steering simulator", "statement": "Every simulation step moves every bot by exactly the commanded distance; with constant steering it drives on a circle (never tighter than the vehicle model allows) or, with both axles steered alike, straight on without turning. Steering angles always are one of eleven values between -20 and 20 degrees, redrawn once per second. The image is black exactly where some bot has been at the end of a step, and bots are never farther from the start than the distance driven. Speeds are limited to 1.5.", "quantifier": "every random sequence, number of steps, steering angle and step width", "why_tests_cant": "the claim ranges over every history of calls on one object; a stale member shows only after particular sequences", "anchors": ["src/common/path4ws_simulator.cpp: Bot4ws::update, step, updateMap, randomizeSteerAngles, setNumBots, reset", "src/common/simbot4ws.cpp: setSpeed"]}
{"id": "C91", "title": "A pose finds the state of its cell, heading and direction", "statement": "Looking up a pose (coordinates and heading as real numbers, or whole cells) in the managers of oriented states returns the state with the cell of the pose, the heading sector of the pose and its driving direction; poses off the map throw; two poses give the same state exactly if they agree in cell, sector and direction; a state is found under the pose stored in it.", "quantifier": "every map size, coordinate, heading and direction", "why_tests_cant": "the inputs are pairs of real poses (a continuum)", "anchors": ["include/cslibs_path_planning/generic/MapManager.hpp: DirectionalStateSpaceManager::lookup, StateSpaceManager::lookup, angle2index"]}
{"id": "C92", "title": "Later searches with a steering neighbourhood", "statement": "On an object that has been used for any number of searches since setMap, each with its own start, goal or goal test and options, and each left at any point (at its end, by an exception of the map, of the lookup of the goal or of the goal test, by an interruption or the time limit), even with other contents of the map, every further search ends; a path it returns begins in the cell of the requested start with the requested heading, is driven by legal steps of the neighbourhood along lines the map accepts, keeps the steering limits and ends where the goal test against a pose in the cell of the requested goal succeeded; an empty result means that what the vehicle can reach is closed, except for states where an earlier search has stored a cost that is not larger.", "quantifier": "every history of searches on one object", "why_tests_cant": "the claim ranges over every history of calls on one object; a stale member shows only after particular sequences", "anchors": ["include/cslibs_path_planning/generic/SearchAlgorithm.hpp: findPathPose, init, initStartPose, initGoalPose, findPathImp", "include/cslibs_path_planning/generic/DynamicSteeringNeighborhood.h", "include/cslibs_path_planning/generic/SteeringNeighborhood.hpp", "include/cslibs_path_planning/generic/MapManager.hpp: DynamicDirectionalStateSpaceManager", "include/cslibs_path_planning/generic/Common.hpp: DirectionalNode::getPoses"]}
{"id": "C93", "title": "Search objects share the parameters of their neighbourhood", "statement": "In a program with several search objects over the dynamic steering neighbourhood (or a fixed-angle one), each plans with the resolution of its own map: every step of a path it returns is, in metres on its own map, a motion of the configured vehicle. (False of the code: resolution and step in cells are static members which the last setMap of any object decides. Exactly: undisturbed if that map has the same resolution and distance_step was not assigned since; otherwise every step is the motion of a vehicle whose wheel base is scaled by the ratio of the resolutions, and the sharpest turns need more than the steering limit on the finer map.)", "quantifier": "every sequence of setMap, parameter assignments and searches on any number of objects", "why_tests_cant": "the claim ranges over every history of calls on one object; a stale member shows only after particular sequences", "anchors": ["include/cslibs_path_planning/generic/DynamicSteeringNeighborhood.h", "src/generic/DynamicSteeringNeighborhood.cpp", "include/cslibs_path_planning/generic/NonHolonomicNeighborhood.hpp: setResolution", "include/cslibs_path_planning/generic/SearchAlgorithm.hpp: setMap"]}
{"id": "C94", "title": "Steering searches with a goal test of the user", "statement": "findPath(from, goal_test) with either steering neighbourhood always ends, whatever the goal test does, without undefined behaviour; it throws only for a start off the padded map or if a legal step leads onto its outermost left or bottom line. A path it returns (turned round for a reversed neighbourhood) begins in the cell of the start with the heading of the start, every pose of it can be reached by driving within the steering limits over unoccupied cells, consecutive poses are one motion apart up to the size of a state cell (exactly, without heuristic), it has at most as many poses as there are states, and it ends in the state of a pose the goal test accepted with the smallest weight handed to the search. Without time limit and with a test that stops the search only at poses it accepts, no path means that the start is enclosed in a set of poses that no motion leaves and of which the test accepts none for certain.", "quantifier": "every map, start pose, vehicle, goal test (which may look at the whole search state), heuristic, open list and time limit", "why_tests_cant": "the claim ranges over every history of calls on one object; a stale member shows only after particular sequences", "anchors": ["include/cslibs_path_planning/generic/SearchAlgorithm.hpp: findPath(PoseT, const GoalTest&), findPathImp, GoalTest", "include/cslibs_path_planning/generic/DynamicSteeringNeighborhood.h", "include/cslibs_path_planning/generic/SteeringNeighborhood.hpp"]}
{"id": "C95", "title": "A start configuration is respected", "statement": "findPathWithStartConfiguration(from, goal_test) plans from the given configuration: its driving direction, steering angle, depth and custom value. (False of the code: only the cell and the heading of the configuration are used, the search is the one from its pose, and it begins in both driving directions.)", "quantifier": "every map, configuration, vehicle and goal test", "why_tests_cant": "the claim ranges over every history of calls on one object; a stale member shows only after particular sequences", "anchors": ["include/cslibs_path_planning/generic/SearchAlgorithm.hpp: findPathWithStartConfiguration, initStartNode"]}
{"id": "C96", "title": "The incremental search finds a shortest path or reports failure", "statement": "The incremental (D*) search returns a shortest path from start to goal over free cells whenever one exists, returns the empty path otherwise, and can be repeated on the same object. (False of the code: the path is a valid one without repeated cells, but the value of an open cell is overwritten by every neighbour expanded later, so it need not be shortest; without a path, or from an occupied start cell, an element is taken from the empty open list; a second search on the same object does the same.)", "quantifier": "every grid map, every resolution, start and goal, every heuristic and every order in which the open list hands out nodes; every graph with positive step costs", "why_tests_cant": "the claim ranges over every map of every size", "anchors": ["include/cslibs_path_planning/generic/SearchAlgorithm.hpp: GenericDynSearchAlgorithm::init, findPath, findPathImp, UpdateVertex, processNeighbor", "include/cslibs_path_planning/generic/Heuristics.hpp: DHeuristicNode", "include/cslibs_path_planning/generic/Algorithms.hpp: DStar2D"]}
{"id": "C97", "title": "Later steering searches with a goal test", "statement": "After any history of searches on one object (however they were left), findPath(from, goal_test) and findPathWithStartConfiguration end without undefined behaviour, whatever the goal test does; a path begins in the cell of the requested start with its heading (and, for a configuration, with depth zero), is driven by legal steps within the steering limits, visits every state at a cost below every cost stored there before, visits no state twice and ends in the state of a pose the goal test of this search accepted with the smallest weight; no path means that what can be reached is closed except for states where an earlier search has stored a cost that is not larger, and that no stored pose is accepted for certain.", "quantifier": "every history of searches on one object, every goal test, start, vehicle, map, heuristic and open list", "why_tests_cant": "the claim ranges over every history of calls on one object; a stale member shows only after particular sequences", "anchors": ["include/cslibs_path_planning/generic/SearchAlgorithm.hpp: findPath(PoseT, const GoalTest&), findPathWithStartConfiguration, initStartPose, initStartNode, findPathImp"]}
{"id": "C98", "title": "What a steering search without heuristic overlooks", "statement": "A search over stored poses with the zero heuristic, no expansions and no time limit returns a drive that can be driven (or nothing). It can only miss a cheaper drive into the goal region (or any drive at all, when it returns nothing) for one of two reasons: a part of that drive ends in a state (cell, direction, heading slot) that another drive, at most as expensive, reaches at another pose or by other recent poses; or the goal pose was itself replaced by a reached pose of its state which does not accept the end of the drive. Hence, if every state holds one pose only and moves and goal test depend on the pose alone, the returned path is a cheapest one and nothing is returned only if there is none.", "quantifier": "every vehicle, map, cost order, open list, start, goal, and every drive", "why_tests_cant": "the claim ranges over every history of calls on one object; a stale member shows only after particular sequences", "anchors": ["include/cslibs_path_planning/generic/SearchAlgorithm.hpp: findPathImp, processNeighbor", "include/cslibs_path_planning/generic/SteeringNeighborhood.hpp: iterateFreeNeighbors, isGoal", "include/cslibs_path_planning/generic/DynamicSteeringNeighborhood.h: iterateFreeNeighbors"]}
{"id": "C99", "title": "The counters of a search are truthful and its work is linear", "statement": "After every search that returns, the expansions plus the entries left in the open list equal the start nodes plus the insertions, and the nodes marked as expanded have grown by the expansions that were not counted as repeated. With a consistent heuristic, a min-priority open list and nodes fresh from setMap, a search inserts at most one entry per edge leaving an expanded node, repeats at most as many expansions as it has updated nodes (exactly as many if it exhausts the open list, having then expanded exactly the reachable nodes), and ends within |start| + |edges| + 1 iterations: on a w x h grid with n directions after at most 2 + n*w*h iterations. A node may nevertheless be expanded twice, because the entry from before an update stays in the open list. Over several searches getTouchedNodes accumulates, and getMultiExpansions counts nodes expanded by earlier searches as repeated.", "quantifier": "every map, graph, open list, heuristic (balance), every consistent heuristic (work), every history of searches", "why_tests_cant": "the claim ranges over every history of calls on one object; a stale member shows only after particular sequences", "anchors": ["include/cslibs_path_planning/generic/SearchAlgorithm.hpp: findPathImp, processNeighbor, init, getExpansions, getMultiExpansions, getTouchedNodes", "include/cslibs_path_planning/generic/NodeManager.hpp: QueueManager, StackManager, PriorityQueueManager"]}
{"id": "C100", "title": "How near the tested cells an accepted curve stays", "statement": "find_path tests the cells of a digital line between the truncated end points of each straight and the cells of a digital circle of truncated radius about the truncated centre of each turn; the curve itself passes through other cells. For every curve returned with obstacles not ignored: every point of a straight lies in a cell at most two rows and columns away (one, if the straight's end points have no negative coordinates) from a cell which is free unless outside the map; every point of a turn more than pi/(R-1) of turning away from the turn's ends (R >= 2 the radius in whole cells) lies in a cell at most two rows and columns away from a free cell of the map. So a safety margin of two cells around obstacles (one for straights) makes those parts of the motion collision-free. Without a margin they need not be: a straight found between two poses heading 45 degrees runs through the only occupied cell of a map.", "quantifier": "every generator, pattern, map, pair of poses, normaliser, every point of the motion (a continuum)", "why_tests_cant": "the inputs are real numbers (a continuum); branch boundaries and degenerate positions are hit only by particular values, so samples settle nothing", "anchors": ["src/ReedsShepp/LineSegment.cpp: weight", "src/ReedsShepp/CircleSegment.cpp: weight, checkCircle, testPixel", "src/ReedsShepp/CurveGenerator.cpp: find_path"]}
{"id": "C101", "title": "How near the tested cells a driven step of a steering search stays", "statement": "The searches with steering neighbourhoods test a digital line between the cells of two consecutive poses (every (skips+1)-th cell), while the vehicle drives an arc. For every path found with DynamicSteeringNeighborhood or SteeringNeighborhood, with or without heuristic: wherever two consecutive poses are more than 32 cells away from the right and the upper border, the vehicle drives to the second pose from a pose in the state of the first one (from the first pose itself on the first step, and on every step without a heuristic), and every point it drives over lies in a cell at most skips + 1 + b rows and columns away from a cell that is not an occupied cell of the map, where b is d^2 tan(max steering angle) / (8 wheelbase) in whole cells, rounded up, d the distance driven in a step. So, without heuristic, on a map in which obstacles are surrounded by that margin of occupied cells, driving along the path never touches an obstacle. Without a margin it can: on a map whose only obstacle is a block of six cells, a step is accepted although the vehicle drives through the block.", "quantifier": "every map, parameter set, start and goal, open list, tie breaking, every point of the motion (a continuum)", "why_tests_cant": "the inputs are real numbers (a continuum); branch boundaries and degenerate positions are hit only by particular values, so samples settle nothing", "anchors": ["include/cslibs_path_planning/generic/MapManager.hpp: isFreeOrUnknown", "include/cslibs_path_planning/generic/DynamicSteeringNeighborhood.h: iterateFreeNeighbors, advance", "include/cslibs_path_planning/generic/SteeringNeighborhood.hpp: iterateFreeNeighbors, advance", "src/common/Bresenham2d.cpp: next"]}
{"id": "C102", "title": "The counters and the work of a steering search", "statement": "After every search with a steering neighbourhood that returns, with whatever heuristic and open list, the expansions plus the entries left in the open list equal the start nodes (at most two) plus the insertions (getTouchedNodes), and getExpansions exceeds getMultiExpansions by the number of different states expanded, hence by at most (w+63)(h+63)64. Without heuristic, on freshly initialised nodes and with a min-priority open list, each state inserts at most one entry per move, and only when it is expanded for the first time: getTouchedNodes is at most moves x (getExpansions - getMultiExpansions), getMultiExpansions at most getTouchedNodes, and the search ends within 3 + moves x (w+63)(h+63)64 iterations, where moves is 6(steps+1) for DynamicSteeringNeighborhood. With a heuristic that bound fails: nodes are expanded again and insert their neighbours again.", "quantifier": "every map, parameter set, open list, start and goal, every heuristic (balance), every run without heuristic (work)", "why_tests_cant": "the claim ranges over every history of calls on one object; a stale member shows only after particular sequences", "anchors": ["include/cslibs_path_planning/generic/SearchAlgorithm.hpp: findPathImp, processNeighbor, initStartPose, getExpansions, getMultiExpansions, getTouchedNodes", "include/cslibs_path_planning/generic/DynamicSteeringNeighborhood.h: iterateFreeNeighbors", "include/cslibs_path_planning/generic/SteeringNeighborhood.hpp: iterateFreeNeighbors", "include/cslibs_path_planning/generic/MapManager.hpp: DynamicDirectionalStateSpaceManager"]}
{"id": "C103", "title": "Hybrid paths keep away from obstacles, from the start to the goal", "statement": "Let every cell within a margin (in rows and in columns) of an obstacle be occupied in the map, where the margin covers the steps of the neighbourhood (as in C101) and the expansion: skips + 1 plus the length in cells of an arc of pi/(floor(r)-1), where r >= 2 is the turning radius of 1.3 m in cells. Then every path a steering search with Reeds-Shepp expansion returns whose poses are well inside the map is either a result of the search without expansion or can be driven all the way to the goal - the stretches between the poses, then the turn, the straight and the turn of the expansion - without touching a cell with an obstacle. The motion meant is the one driven from the pose where the expansion begins. The margin for the turns is needed because the ends of a turn may have no tested cell at all.", "quantifier": "every map, parameter set, start and goal, every state of the expansion, every heuristic and open list, every point of the driven motion", "why_tests_cant": "the inputs are real numbers (a continuum); branch boundaries and degenerate positions are hit only by particular values, so samples settle nothing", "anchors": ["include/cslibs_path_planning/generic/ReedsSheppExpansion.hpp: expand", "include/cslibs_path_planning/generic/SearchAlgorithm.hpp: findPathImp", "src/ReedsShepp/CurveGenerator.cpp: find_path", "src/ReedsShepp/CircleSegment.cpp: checkCircle", "src/ReedsShepp/LineSegment.cpp", "src/common/Bresenham2d.cpp: next", "include/cslibs_path_planning/generic/MapManager.hpp: isFreeOrUnknown"]}
{"id": "C104", "title": "A hybrid search that gives up was refused an expansion at every pose it reached", "statement": "If a steering search with Reeds-Shepp expansion returns no path although its time was not limited, there is a set of reached poses that contains the start, cannot be left by a step of the neighbourhood, and contains no pose at the goal (as for a search without expansion), and in addition the expansion was asked at every pose of this set for a way to the goal - once for each driving direction of the goal - and refused. In particular, if the expansion is configured to be attempted at every call (period 0), no pose of the set that is driven to forwards has an open way to the goal: a forward motion turn, straight, turn (less than 180 degrees in total, turning circles that do not overlap and lie in a rectangle of free cells) to a goal at least two cells away.", "quantifier": "every map, parameter set, start and goal, every previous history of the expansion, every heuristic and open list, every motion", "why_tests_cant": "the claim ranges over every history of calls on one object; a stale member shows only after particular sequences", "anchors": ["include/cslibs_path_planning/generic/SearchAlgorithm.hpp: findPathImp", "include/cslibs_path_planning/generic/ReedsSheppExpansion.hpp: expand", "src/ReedsShepp/CurveGenerator.cpp: find_path", "include/cslibs_path_planning/generic/SteeringNeighborhood.hpp: iterateFreeNeighbors", "include/cslibs_path_planning/generic/DynamicSteeringNeighborhood.h: iterateFreeNeighbors"]}
{"id": "C105", "title": "Searches with analytic expansion on a used object end, and what they return", "statement": "On a search object on which any number of searches have been run, with or without analytic expansion and each left at any point, every further search with expansion ends and leaves the object usable for the same guarantees. It ends exactly as the search without expansion would end on the same nodes; or it returns a path that begins at a start pose of this search, takes only legal steps of this search to a pose driven to forwards, and ends with the way points of a forward motion from exactly this pose to the goal, over tested cells; or a forward way led from the start pose itself to the goal: then the result is undefined behaviour if no earlier search has stored a predecessor at the start, and otherwise undefined behaviour, the way itself, or the way after a list of poses that earlier searches have stored (a concrete history with such a path is exhibited). If the start or goal cell is occupied no expansion is returned.", "quantifier": "every history, map, parameter set, start and goal, state of the expansion, heuristic and open list", "why_tests_cant": "the claim ranges over every history of calls on one object; a stale member shows only after particular sequences", "anchors": ["include/cslibs_path_planning/generic/SearchAlgorithm.hpp: findPathPose findPathImp init initStartPose initGoalPose hasPoseBeenReached backtrack", "include/cslibs_path_planning/generic/ReedsSheppExpansion.hpp: expand getPath"]}
{"id": "C106", "title": "Orientation slots survive rounding", "statement": "In double precision, with the 32 or 36 slots of the node managers and an angle clamp that is off by at most a thousandth: the slot computed for any orientation exists (no undefined conversion, no index outside the node array, not even for an orientation rounded to a value above pi) and is the exact slot or one next to it; an orientation not within rounding error of a slot border gets its exact slot; and, as in exact arithmetic, the orientation stored in the nodes of slot t >= 1 is looked up in slot t - 1.", "quantifier": "every orientation, number of slots, clamp with bounded error and rounding mode", "why_tests_cant": "the inputs are angles (a continuum) and the wrong slots occur only next to the slot boundaries", "anchors": ["include/cslibs_path_planning/generic/MapManager.hpp: angle2index (three managers), initMap, Chunk::Chunk"]}
{"id": "C107", "title": "Paths of later searches keep away from obstacles", "statement": "On a map in which everything within the margins of C101 and C103 of an obstacle is occupied, and as long as the poses reached by this search are well inside the map: driving along the path of any search with a steering neighbourhood on a used object touches no cell with an obstacle. With analytic expansion the same holds for the steps before the expansion and for the motion of the expansion up to the goal; if the expansion led from the start pose itself to the goal, its motion is safe, but poses of earlier searches put before it need not be.", "quantifier": "every history of searches (with or without expansion, each left at any point), map, obstacle set, parameters, start, goal, heuristic and open list", "why_tests_cant": "the claim ranges over every history of calls on one object; a stale member shows only after particular sequences", "anchors": ["include/cslibs_path_planning/generic/SearchAlgorithm.hpp: findPathPose findPathImp hasPoseBeenReached backtrack", "include/cslibs_path_planning/generic/SteeringNeighborhood.hpp: advance iterateFreeNeighbors", "include/cslibs_path_planning/generic/ReedsSheppExpansion.hpp: expand getPath", "include/cslibs_path_planning/generic/MapManager.hpp: isFree setMap"]}
{"id": "C108", "title": "Size of a robot that can follow a grid path", "statement": "If every cell within d rows and columns of an obstacle is not free, a disc-shaped robot that starts (legacy A* and distance transform: ends) clear of the obstacles and follows the returned path in straight lines from cell centre to cell centre never touches an obstacle, provided its radius, in cells, is below d + 1/2 for the 4-neighbourhood, below d + 1/2 and below sqrt(2) d for 8-neighbourhood paths (generic searches, legacy A*, distance transform), below d + (1-D)/2 for steps of width D. The bounds are sharp: with d = 0 the 8-neighbourhood squeezes between two obstacles that touch at a corner, and steps of width 2d+2 run through the middle of an obstacle.", "quantifier": "every map, obstacle set, margin d, radius, start, goal, heuristic, open list, history of searches, arithmetic of costs", "why_tests_cant": "the inputs are real numbers (a continuum); branch boundaries and degenerate positions are hit only by particular values, so samples settle nothing", "anchors": ["include/cslibs_path_planning/generic/SearchAlgorithm.hpp: findPath processNeighbor", "include/cslibs_path_planning/generic/DirectNeighborhood.hpp: iterateFreeNeighbors dx dy", "src/a_star/AStar.cpp: AStar::planPath", "include/cslibs_path_planning/generic/DistanceTransformation.hpp"]}
{"id": "C109", "title": "Steering paths survive rounding", "statement": "The steering searches computed in floating point: every pose of a returned path is, up to an explicit error (about 1e-10 of a cell for double), where the vehicle gets that drives from its predecessor with the stored steering angle, direction and step length. Without heuristic a vehicle that simply executes the steering commands of the whole path from the start pose stays near all its poses: the position error grows at most quadratically, the heading error linearly in the number of steps; for double, maps up to 10000 x 10000 cells and paths of up to 1000 steps it is at most a thousandth of a cell and a millionth of a radian. With a heuristic this holds step by step, from a pose in the same cell and heading slot as the predecessor. Rounding never changes which manoeuvres are offered from a pose, and their costs only by a few units of rounding.", "quantifier": "every floating-point format with unit roundoff at most 1/10000, tie rule, library accurate to 2 units, parameters with at most 60 degrees, map, start, goal, open list; every path length", "why_tests_cant": "the inputs are real numbers (a continuum); branch boundaries and degenerate positions are hit only by particular values, so samples settle nothing", "anchors": ["include/cslibs_path_planning/generic/SteeringNeighborhood.hpp: advance", "include/cslibs_path_planning/generic/DynamicSteeringNeighborhood.h: advance", "include/cslibs_path_planning/generic/NonHolonomicNeighborhood.hpp: iterateFreeNeighbors", "include/cslibs_path_planning/generic/SearchAlgorithm.hpp: findPath"]}
{"id": "C110", "title": "Executing a path computed in floating point is safe", "statement": "On a map whose obstacles are surrounded by enough occupied cells (the cells skipped by the line test, one for the digital line, and the bulge of the longest arc plus the rounding drift, rounded up), a vehicle that executes the steering commands of a path found by a steering search without heuristic, computed in floating point, from the start pose to the end touches no cell with an obstacle, as long as the poses of the path keep away from the edge of the map. For double, maps up to 10000 x 10000 cells and up to 1000 steps the drift counts as one thousandth of a cell.", "quantifier": "every floating-point format with unit roundoff at most 1/10000, tie rule, library accurate to 2 units, parameters with at most 60 degrees, map, obstacles, start, goal, open list; every point passed by the vehicle", "why_tests_cant": "the inputs are real numbers (a continuum); branch boundaries and degenerate positions are hit only by particular values, so samples settle nothing", "anchors": ["include/cslibs_path_planning/generic/SteeringNeighborhood.hpp: advance", "include/cslibs_path_planning/generic/DynamicSteeringNeighborhood.h: advance", "include/cslibs_path_planning/generic/NonHolonomicNeighborhood.hpp: iterateFreeNeighbors", "include/cslibs_path_planning/generic/SearchAlgorithm.hpp: findPath"]}
{"id": "C111", "title": "What a change of the map does to a search", "statement": "Cell values matter only through the class of a cell: on two maps of the same geometry whose cells are free / occupied alike, the generic grid search (also with a goal test), the stand-alone A*, both steering searches and (without map costs) the Reeds-Shepp generator return identical results; a cost function set by the user is never consulted (getCost itself never throws and lies in [0, 255/127]). Removing obstacles never harms: grid search, A* and curve search succeed again, and the best cost does not grow. A* with eight neighbours and the Euclidean heuristic finds a path from s to g iff it finds one from g to s, both completed by the last cell are shortest paths and equally long.", "quantifier": "all maps, cell values, thresholds, starts, goals, open lists, settings", "why_tests_cant": "the claim ranges over every map of every size", "anchors": ["include/cslibs_path_planning/generic/SearchAlgorithm.hpp: processNeighbor, getCost, setCostFunction", "include/cslibs_path_planning/generic/DirectNeighborhood.hpp: iterateFreeNeighbors", "src/a_star/AStar.cpp: isFreeWay, planPath", "include/cslibs_path_planning/generic/MapManager.hpp: isFreeOrUnknown", "src/ReedsShepp/CurveGenerator.cpp: find_path", "include/cslibs_path_planning/common/SimpleGridMap2d.h: isFree, isOccupied"]}
{"id": "C112", "title": "What the curve renderer draws", "statement": "draw_map paints, in a picture with at least one pixel per cell, every cell of the map at its place (row 0 at the bottom): free cells white, others in a colour that determines their value; nothing else changes, nothing is written outside; a smaller picture makes it write outside. draw of a valid curve returned by find_path ends and draws the polygon from the start through all way points of the motion in order, an arrow at every way point, and the arrows of goal and start; invalid curves and empty pictures are left alone. The curve is unchanged except that its iteration is at the end. The caller must know: a point whose ordinate is a whole number is drawn one pixel below its cell (for 0 outside of the picture), and the small arrows are drawn with line thickness 0.", "quantifier": "all maps, pictures, curves found, points, poses and scales", "why_tests_cant": "the inputs are real numbers (a continuum); branch boundaries and degenerate positions are hit only by particular values, so samples settle nothing", "anchors": ["src/ReedsShepp/CurveRenderer.cpp: draw_map, draw, draw_arrow", "include/cslibs_path_planning/ReedsShepp/CurveRenderer.h: p2cv", "src/ReedsShepp/Curve.cpp: reset_iteration, has_next, next, is_valid"]}
{"id": "C113", "title": "The weight of a found curve is the cost of driving it", "statement": "Without map costs, weight() of a curve returned by find_path is exactly the cost of the motion it describes (driven lengths times the factors for direction and kind), hence at least the smallest cost per cell times the straight-line distance of start and goal, and is_valid() accepts it if no product of factors is below 1/2000. With driving costs of zero a curve is found that is_valid() rejects. With map costs the weight is the price of the cells the motion leads over, each at least the minimum, times the same factors, divided by the cell size; dearer cells never make it cheaper; but it is not proportional to the length: a diagonal costs what a row of as many cells costs.", "quantifier": "all starts, goals, maps, patterns, cost factors and radii", "why_tests_cant": "the inputs are real numbers (a continuum); branch boundaries and degenerate positions are hit only by particular values, so samples settle nothing", "anchors": ["src/ReedsShepp/CurveGenerator.cpp: find_path", "src/ReedsShepp/Curve.cpp: weight, is_valid", "src/ReedsShepp/CircleSegment.cpp: weight", "src/ReedsShepp/LineSegment.cpp: weight"]}
{"id": "C114", "title": "Requests to the drawing thread", "statement": "With the drawing thread running, any number of threads calling drawInParallel in any interleaving, spurious wake-ups included: a request that has set the flag is followed by a drawing before the flag is reset; no wake-up is lost, and the thread makes at most four steps of its own before it draws; the drawing is reachable as long as the thread is not interrupted; no deadlock: every call can return; drawings and requests exclude each other; nothing is drawn without a request; after an interruption at most one more drawing begins. The caller must know: a request made during a drawing is lost; the flag is not initialised, so the thread may draw uninvited; and the flag is read without the mutex.", "quantifier": "all schedules, numbers of clients, requests, spurious wake-ups and interruptions", "why_tests_cant": "the claim ranges over every interleaving of any number of threads, which a test run cannot force", "anchors": ["src/evaluation/evaluator.cpp: drawThread, drawInParallel, ~Evaluator", "include/cslibs_path_planning/evaluation/evaluator.h: draw_cond_state, mut, draw_cond"]}
{"id": "C115", "title": "Editing with mouse and keyboard", "statement": "Whatever the user does with mouse and keyboard in the evaluation tool, the grid map handed to the search shows the picture: black cells occupied, all others free, in the size and resolution the evaluator was created with; no event makes an assertion fail or leaves the map. A drag in the start (goal) mode sets the start (goal) heading along the drag and changes nothing else; in the obstacle mode it makes exactly the rectangle between the two cells occupied (left) or free (right), whatever the movements in between; in the focus mode nothing is changed; c frees every cell, i exchanges black and white and twice i restores the picture; each of s, g, f, m, n, o chooses what the mouse does next and t switches the text, nothing else; every other key changes nothing. As long as no mode key is pressed during a drag, whenever no button is held the files contain the picture, the start and the goal, and a new evaluator begins with them. The caller must know: a mode key during a drag leaves the change unsaved; the width of a maze is that of the last movement, not of the release, and a click without a movement reuses an old one.", "quantifier": "all sequences of mouse and key events, map sizes, contents of the files and map generators", "why_tests_cant": "the claim ranges over every history of calls on one object; a stale member shows only after particular sequences", "anchors": ["src/evaluation/evaluator.cpp: mouseCallback, keyCallback, clearMap, invertMap, makeMaze, makeSpaceFillingCurve, generateMap, saveMap, loadMap", "include/cslibs_path_planning/evaluation/evaluator.h: Evaluator"]}
{"id": "C116", "title": "The map changes while a search runs", "statement": "The callback a search calls after every expansion may block and clear cells of the map. However it does so, the search ends normally. A path it returns starts at the start, makes only steps of the neighbourhood, ends at the goal (within the step width), and each of its cells was free on one of the maps the search looked at, different cells at different moments, so that nothing returned is longer than the time during which the map left anything free; it is at least as good (length plus estimate at its end) as every path that was free all the time; without a time limit an empty result means that no path was free all the time. If the callback only blocks cells the path is free on the first map, if it only clears cells it is free on the last. With a callback that changes nothing it is the ordinary search. The caller must know: the path may lead through a cell that is occupied by the time it is returned, and a path that opens up during the search may be missed.", "quantifier": "all grid maps and all sequences of changes to them during the search, start and goal cells, neighbourhoods, step widths, heuristics, open lists and time limits", "why_tests_cant": "the claim ranges over every interleaving of any number of threads, which a test run cannot force", "anchors": ["include/cslibs_path_planning/generic/SearchAlgorithm.hpp: findPathImp, findPath", "include/cslibs_path_planning/generic/Intermission.hpp: Intermission", "include/cslibs_path_planning/generic/DirectNeighborhood.hpp: iterateFreeNeighbors", "src/evaluation/evaluator.cpp: draw, mouseCallback"]}
{"id": "C117", "title": "Rotated map conversions survive rounding", "statement": "In double arithmetic, with a sine and cosine that are right up to two units in the last place, on every rotated map whatever its angle, size and resolution: with an origin at most 2^31 cells away from zero, set with setOrigin, point2cell gives the right cell for every point at least a hundred thousandth of a cell away from the sides of its (rotated) square, and cell2point gives the centre of the cell up to a ten thousandth of a cell; with a stored origin at most 2^45 cells away, the point given for a cell is converted back to that cell. The overload with float results keeps the cell only near zero (proved: within 2^18 cells); with an origin of 4194304 m and cells of 1/16 m it does not.", "quantifier": "all rotated maps, angles, origins, resolutions, cells, points, and all ways to break ties in rounding", "why_tests_cant": "the inputs are pairs of real poses (a continuum)", "anchors": ["include/cslibs_path_planning/common/RotatedGridMap2d.h: setOrigin, point2cell, cell2point", "src/common/Point2d.cpp: rotate"]}
{"id": "C118", "title": "Searches do not depend on how the map lies, and found distances are a metric", "statement": "A pose-to-pose grid search on a copy of the map that was turned by quarter turns, mirrored, shifted, put on a grid of another size, or given another resolution finds a path between the moved start and goal exactly if the search on the map itself does, and length of the path plus estimated rest are the same in cells; for the heuristics none, L2, L-infinity and the maximum of the last two, for four and for eight directions. The same holds for success of the older planPath, whatever its arithmetic. The distances found by A* between free cells, counted up to the goal cell, satisfy the triangle inequality (with two legs found, the direct search succeeds and is not longer), are zero exactly between a cell and itself, and are the same in both directions.", "quantifier": "all maps, sizes, resolutions, turns, mirror images, shifts, starts, goals and intermediate cells", "why_tests_cant": "the claim ranges over every map of every size", "anchors": ["include/cslibs_path_planning/generic/SearchAlgorithm.hpp: findPath", "include/cslibs_path_planning/generic/DirectNeighborhood.hpp: iterateFreeNeighbors", "include/cslibs_path_planning/generic/Heuristics.hpp: compute", "include/cslibs_path_planning/a_star/AStar.h: planPath", "src/a_star/AStar.cpp: planPath"]}
{"id": "C119", "title": "Reeds-Shepp curves do not depend on the frame of reference", "statement": "In free space, without map costs and with a maximum arc of more than four full turns: if find_path finds a curve between two poses whose motion is one of those of C67 (turn - straight - turn with circles that do not overlap, three turns, four turns with more than 60 degrees on the middle ones; all turns nonzero), then between the same two poses shifted, turned and mirrored it finds one as well, and the two cost the same; in the mirror with the mirrored patterns. From the goal back to the start it finds a curve of the same cost if the patterns are reversed and the factors for driving forward and backward exchanged. The maps may differ in resolution as long as the radius is the same in cells, and either generator may have been used before.", "quantifier": "all poses, frames of reference, radii, cost factors, pattern sets, resolutions, states of the generators", "why_tests_cant": "the inputs are pairs of real poses (a continuum)", "anchors": ["src/ReedsShepp/CurveGenerator.cpp: find_path", "src/ReedsShepp/Curve.cpp: check_if_admissible", "src/ReedsShepp/CircleSegment.cpp: weight", "src/ReedsShepp/LineSegment.cpp: weight"]}
{"id": "C120", "title": "Steering searches on a map that changes during the search", "statement": "If the intermission callback of findPath changes cells of the map between two expansions of a search with a steering neighbourhood, the search still ends without undefined behaviour, and throws only as it would on a fixed map (start or goal outside of the padded map, or a step accepted at some moment leads onto its outermost left or bottom line). A returned path begins at the start pose; each of its steps was accepted by the map of some moment at which the search looked, no two by that of the same moment, and drives as the vehicle model says, from the pose before or from another reachable pose of the same state, and the goal test holds at its end. If the search returns the empty path without a time limit, then the poses it has seen form a dead end for all steps that the maps of all moments accept. A step that has been judged is not looked at again: a returned path may contain steps that the map at the end of the search forbids. A callback that changes nothing changes nothing. Without heuristic, if the callback only adds obstacles, every step of a returned path begins at the pose before it and is free on the map of the beginning; if it removes obstacles this is lost: a path may contain a step that no map has.", "quantifier": "all maps, histories of cell changes, start and goal poses, vehicle parameters, open lists", "why_tests_cant": "the claim ranges over every interleaving of any number of threads, which a test run cannot force", "anchors": ["include/cslibs_path_planning/generic/SearchAlgorithm.hpp: findPathImp", "include/cslibs_path_planning/generic/SteeringNeighborhood.hpp: iterateFreeNeighbors", "include/cslibs_path_planning/generic/DynamicSteeringNeighborhood.h: iterateFreeNeighbors"]}
{"id": "C121", "title": "Steering searches with Reeds-Shepp expansion on a map that changes during the search", "statement": "If the intermission callback of findPath changes cells of the map between two iterations of a steering search with Reeds-Shepp expansion, the search still ends, whatever searches ran before. It ends exactly as the search without expansion on the changing map, or it returns a path whose last part is a forward motion 'turn, straight, turn' to the goal pose whose cells are free on the map as it is in the last iteration, preceded by at least one step of the neighbourhood; each of those steps was accepted by the map of some iteration (and, without heuristic and if the callback only adds obstacles, begins at the pose before it). Undefined behaviour is possible only if, on the map of the last iteration, such a motion leads from the start pose itself to the goal. The steps before the motion are not tested again: they may be forbidden by the very map that accepted the motion. A callback that changes nothing changes nothing.", "quantifier": "all maps, histories of cell changes, start and goal poses, vehicle parameters, open lists, earlier searches of the process", "why_tests_cant": "the claim ranges over every interleaving of any number of threads, which a test run cannot force", "anchors": ["include/cslibs_path_planning/generic/SearchAlgorithm.hpp: findPathImp", "include/cslibs_path_planning/generic/SearchAlgorithm.hpp: hasPoseBeenReached", "include/cslibs_path_planning/generic/ReedsSheppExpansion.hpp: canExpand", "include/cslibs_path_planning/generic/DynamicSteeringNeighborhood.h: iterateFreeNeighbors"]}
{"id": "C122", "title": "Searches with the user's goal test on a map that changes during the search", "statement": "If the intermission callback of findPath(from, goal_test, intermission) changes cells of the map between two iterations of a steering search, the search still ends without undefined behaviour, whatever the goal test does; it throws only for a start outside the map or when a step accepted by the map of some moment leads onto the outermost lines. A returned path begins at the start pose (whose cell was not occupied at the beginning), each of its steps was accepted by the map of some iteration, no two by that of the same, and it ends at a pose the test handed to the search, or in the state of one; without heuristic, and if the callback only adds obstacles, it can be driven as it is on the map of the beginning and its last pose itself was accepted. An empty result, without time limit, means that the poses reached cannot be left by steps that the maps of all iterations accept, and that none of them is one the test always accepts: so a goal in a corridor that stays free is found whatever else changes. A callback that changes nothing changes nothing.", "quantifier": "all maps, histories of cell changes, goal tests, start poses, vehicle parameters, open lists", "why_tests_cant": "the claim ranges over every interleaving of any number of threads, which a test run cannot force", "anchors": ["include/cslibs_path_planning/generic/SearchAlgorithm.hpp: findPath", "include/cslibs_path_planning/generic/SearchAlgorithm.hpp: findPathImp", "include/cslibs_path_planning/generic/DynamicSteeringNeighborhood.h: iterateFreeNeighbors"]}
{"id": "C123", "title": "Node searches with the user's goal test on a map that changes during the search", "statement": "If the intermission callback of findPath(from, goal_test, intermission) changes cells of the map between two iterations of a grid search (A* or Dijkstra, 4- or 8-neighbourhood), the search still ends normally, whatever the goal test answers. The result is empty, or a path whose steps go to neighbouring cells that were free on the map at distinct moments of the search, to a node the test accepted, of smallest weight among the accepted ones; getPathCandidates lists one such path for each accepted node in the order of weights. If the test stops the search only at nodes it accepts, an empty result (without time limit) means that no node the test always accepts could be reached on cells that were free all the time. A search for a region with the priority queue returns a path at least as short as every path into the region that was free all the time, for every heuristic goal. A callback that changes nothing changes nothing.", "quantifier": "all graphs and grid maps, histories of changes, goal tests, weights, start nodes and open lists", "why_tests_cant": "the claim ranges over every interleaving of any number of threads, which a test run cannot force", "anchors": ["include/cslibs_path_planning/generic/SearchAlgorithm.hpp: findPath", "include/cslibs_path_planning/generic/SearchAlgorithm.hpp: findPathImp", "include/cslibs_path_planning/generic/SearchAlgorithm.hpp: getPathCandidates", "include/cslibs_path_planning/generic/DirectNeighborhood.hpp: iterateFreeNeighbors"]}
{"id": "C124", "title": "The intermission callback over the searches of a program", "statement": "The callback given to findPath does not change the result of a search unless it changes the map. The calls are counted over the whole program, not per search: all searches with the same INTERMISSION_N_STEPS = n > 0 and INTERMISSION_START_STEPS, on whatever objects, maps and neighbourhoods, share one counter. A search makes one call per expansion, except at the node it ends at; after k earlier calls it invokes its callback at exactly those of its calls whose overall number is at most max(1, start) or exceeds it by a multiple of n. So among n calls in a row (after the first ones) exactly one invokes the callback, m calls invoke it floor(m/n) times or once more; only the first searches of the program show the promised start, and a later search with fewer calls than are missing until the next multiple of n never invokes its callback. With n = 0 no search invokes it.", "quantifier": "all sequences of searches in a program (searches between poses, with goal tests and with steering neighbourhoods), all n and start values", "why_tests_cant": "the claim ranges over every history of calls on one object; a stale member shows only after particular sequences", "anchors": ["include/cslibs_path_planning/generic/Intermission.hpp: CallbackIntermission::call", "include/cslibs_path_planning/generic/SearchAlgorithm.hpp: findPath", "include/cslibs_path_planning/generic/SearchAlgorithm.hpp: findPathImp"]}
{"id": "C125", "title": "The distance transformation and the obstacle heuristic with double", "statement": "With every operation of the distance transformation rounded (additions and sqrt(2), binary64), on every map with fewer than 2^51 interior cells: the while(change) loop ends, after at most (w-2)(h-2)+1 rounds, so rounding never keeps it running; afterwards exactly the occupied cells other than the goal have infinite cost, exactly the free cells no walk through free interior cells leads to keep the largest double, and every other cost is the length of a shortest walk up to a relative error of 2^-52 for each interior cell and one more. If a walk connects start and goal, the path found over the 8 neighbours ends at the goal, uses only free interior cells (and the goal), repeats none and is at most sqrt(2) times as long as the walk, up to 2^-51 per interior cell: the rounded costs fall strictly along it. The obstacle heuristic with padding is infinite exactly where the (shifted) cell is occupied, 0 where no walk leads, and otherwise the length of a shortest walk in metres up to the same relative error and one more.", "quantifier": "all maps, sizes, goals, starts, resolutions and paddings; every rounding to nearest of binary64, whatever it does with ties", "why_tests_cant": "the claim ranges over every map of every size", "anchors": ["include/cslibs_path_planning/generic/DistanceTransformation.hpp: findPathImp", "include/cslibs_path_planning/generic/DistanceTransformation.hpp: backtrack", "include/cslibs_path_planning/generic/Heuristics.hpp: HeuristicHolonomicObstacles::setMap", "include/cslibs_path_planning/generic/Heuristics.hpp: HeuristicHolonomicObstacles::compute"]}
{"id": "C126", "title": "Searching again on a map that was changed", "statement": "After setMap and any number of searches on the same object, with the map written to between the searches and by their callbacks (setMap not being called again), every further search ends without undefined behaviour. Its result is empty, or a walk from its own start into its own goal region along neighbours free in a map this very search could see (so, if the map rests meanwhile, free now), on which every node is reached at a strictly smaller cost than the one left there by the searches before; on a map that rests during the search, without a time limit, a path is found exactly if such a walk exists. Stored costs never grow and are costs of walks over the maps seen. In particular planning again from the same cell finds nothing, whatever was occupied or freed elsewhere, unless a cell within one step of the start was freed: a goal made reachable by removing an obstacle is not found until setMap is called.", "quantifier": "every graph, sequence of maps, searches and options, cut-off point, open list policy", "why_tests_cant": "the claim ranges over every history of calls on one object; a stale member shows only after particular sequences", "anchors": ["include/cslibs_path_planning/generic/SearchAlgorithm.hpp: setMap, init, initStartPose, findPathImp, processNeighbor, backtrack, getPathCandidates"]}
{"id": "C127", "title": "The distance transformation is a metric and agrees with A*", "statement": "The values left by the distance transformation for a goal (exact arithmetic) are zero at the goal only, the same from g to v as from v to g, and obey the triangle inequality; between touching free cells off the border they differ by at most the length of the step (a consistent heuristic). Removing obstacles lets no value grow. On a turned, mirrored or shifted copy of the map the moved cells get the same values. On the same map A* (eight neighbours, Euclidean distance) finds a path from every free cell whose value is finite, never longer than the value; if the border of the map is occupied, it finds one exactly there, its length completed by the goal cell is the value, and the obstacle heuristic (no padding) is exactly what A* will find.", "quantifier": "every map, size, goal, motion of the grid, open list", "why_tests_cant": "the claim ranges over every map of every size", "anchors": ["include/cslibs_path_planning/generic/DistanceTransformation.hpp: findPath", "include/cslibs_path_planning/generic/Heuristics.hpp: HeuristicHolonomicObstacles::setMap, compute", "include/cslibs_path_planning/generic/SearchAlgorithm.hpp: findPath"]}
{"id": "C128", "title": "More time never loses a path", "statement": "Two runs of the same search, the second with a longer time limit (or none, or on a faster machine). A limit that passes only after the other run would have ended has no effect at all. Without goal candidates the run with the shorter limit returns either exactly what the other returns, leaving the same state, or no path - for searches between poses on whatever stored costs, for steering searches and with an analytic expansion. With goal candidates, an acceptance test, or a goal test of the user, a path found under the shorter limit is never lost, though it may be replaced; when every candidate is collected it is replaced only by one whose end is at least as near a goal. With a limit that has already passed nothing is expanded.", "quantifier": "every map, costs, open list, history of the object and pair of moments at which the limits strike", "why_tests_cant": "the claim ranges over every interleaving of any number of threads, which a test run cannot force", "anchors": ["include/cslibs_path_planning/generic/SearchAlgorithm.hpp: findPathImp, setTimeLimit, hasPoseBeenReached, addGoalCandidate"]}
{"id": "C129", "title": "setTimeLimit does what it says", "statement": "setTimeLimit(s) with s <= 0 means no limit. With s > 0: no node is expanded in a round whose clock reading is s seconds or more after the beginning (if the k-th reading is, at most k nodes are expanded); 'no path' instead of a path is returned only if a reading was later than one millisecond before the limit; with a larger s, or none, and clock readings that are not later, the result is the same or a path instead of no path, also for steering searches with and without an analytic expansion (which is not tried either after the limit), and with a goal test of the user a path stays a path. Limits are cut off to milliseconds: below 0.001 every search returns no path without expanding anything. No overflow up to 7e9 seconds (clock between 0 and 2e18 ns); the call is undefined behaviour exactly if the whole milliseconds of the limit, in nanoseconds, added to the clock reading (or to 0 if that is negative) reach 2^63, for example for infinity.", "quantifier": "every limit, sequence of clock readings, map, costs, open list, stored costs", "why_tests_cant": "the claim ranges over every interleaving of any number of threads, which a test run cannot force", "anchors": ["include/cslibs_path_planning/generic/SearchAlgorithm.hpp: setTimeLimit, findPathImp, time_limit_, stamp_abort_"]}
{"id": "C130", "title": "Planning again from the same pose", "statement": "findPath can be called again with the same start pose on the same object: it finds a path whenever there is one. (False of the code for steering searches, for every map: after setMap and one search that has expanded its start nodes - in particular after any search that failed without a time limit - every further search from that start pose returns no path, without an exception, for every goal that is not met at the start itself, whether that goal can be reached or not, and whatever other searches are run in between, until setMap is called again.)", "quantifier": "every map, neighbourhood, goals, costs, heuristic, open list, time limits, searches in between", "why_tests_cant": "the claim ranges over every history of calls on one object; a stale member shows only after particular sequences", "anchors": ["include/cslibs_path_planning/generic/SearchAlgorithm.hpp: findPath, findPathPose, initStartPose, processNeighbor", "include/cslibs_path_planning/generic/MapManager.hpp: setMap", "include/cslibs_path_planning/generic/SteeringNeighborhood.hpp: iterateFreeNeighbors", "include/cslibs_path_planning/generic/DynamicSteeringNeighborhood.h: iterateFreeNeighbors"]}
