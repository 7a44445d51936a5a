import Verif.Model.Search
import Verif.Model.GridMap
import Mathlib.Analysis.Complex.Norm

/-!
# The generic search on a grid map

Sources: `/repo/include/cslibs_path_planning/generic/DirectNeighborhood.hpp`, `Heuristics.hpp`.
The nodes are the cells of the map (`GridMapManager`, see `Model/MapManager.lean`).
-/

namespace PathPlanning

/-- One direction of a neighbourhood: offset and `delta(i)`. -/
structure Dir (K : Type) where
  dx : Int
  dy : Int
  delta : K

section
variable {K : Type}

/-- `DirectNeighborhood<4, D>`: `dx`, `dy`, `delta` for `i = 0..3` (DirectNeighborhood.hpp:96-116). -/
def dirs4 [IntCast K] (D : Int) : List (Dir K) :=
  [⟨-D, 0, (D : K)⟩, ⟨0, -D, (D : K)⟩, ⟨D, 0, (D : K)⟩, ⟨0, D, (D : K)⟩]

/-- `DirectNeighborhood<8, D>` for `i = 0..7` (DirectNeighborhood.hpp:131-170); `diag` stands for
`M_SQRT2`. -/
def dirs8 [IntCast K] [Mul K] (diag : K) (D : Int) : List (Dir K) :=
  [⟨-D, -D, diag * (D : K)⟩, ⟨0, -D, (D : K)⟩, ⟨D, -D, diag * (D : K)⟩,
   ⟨-D, 0, (D : K)⟩, ⟨D, 0, (D : K)⟩,
   ⟨-D, D, diag * (D : K)⟩, ⟨0, D, (D : K)⟩, ⟨D, D, diag * (D : K)⟩]

/-- `BFSNeighborhood<n, D>` (evaluator.h:32-49): the offsets of `DirectNeighborhood<n, D>`, every `delta(i)` is 1. -/
def bfsDirs [One K] (dirs : List (Dir K)) : List (Dir K) := dirs.map fun d => ⟨d.dx, d.dy, 1⟩

/-- A node of the grid: the cell `(x, y)`. -/
abbrev GNode (w h : Nat) := Fin w × Fin h

/-- The node of the cell `(xx, yy)`: `map.contains(xx, yy)` and `map.lookup(xx, yy)`
(DirectNeighborhood.hpp:52-53, MapManager.hpp:127-129, 202-207). -/
def gridNode (w h : Nat) (xx yy : Int) : Option (GNode w h) :=
  if hc : (0 ≤ xx ∧ xx < w) ∧ (0 ≤ yy ∧ yy < h) then
    some (⟨xx.toNat, by omega⟩, ⟨yy.toNat, by omega⟩)
  else none

/-- `iterateFreeNeighbors` (DirectNeighborhood.hpp:46-63) together with `cost = delta * res`
(SearchAlgorithm.hpp:632-633). -/
def gridSucc [Mul K] {w h : Nat} (free : GNode w h → Bool) (res : K) (dirs : List (Dir K))
    (n : GNode w h) : List (GNode w h × K) :=
  dirs.filterMap fun d =>
    match gridNode w h ((n.1 : Nat) + d.dx) ((n.2 : Nat) + d.dy) with
    | none => none
    | some m => if free m then some (m, d.delta * res) else none

/-- `isGoal` (DirectNeighborhood.hpp:40-43). -/
def gridIsGoal {w h : Nat} (D : Int) (g n : GNode w h) : Bool :=
  decide ((((g.1 : Nat) : Int) - (n.1 : Nat)).natAbs ≤ D) &&
  decide ((((g.2 : Nat) : Int) - (n.2 : Nat)).natAbs ≤ D)

/-- `getDelta` (DirectNeighborhood.hpp:66-81): `delta(i)` of the first direction that leads from `n` to `m`, otherwise
`delta(8)`, which is the value of the last direction (`default:` in `delta`). -/
def gridDelta {w h : Nat} (dirs : List (Dir K)) (last : Dir K) (n m : GNode w h) : K :=
  match dirs.find? fun d =>
      decide (gridNode w h ((n.1 : Nat) + d.dx) ((n.2 : Nat) + d.dy) = some m) with
  | some d => d.delta
  | none => last.delta

/-- The search on a grid with neighbourhood `dirs`, heuristic `heur` and `std::hypot` given as
functions. -/
def gridAlgo [Zero K] [Add K] [Mul K] {w h : Nat} (free : GNode w h → Bool) (res : K)
    (dirs : List (Dir K)) (D : Int) (heur dist : GNode w h → GNode w h → K) :
    Algo (GNode w h) K where
  zero := 0
  add := (· + ·)
  succ := gridSucc free res dirs
  heur := heur
  isGoal := gridIsGoal D
  distTo g n := dist n g

/-- `map.isFree(n)` on a `SimpleGridMap2d` (MapManager.hpp:66-69, 119-121; `theta` is ignored by
that map).  The read is never out of bounds for a consistent map (`Props/GridSearch.lean`). -/
def mapFree (m : GridMap K) (n : GNode m.width m.height) : Bool :=
  decide (m.isFree ⟨n.1, n.2⟩ = .ok true)

end

/-- Difference of two node coordinates, as `double`. -/
noncomputable def dX {w h : Nat} (n g : GNode w h) : ℝ := ((n.1 : Nat) : ℝ) - ((g.1 : Nat) : ℝ)
/-- Difference of two node coordinates, as `double`. -/
noncomputable def dY {w h : Nat} (n g : GNode w h) : ℝ := ((n.2 : Nat) : ℝ) - ((g.2 : Nat) : ℝ)

/-- `NoHeuristic` (Heuristics.hpp:165-180). -/
noncomputable def hZero {w h : Nat} (_n _g : GNode w h) : ℝ := 0

/-- `HeuristicL2::compute` (Heuristics.hpp:191-194). -/
noncomputable def hL2 {w h : Nat} (res : ℝ) (n g : GNode w h) : ℝ :=
  res * Real.sqrt (dX n g ^ 2 + dY n g ^ 2)

/-- `HeuristicL1::compute` (Heuristics.hpp:254-257). -/
noncomputable def hL1 {w h : Nat} (res : ℝ) (n g : GNode w h) : ℝ :=
  res * (|dX n g| + |dY n g|)

/-- `HeuristicLInf::compute` (Heuristics.hpp:274-277). -/
noncomputable def hLInf {w h : Nat} (res : ℝ) (n g : GNode w h) : ℝ :=
  res * max |dX n g| |dY n g|

/-- `HeuristicL2OverEstimate::compute` (Heuristics.hpp:234-237), the exponent 1.2. -/
noncomputable def hL2Over {w h : Nat} (res : ℝ) (pow12 : ℝ → ℝ) (n g : GNode w h) : ℝ :=
  res * pow12 (Real.sqrt (dX n g ^ 2 + dY n g ^ 2))

/-- `MaxHeuristic::compute` (Heuristics.hpp:571-579). -/
noncomputable def hMax {N : Type} (h1 h2 : N → N → ℝ) (n g : N) : ℝ := max (h2 n g) (h1 n g)

/-- `std::hypot(g->x - current->x, g->y - current->y)` (SearchAlgorithm.hpp:593). -/
noncomputable def gridHypot {w h : Nat} (n g : GNode w h) : ℝ :=
  Real.sqrt (dX g n ^ 2 + dY g n ^ 2)

end PathPlanning
