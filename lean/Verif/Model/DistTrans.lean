import Verif.Prelude
import Mathlib.Analysis.SpecialFunctions.Sqrt
import Mathlib.Order.WithBot
import Mathlib.Algebra.Order.Monoid.Unbundled.WithTop

/-!
# Model of the distance transformation

`DistanceTransformationSearch` (generic/DistanceTransformation.hpp) and `HeuristicHolonomicObstacles`
(generic/Heuristics.hpp:289-401) contain the same two-pass relaxation.

A cost is a finite real, `numeric_limits<double>::max()` (a free cell not reached yet) or infinity (an occupied cell).
Finite costs are exact reals; adding 1 or `sqrt(2)` to `max()` gives `max()` again (rounding), which is what `⊤ + a = ⊤`
says below.
-/

noncomputable section

namespace PathPlanning.DT

abbrev Cell := Int × Int

/-- Costs: `fin x < big < inf`. -/
abbrev Val := WithTop (WithTop ℝ)
def fin (x : ℝ) : Val := ((x : WithTop ℝ) : Val)
/-- `std::numeric_limits<double>::max()` -/
def big : Val := ((⊤ : WithTop ℝ) : Val)
/-- `INFINITY` -/
def inf : Val := ⊤

/-- The cost array (`costs[r * w + c]`, Heuristics.hpp:321-323, resp. the `distance` fields of the nodes), as a function
of column and row; only cells of the `w × h` array are ever accessed. -/
abbrev Costs := Cell → Val

/-- The four neighbours read in the forward sweep, in the order of the code, with their distances
(DistanceTransformation.hpp:106-109, Heuristics.hpp:365-368). -/
def offsFwd : List (Cell × ℝ) :=
  [((-1, 0), 1), ((-1, -1), Real.sqrt 2), ((0, -1), 1), ((1, -1), Real.sqrt 2)]
/-- The four neighbours read in the backward sweep (DistanceTransformation.hpp:139-142, Heuristics.hpp:386-389). -/
def offsBwd : List (Cell × ℝ) :=
  [((1, 0), 1), ((-1, 1), Real.sqrt 2), ((0, 1), 1), ((1, 1), Real.sqrt 2)]

/-- `std::min(d1, std::min(d2, std::min(d3, d4)))`. -/
def dmin (offs : List (Cell × ℝ)) (c : Costs) (v : Cell) : Val :=
  (offs.map fun o => c (v.1 + o.1.1, v.2 + o.1.2) + fin o.2).foldr min inf

/-- One cell of a sweep (DistanceTransformation.hpp:100-122 and 133-152, Heuristics.hpp:361-376 and 382-397); the flag is
`change`. -/
def relaxCell (offs : List (Cell × ℝ)) (s : Costs × Bool) (v : Cell) : Costs × Bool :=
  if s.1 v = inf then s
  else if dmin offs s.1 v < s.1 v then (Function.update s.1 v (dmin offs s.1 v), true)
  else s

/-- The cells of the forward sweep: `row = 1 .. h-2`, `col = 1 .. w-2` (DistanceTransformation.hpp:98-99,
Heuristics.hpp:359-360; for `w, h ≥ 1`: with unsigned arithmetic `h - 1` wraps around for `h = 0`). -/
def cellsFwd (w h : Nat) : List Cell :=
  (List.range (h - 2)).flatMap fun (r : Nat) => (List.range (w - 2)).map fun (c : Nat) => ((c : Int) + 1, (r : Int) + 1)

/-- The cells of the backward sweep: `row = h-2 .. 1`, `col = w-2 .. 1` (DistanceTransformation.hpp:131-132,
Heuristics.hpp:380-381). -/
def cellsBwd (w h : Nat) : List Cell :=
  (List.range (h - 2)).reverse.flatMap fun (r : Nat) => (List.range (w - 2)).reverse.map fun (c : Nat) => ((c : Int) + 1, (r : Int) + 1)

/-- One round of the `while(change)` loop. -/
def pass (w h : Nat) (c : Costs) : Costs × Bool :=
  (cellsBwd w h).foldl (relaxCell offsBwd) ((cellsFwd w h).foldl (relaxCell offsFwd) (c, false))

/-- The `while(change)` loop (DistanceTransformation.hpp:93-158, Heuristics.hpp:354-400); `none` = out of fuel. -/
def loop (w h : Nat) : Nat → Costs → Option Costs
  | 0, _ => none
  | n + 1, c => let r := pass w h c; if r.2 then loop w h n r.1 else some r.1

/-- Initialisation: `max()` for the cells that are not occupied, infinity for the others, 0 for the goal
(DistanceTransformation.hpp:81-91, Heuristics.hpp:340-350). -/
def init (occ : Cell → Bool) (goal : Cell) : Costs :=
  Function.update (fun v => if occ v then inf else big) goal (fin 0)

/-! ### Back-tracking -/

/-- The neighbours in the order of `DirectNeighborhood<8,1>` (DirectNeighborhood.hpp:131-170). -/
def nb8 : List Cell := [(-1, -1), (0, -1), (1, -1), (-1, 0), (1, 0), (-1, 1), (0, 1), (1, 1)]
/-- The neighbours in the order of `DirectNeighborhood<4,1>` (DirectNeighborhood.hpp:96-113). -/
def nb4 : List Cell := [(-1, 0), (0, -1), (1, 0), (0, 1)]

/-- The inner loop of `backtrack` (DistanceTransformation.hpp:170-182): the neighbour with the smallest cost, the first
one among equals, or the cell itself. -/
def bestNb (w h : Nat) (nbs : List Cell) (c : Costs) (cur : Cell) : Cell :=
  nbs.foldl (fun best o =>
    let xx := cur.1 + o.1
    let yy := cur.2 + o.2
    if 0 ≤ xx ∧ 0 ≤ yy ∧ xx < w ∧ yy < h then
      if c (xx, yy) < c best then (xx, yy) else best
    else best) cur

/-- `backtrack` (DistanceTransformation.hpp:163-194), the path from `cur` on; `none` = out of fuel. -/
def backtrack (w h : Nat) (nbs : List Cell) (c : Costs) (goal : Cell) : Nat → Cell → Option (List Cell)
  | 0, _ => none
  | n + 1, cur =>
    if cur = goal then some [cur]
    else
      let best := bestNb w h nbs c cur
      if best = cur then some [cur]
      else (backtrack w h nbs c goal n best).map (cur :: ·)

/-! ### `HeuristicHolonomicObstacles` -/

/-- The `costs` array after `setMap` (Heuristics.hpp:325-401), if the loop ends: `W × H` is the size of the map,
`padding` that of the manager, `occ` the manager's `isOccupied(col, row, 0)`, asked with the *array* coordinates; the
goal is written through `cost__`, which adds the padding. -/
def holoSetMap (W H padding : Nat) (occ : Cell → Bool) (goal : Cell) (fuel : Nat) : Option Costs :=
  loop (W + 2 * padding) (H + 2 * padding) fuel (init occ (goal.1 + padding, goal.2 + padding))

/-- `compute` (Heuristics.hpp:303-315): `costs = none` is the NULL pointer.  `none` as result is an infinite `h`. -/
def holoCompute (padding : Nat) (costs : Option Costs) (res : ℝ) (v : Cell) : Option ℝ :=
  match costs with
  | none => some 0
  | some c =>
    match c (v.1 + padding, v.2 + padding) with
    | ⊤ => none
    | ((x : WithTop ℝ) : Val) =>
      match x with
      | ⊤ => some 0
      | ((y : ℝ) : WithTop ℝ) => some (y * res)

end PathPlanning.DT
