import Verif.Model.DistTrans
import Verif.Model.Float

/-!
# Model of the distance transformation in rounded arithmetic

The two-pass relaxation of `DistanceTransformationSearch` and `HeuristicHolonomicObstacles` once more, over any type `R`
of finite costs: `one` and `diag` are the values of the C++ expressions `1.0` and `sqrt(2)`, `+` is the addition of the
processor.  With `R = F.D` (`Model/Float.lean`) this is the code in floating point; with `R = ℝ` it is `Model/DistTrans`.

As there, a cost is finite, `numeric_limits<double>::max()` or infinity, and adding a step to `max()` gives `max()` again
(in binary64 the sum is rounded back to `max()`).
-/

noncomputable section

namespace PathPlanning.DTR
open DT (Cell cellsFwd cellsBwd)

variable {R : Type} [LinearOrder R] [Add R] [Zero R]

/-- Costs: `fin x < big < inf`. -/
abbrev Val (R : Type) := WithTop (WithTop R)
def fin (x : R) : Val R := ((x : WithTop R) : Val R)
/-- `std::numeric_limits<double>::max()` -/
def big : Val R := ((⊤ : WithTop R) : Val R)
/-- `INFINITY` -/
def inf : Val R := ⊤

/-- The cost array (Heuristics.hpp:321-323, resp. the `distance` fields of the nodes). -/
abbrev Costs (R : Type) := Cell → Val R

/-- The four neighbours read in the forward sweep (DistanceTransformation.hpp:106-109, Heuristics.hpp:365-368). -/
def offsFwd (one diag : R) : List (Cell × R) :=
  [((-1, 0), one), ((-1, -1), diag), ((0, -1), one), ((1, -1), diag)]
/-- The four neighbours read in the backward sweep (DistanceTransformation.hpp:139-142, Heuristics.hpp:386-389). -/
def offsBwd (one diag : R) : List (Cell × R) :=
  [((1, 0), one), ((-1, 1), diag), ((0, 1), one), ((1, 1), diag)]

/-- `std::min(d1, std::min(d2, std::min(d3, d4)))`. -/
def dmin (offs : List (Cell × R)) (c : Costs R) (v : Cell) : Val R :=
  (offs.map fun o => c (v.1 + o.1.1, v.2 + o.1.2) + fin o.2).foldr min inf

/-- One cell of a sweep (DistanceTransformation.hpp:100-122 and 133-152, Heuristics.hpp:361-376 and 382-397); the flag is
`change`. -/
def relaxCell (offs : List (Cell × R)) (s : Costs R × Bool) (v : Cell) : Costs R × Bool :=
  if s.1 v = inf then s
  else if dmin offs s.1 v < s.1 v then (Function.update s.1 v (dmin offs s.1 v), true)
  else s

/-- One round of the `while(change)` loop. -/
def pass (one diag : R) (w h : Nat) (c : Costs R) : Costs R × Bool :=
  (cellsBwd w h).foldl (relaxCell (offsBwd one diag)) ((cellsFwd w h).foldl (relaxCell (offsFwd one diag)) (c, false))

/-- The `while(change)` loop (DistanceTransformation.hpp:93-158, Heuristics.hpp:354-400) limited to a number of rounds;
`none` = it needs more. -/
def loop (one diag : R) (w h : Nat) : Nat → Costs R → Option (Costs R)
  | 0, _ => none
  | n + 1, c => let r := pass one diag w h c; if r.2 then loop one diag w h n r.1 else some r.1

/-- Initialisation (DistanceTransformation.hpp:81-91, Heuristics.hpp:340-350). -/
def init (occ : Cell → Bool) (goal : Cell) : Costs R :=
  Function.update (fun v => if occ v then inf else big) goal (fin 0)

/-- The inner loop of `backtrack` (DistanceTransformation.hpp:170-182). -/
def bestNb (w h : Nat) (nbs : List Cell) (c : Costs R) (cur : Cell) : Cell :=
  nbs.foldl (fun best o =>
    let xx := cur.1 + o.1
    let yy := cur.2 + o.2
    if 0 ≤ xx ∧ 0 ≤ yy ∧ xx < w ∧ yy < h then
      if c (xx, yy) < c best then (xx, yy) else best
    else best) cur

/-- `backtrack` (DistanceTransformation.hpp:163-194); `none` = out of fuel. -/
def backtrack (w h : Nat) (nbs : List Cell) (c : Costs R) (goal : Cell) : Nat → Cell → Option (List Cell)
  | 0, _ => none
  | n + 1, cur =>
    if cur = goal then some [cur]
    else
      let best := bestNb w h nbs c cur
      if best = cur then some [cur]
      else (backtrack w h nbs c goal n best).map (cur :: ·)

/-- `HeuristicHolonomicObstacles::compute` (Heuristics.hpp:303-315), once the costs are set; `none` as result is an
infinite `h`. -/
def holoCompute [Mul R] (padding : Nat) (c : Costs R) (res : R) (v : Cell) : Option R :=
  match c (v.1 + padding, v.2 + padding) with
  | ⊤ => none
  | ((x : WithTop R) : Val R) =>
    match x with
    | ⊤ => some 0
    | ((y : R) : WithTop R) => some (y * res)

/-- The transformation in the floating point format `F`: `1.0` and `sqrt(2)` (rounded) as lengths of steps. -/
def loopF (F : Fmt) (w h : Nat) (rounds : Nat) (occ : Cell → Bool) (goal : Cell) : Option (Costs F.D) :=
  loop (F.rd 1) (sqrt2F F) w h rounds (init occ goal)

/-- The `costs` array after `HeuristicHolonomicObstacles::setMap` (Heuristics.hpp:325-401) in the format `F`. -/
def holoF (F : Fmt) (W H padding : Nat) (occ : Cell → Bool) (goal : Cell) (rounds : Nat) : Option (Costs F.D) :=
  loopF F (W + 2 * padding) (H + 2 * padding) rounds occ (goal.1 + padding, goal.2 + padding)

end PathPlanning.DTR
