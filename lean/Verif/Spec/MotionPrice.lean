import Verif.Spec.MotionClear

/-!
# Specification: what a motion costs on a map with cell costs

With map costs, an element of a motion costs what the cells cost over which it leads, each at least the minimum, times the
factors of its direction and kind, divided by the size of a cell.  Where the car is at the beginning of an element is
computed by driving the elements before it.
-/

noncomputable section

namespace PathPlanning.Spec

open RS

/-- Seen from (the cell of) the centre of the turn, the car is in the direction of cell `c` at some point of the turn by the
angle `a` to the side `o`, beginning at `q`. -/
def TurnPasses (r : ℝ) (q : Pose) (o : Ori) (d : Dir) (a : ℝ) (c : Int × Int) : Prop :=
  ∃ s ρ : ℝ, 0 ≤ s ∧ s ≤ a ∧ 0 < ρ ∧
    ((c.1 - truncC (turnCentre r o q).x : Int) : ℝ) = ρ * ((drive r q (.turn o d) s).x - (turnCentre r o q).x) ∧
    ((c.2 - truncC (turnCentre r o q).y : Int) : ℝ) = ρ * ((drive r q (.turn o d) s).y - (turnCentre r o q).y)

/-- The cells that are paid for an element driven from `q`.  A straight: those cells of a digital line between the cells of its
ends that are in the map.  A turn: the cells of the raster circle that are in the map and in whose direction the car is at
some point of the turn, each once. -/
inductive PaidCells (map : MapIf) (r : ℝ) (q : Pose) : Elem → ℝ → List (Int × Int) → Prop
  | straight {d : Dir} {a : ℝ} {line : List (Int × Int)} :
      DigitalLine (truncC q.x, truncC q.y)
        (truncC (drive r q (.straight d) a).x, truncC (drive r q (.straight d) a).y) line →
      PaidCells map r q (.straight d) a (line.filter fun c => map.inMap c.1 c.2)
  | turn {o : Ori} {d : Dir} {a : ℝ} {cells : List (Int × Int)} : cells.Nodup →
      (∀ c, c ∈ cells ↔ RingCell (truncC r) (truncC (turnCentre r o q).x, truncC (turnCentre r o q).y) c ∧
        map.inMap c.1 c.2 = true ∧ TurnPasses r q o d a c) →
      PaidCells map r q (.turn o d) a cells

/-- The factors of an element. -/
def elemFactor (k : CostFactors) : Elem → ℝ
  | .straight d => k.ofDir d * k.straight
  | .turn _ d => k.ofDir d * k.curve

/-- The price of a list of cells, each at least `m`. -/
def cellsPrice (map : MapIf) (m : Nat) (cells : List (Int × Int)) : ℝ :=
  (cells.map fun c => ((max m (map.value c.1 c.2) : Nat) : ℝ)).sum

/-- The price of a motion from `q`. -/
inductive MotionPrice (map : MapIf) (k : CostFactors) (m : Nat) (r : ℝ) : Pose → List (Elem × ℝ) → ℝ → Prop
  | nil {q : Pose} : MotionPrice map k m r q [] 0
  | cons {q : Pose} {e : Elem} {a : ℝ} {rest : List (Elem × ℝ)} {cells : List (Int × Int)} {w : ℝ} :
      PaidCells map r q e a cells → MotionPrice map k m r (drive r q e a) rest w →
      MotionPrice map k m r q ((e, a) :: rest) (elemFactor k e * cellsPrice map m cells / map.res + w)

end PathPlanning.Spec
