import Mathlib.Algebra.Order.Ring.Int

/-!
# What a digital line is (independent of the algorithm)
-/

namespace PathPlanning.Spec

/-- Number of steps of a digital line: the larger of the two coordinate differences. -/
def lineLength (x0 y0 x1 y1 : Int) : Nat := max (x1 - x0).natAbs (y1 - y0).natAbs

/-- Two different cells that touch (8-neighbourhood). -/
def EightAdjacent (p q : Int × Int) : Prop :=
  p ≠ q ∧ |q.1 - p.1| ≤ 1 ∧ |q.2 - p.2| ≤ 1

/-- The cell lies in the bounding box of the two endpoints. -/
def InBox (p q c : Int × Int) : Prop :=
  min p.1 q.1 ≤ c.1 ∧ c.1 ≤ max p.1 q.1 ∧ min p.2 q.2 ≤ c.2 ∧ c.2 ≤ max p.2 q.2

/-- The cell centre deviates by at most half a cell, measured along the minor axis, from the ideal
line through `p` and `q`:  `2·|(c-p) × (q-p)| ≤ max(|Δx|,|Δy|)`. -/
def WithinHalfCell (p q c : Int × Int) : Prop :=
  2 * |(c.1 - p.1) * (q.2 - p.2) - (c.2 - p.2) * (q.1 - p.1)| ≤ max |q.1 - p.1| |q.2 - p.2|

/-- `cells` is a digital line from `p` to `q`: it starts in `p`, ends in `q`, has
`max(|Δx|,|Δy|) + 1` cells, consecutive ones touching, all in the bounding box and within half a cell
of the ideal line. -/
structure DigitalLine (p q : Int × Int) (cells : List (Int × Int)) : Prop where
  first : cells.head? = some p
  last : cells.getLast? = some q
  length : cells.length = lineLength p.1 p.2 q.1 q.2 + 1
  chain : cells.IsChain EightAdjacent
  box : ∀ c ∈ cells, InBox p q c
  near : ∀ c ∈ cells, WithinHalfCell p q c

end PathPlanning.Spec
