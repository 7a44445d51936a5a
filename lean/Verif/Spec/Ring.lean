import Mathlib.Algebra.Order.Ring.Int

/-!
# What a digital circle is (independent of the algorithm)
-/

namespace PathPlanning.Spec

/-- The cell `p` belongs to the digital circle of radius `r` about the cell `c`.  With `a ≥ b` the
absolute coordinate differences: `(a,b)` is the outermost cell of its row with `a² + b² < r² + r`
(that is, closer to the centre than about `r + 1/2`). -/
def RingCell (r : Int) (c p : Int × Int) : Prop :=
  let a := max |p.1 - c.1| |p.2 - c.2|
  let b := min |p.1 - c.1| |p.2 - c.2|
  a ^ 2 + b ^ 2 < r ^ 2 + r ∧ r ^ 2 + r ≤ (a + 1) ^ 2 + b ^ 2

end PathPlanning.Spec
