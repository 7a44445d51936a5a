import Verif.Spec.Line
import Mathlib.Analysis.SpecialFunctions.Pow.Real

/-!
# What a route on a grid is
-/

namespace PathPlanning.Spec

/-- `p` is an 8-connected route from `start` to `goal`, all of whose cells except possibly the last
one satisfy `free`. -/
structure IsRoute (free : Int × Int → Prop) (start goal : Int × Int) (p : List (Int × Int)) :
    Prop where
  first : p.head? = some start
  last : p.getLast? = some goal
  steps : p.IsChain EightAdjacent
  free : ∀ c ∈ p.dropLast, free c

/-- Euclidean distance of two cell centres, in cells. -/
noncomputable def cellDist (a b : Int × Int) : ℝ :=
  Real.sqrt (((a.1 : ℝ) - b.1) ^ 2 + ((a.2 : ℝ) - b.2) ^ 2)

/-- Euclidean length of a sequence of cells. -/
noncomputable def routeLength : List (Int × Int) → ℝ
  | [] => 0
  | [_] => 0
  | a :: b :: rest => cellDist a b + routeLength (b :: rest)

end PathPlanning.Spec
