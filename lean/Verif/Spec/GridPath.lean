import Mathlib.Analysis.SpecialFunctions.Pow.Real

/-!
# Specification: paths on a grid of cells

Cells are pairs of integers; nothing here mentions the search or its neighbourhood tables.
-/

namespace PathPlanning.Spec

/-- Cells one step of width `D` apart in one of the four axis directions. -/
def Adj4 (D : Int) (u v : Int × Int) : Prop :=
  (|v.1 - u.1| = D ∧ v.2 = u.2) ∨ (v.1 = u.1 ∧ |v.2 - u.2| = D)

/-- Cells one step of width `D` apart in one of the eight king directions. -/
def Adj8 (D : Int) (u v : Int × Int) : Prop :=
  u ≠ v ∧ (v.1 = u.1 ∨ |v.1 - u.1| = D) ∧ (v.2 = u.2 ∨ |v.2 - u.2| = D)

/-- Euclidean distance of two cells, in cells. -/
noncomputable def cellEucl (u v : Int × Int) : ℝ :=
  Real.sqrt (((v.1 - u.1 : Int) : ℝ) ^ 2 + ((v.2 - u.2 : Int) : ℝ) ^ 2)

/-- Length of a path: the Euclidean lengths of its steps added up. -/
noncomputable def gridLen : List (Int × Int) → ℝ
  | u :: v :: l => cellEucl u v + gridLen (v :: l)
  | _ => 0

/-- A path of the robot: starts at `s`, every step is a step of the neighbourhood, every cell
entered lies on the `w × h` map and is free, ends at `t`. -/
structure FreePath (w h : Nat) (free : Int × Int → Prop) (adj : Int × Int → Int × Int → Prop)
    (s t : Int × Int) (p : List (Int × Int)) : Prop where
  head : p.head? = some s
  last : p.getLast? = some t
  chain : p.IsChain adj
  free : ∀ c ∈ p.tail, (0 ≤ c.1 ∧ c.1 < w) ∧ (0 ≤ c.2 ∧ c.2 < h) ∧ free c

/-- Within `D` of the goal in both coordinates. -/
def NearCell (D : Int) (g t : Int × Int) : Prop := |g.1 - t.1| ≤ D ∧ |g.2 - t.2| ≤ D

end PathPlanning.Spec
