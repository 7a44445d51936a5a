import Verif.Spec.DistTrans

/-!
# Specification: length of a shortest walk on the 8-connected grid
-/

namespace PathPlanning.Spec

/-- `L` is the length of a shortest walk from `goal` to `v` through cells with `ok`. -/
def ShortestWalk (ok : Int × Int → Prop) (goal v : Int × Int) (L : ℝ) : Prop :=
  Walk ok goal v L ∧ ∀ L', Walk ok goal v L' → L ≤ L'

/-- No walk at all leads to `v`. -/
def NoWalk (ok : Int × Int → Prop) (goal v : Int × Int) : Prop := ∀ L, ¬ Walk ok goal v L

/-- The cells a walk may use: free and not on the border of the `w × h` array. -/
def FreeInterior (w h : Nat) (occ : Int × Int → Bool) (v : Int × Int) : Prop := Interior w h v ∧ occ v = false

/-- Sum of the exact lengths of the steps of a path of cells. -/
noncomputable def cellsLen : List (Int × Int) → ℝ
  | u :: v :: l => stepLen u v + cellsLen (v :: l)
  | _ => 0

end PathPlanning.Spec
