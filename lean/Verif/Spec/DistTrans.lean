import Verif.Model.DistTrans

/-!
# Specification: walks on the 8-connected grid
-/

namespace PathPlanning.Spec

/-- Two different cells touching in a side or a corner. -/
def Touch (u v : Int × Int) : Prop := u ≠ v ∧ |u.1 - v.1| ≤ 1 ∧ |u.2 - v.2| ≤ 1

/-- Length of a step between touching cells: 1 straight, `√2` diagonal. -/
noncomputable def stepLen (u v : Int × Int) : ℝ := if u.1 = v.1 ∨ u.2 = v.2 then 1 else Real.sqrt 2

/-- Not on the border of the `w × h` array. -/
def Interior (w h : Nat) (v : Int × Int) : Prop := 1 ≤ v.1 ∧ v.1 + 1 < w ∧ 1 ≤ v.2 ∧ v.2 + 1 < h

/-- There is a walk of length `L` from `goal` to the cell, all cells of which (after `goal`) satisfy `ok`. -/
inductive Walk (ok : Int × Int → Prop) (goal : Int × Int) : Int × Int → ℝ → Prop
  | nil : Walk ok goal goal 0
  | snoc {u v : Int × Int} {L : ℝ} (hw : Walk ok goal u L) (ht : Touch u v) (hv : ok v) :
      Walk ok goal v (L + stepLen u v)

end PathPlanning.Spec
