import Mathlib.Algebra.Order.Floor.Ring

/-!
# Specification of a grid map, independent of the model

A grid map is a width, a height and a function from cells to bytes.
-/

namespace PathPlanning.Spec

/-- A history step on a map. -/
inductive MapOp where
  | write (x y : Nat) (v : UInt8)
  | fill (v : UInt8)
  /-- new content, row-major -/
  | load (rows : List UInt8) (w h : Nat)

/-- The abstract map: a function on cells. -/
structure AbsMap where
  w : Nat
  h : Nat
  cell : Nat → Nat → UInt8

/-- Effect of an operation on the abstract map. -/
def AbsMap.apply (a : AbsMap) : MapOp → AbsMap
  | .write x y v => { a with cell := fun i j => if i = x ∧ j = y then v else a.cell i j }
  | .fill v => { a with cell := fun _ _ => v }
  | .load rows w h => ⟨w, h, fun i j => rows.getD (j * w + i) 0⟩

/-- An operation that the interface allows on the current map: writes address a cell of the map,
loaded data has at least `w*h` bytes, and the number of cells fits 32 bits. -/
def AbsMap.Legal (a : AbsMap) : MapOp → Prop
  | .write x y _ => x < a.w ∧ y < a.h
  | .fill _ => True
  | .load rows w h => w * h ≤ rows.length ∧ w * h < 2 ^ 32

/-- A legal history from a given map. -/
def AbsMap.LegalHistory (a : AbsMap) : List MapOp → Prop
  | [] => True
  | op :: ops => a.Legal op ∧ (a.apply op).LegalHistory ops

/-- The point `(px,py)` lies on the map rectangle: lower edges belong to the map, upper edges
do not. -/
def OnRect {K : Type} [Field K] [LinearOrder K] (ox oy res : K) (w h : Nat) (px py : K) : Prop :=
  ox ≤ px ∧ px < ox + w * res ∧ oy ≤ py ∧ py < oy + h * res

/-- The point lies in the half-open square of cell `(x,y)`. -/
def InCell {K : Type} [Field K] [LinearOrder K] (ox oy res : K) (x y : Nat) (px py : K) : Prop :=
  ox + x * res ≤ px ∧ px < ox + (x + 1) * res ∧ oy + y * res ≤ py ∧ py < oy + (y + 1) * res

end PathPlanning.Spec
