import Verif.Model.GridMap
import Verif.Spec.GridPath

/-!
# Specification: maps that differ in their cell values
-/

namespace PathPlanning.Spec

/-- The same map with other contents and thresholds: size, resolution and origin stay. -/
def recolour {K : Type} (m : GridMap K) (data : List UInt8) (lower upper : UInt8) (noInfo : Int) : GridMap K :=
  { m with data := data, lower := lower, upper := upper, noInfo := noInfo }

/-- The cells on the map have the same class: free in both or in none, occupied in both or in none. -/
def SameClasses {K : Type} (m m' : GridMap K) : Prop :=
  ∀ x y, x < m.width → y < m.height → m.isFree ⟨x, y⟩ = m'.isFree ⟨x, y⟩ ∧ m.isOccupied ⟨x, y⟩ = m'.isOccupied ⟨x, y⟩

/-- Every free cell of the first map is free on the second. -/
def OnlyFreed {K : Type} (m m' : GridMap K) : Prop :=
  ∀ x y, x < m.width → y < m.height → m.isFree ⟨x, y⟩ = .ok true → m'.isFree ⟨x, y⟩ = .ok true

/-- A path with the cell `g` appended, unless it ends there. -/
def upTo (g : Int × Int) (p : List (Int × Int)) : List (Int × Int) := if p.getLast? = some g then p else p ++ [g]

end PathPlanning.Spec
