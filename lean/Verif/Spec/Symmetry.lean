import Verif.Spec.GridPath

/-!
# Specification: turned, mirrored and shifted maps
-/

namespace PathPlanning.Spec

/-- A quarter turn, mirror image and shift of the cells, or any combination of them: exchange the coordinates, change their signs,
add `(dx, dy)`. -/
structure Motion where
  swap : Bool
  flipX : Bool
  flipY : Bool
  dx : Int
  dy : Int

/-- Where a cell goes. -/
def Motion.act (M : Motion) (c : Int × Int) : Int × Int :=
  let d := if M.swap then (c.2, c.1) else c
  ((if M.flipX then -d.1 else d.1) + M.dx, (if M.flipY then -d.2 else d.2) + M.dy)

/-- The second map is the first one, moved by `M`: the free cells of the second are the images of the free cells of the first.
The sizes may differ, and cells that are not free may be anything, on the map or beside it. -/
def Moved (M : Motion) (free free' : Int × Int → Prop) : Prop := ∀ c, free c ↔ free' (M.act c)

end PathPlanning.Spec
