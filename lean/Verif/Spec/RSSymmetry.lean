import Verif.Spec.RSOpt

/-!
# Specification: moved, mirrored and reversed motions of a car
-/

noncomputable section

namespace PathPlanning.Spec

open RS (Dir Ori)

/-- Another frame of reference: optionally mirrored at the x axis, then turned by `phi`, then shifted by `(dx, dy)`. -/
structure Frame where
  mirror : Bool
  phi : ℝ
  dx : ℝ
  dy : ℝ

/-- The pose seen from the other frame. -/
def Frame.pose (M : Frame) (q : Pose) : Pose :=
  let s : ℝ := if M.mirror then -1 else 1
  ⟨Real.cos M.phi * q.x - Real.sin M.phi * (s * q.y) + M.dx, Real.sin M.phi * q.x + Real.cos M.phi * (s * q.y) + M.dy, s * q.theta + M.phi⟩

/-- The other side. -/
def otherSide : Ori → Ori
  | .left => .right
  | .right => .left

/-- The other driving direction. -/
def otherDir : Dir → Dir
  | .fwd => .bwd
  | .bwd => .fwd

/-- What a driver does, seen from the other frame: in the mirror left and right are exchanged. -/
def Frame.elem (M : Frame) : Elem → Elem
  | .straight d => .straight d
  | .turn o d => .turn (if M.mirror then otherSide o else o) d

/-- The same element driven back. -/
def backElem : Elem → Elem
  | .straight d => .straight (otherDir d)
  | .turn o d => .turn o (otherDir d)

/-- The elements of a way, driven back: in the opposite order with the opposite driving directions. -/
def backElems (es : List Elem) : List Elem := (es.map backElem).reverse

/-- A motion seen from the other frame. -/
def Frame.motion (M : Frame) (ts : List (Elem × ℝ)) : List (Elem × ℝ) := ts.map fun t => (M.elem t.1, t.2)

/-- A motion driven back. -/
def backMotion (ts : List (Elem × ℝ)) : List (Elem × ℝ) := (ts.map fun t => (backElem t.1, t.2)).reverse

/-- Costs with the factors for forward and backward exchanged. -/
def CostFactors.swapped (k : CostFactors) : CostFactors := ⟨k.bwd, k.fwd, k.curve, k.straight⟩

end PathPlanning.Spec
