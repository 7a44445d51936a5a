import Verif.Spec.Geom

/-!
# Lines, segments, circles and arcs as point sets
-/

noncomputable section

namespace PathPlanning.Spec

/-- The point `a + t (b - a)`. -/
def lerp (a b : P2) (t : ℝ) : P2 := ⟨a.x + t * (b.x - a.x), a.y + t * (b.y - a.y)⟩

/-- `p` lies on the infinite line through `a` and `b`. -/
def OnLine (a b p : P2) : Prop := ∃ t : ℝ, p = lerp a b t

/-- `p` lies on the segment from `a` to `b`. -/
def OnSeg (a b p : P2) : Prop := ∃ t : ℝ, 0 ≤ t ∧ t ≤ 1 ∧ p = lerp a b t

/-- Twice the signed area of the triangle `a b p`: positive iff `p` lies to the left of the line from `a`
to `b`. -/
def leftOf (a b p : P2) : ℝ := (b.x - a.x) * (p.y - a.y) - (b.y - a.y) * (p.x - a.x)

/-- The point of the circle around `c` with radius `r` at angle `φ`. -/
def circPt (c : P2) (r φ : ℝ) : P2 := ⟨c.x + r * Real.cos φ, c.y + r * Real.sin φ⟩

/-- `p` lies on the arc that starts at angle `start` and covers the angle `len` in the direction `dir`
(`1` counter-clockwise, `-1` clockwise). -/
def OnArcS (c : P2) (r : ℝ) (dir : Int) (start len : ℝ) (p : P2) : Prop :=
  ∃ t : ℝ, 0 ≤ t ∧ t ≤ len ∧ p = circPt c r (start + dir * t)

/-- The configuration of a car driving forward along a circle: position at angle `φ`, heading along the
tangent in the direction `dir`. -/
def circHeading (dir : Int) (φ : ℝ) : ℝ := φ + dir * (Real.pi / 2)

/-- The same angle up to whole turns. -/
def AngEq (a b : ℝ) : Prop := ∃ k : Int, a = b + k * (2 * Real.pi)

end PathPlanning.Spec
