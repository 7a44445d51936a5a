import Verif.Spec.ReedsShepp
import Verif.Spec.RSOpt
import Verif.Spec.Line
import Verif.Spec.Ring
import Verif.Spec.Clearance

/-!
# Specification: a motion of a car whose cells have been tested

Which cells of the map must be free for a motion (straights and turns with radius `r`, from a given pose)
to be accepted.  Stated about the motion itself: where the car is at the beginning of an element is
computed by driving the elements before it.
-/

noncomputable section

namespace PathPlanning.Spec

open RS

/-- One element, driven from pose `q`.

A straight: the cell of its beginning is in the map, and the cells of a digital line from there to the
cell of its end are free as far as they are in the map.

A turn: the cells of the raster circle around the (cell of the) centre of the turn are all in the map, and
those in whose direction the car is, seen from the centre, at some point of the turn are free. -/
def ElemClear (map : MapIf) (r : ℝ) (q : Pose) : Elem → ℝ → Prop
  | .straight d, a =>
    map.inMap (truncC q.x) (truncC q.y) = true ∧
    ∃ cells, DigitalLine (truncC q.x, truncC q.y)
        (truncC (drive r q (.straight d) a).x, truncC (drive r q (.straight d) a).y) cells ∧
      ∀ c ∈ cells, map.inMap c.1 c.2 = true → map.free c.1 c.2 = true
  | .turn o d, a =>
    let z := turnCentre r o q
    ∀ c : Int × Int, RingCell (truncC r) (truncC z.x, truncC z.y) c →
      map.inMap c.1 c.2 = true ∧
      ((∃ s ρ : ℝ, 0 ≤ s ∧ s ≤ a ∧ 0 < ρ ∧
          ((c.1 - truncC z.x : Int) : ℝ) = ρ * ((drive r q (.turn o d) s).x - z.x) ∧
          ((c.2 - truncC z.y : Int) : ℝ) = ρ * ((drive r q (.turn o d) s).y - z.y)) →
        map.free c.1 c.2 = true)

/-- All elements of a motion, each from where the ones before it lead. -/
def MotionClear (map : MapIf) (r : ℝ) : Pose → List (Elem × ℝ) → Prop
  | _, [] => True
  | q, (e, a) :: rest => ElemClear map r q e a ∧ MotionClear map r (drive r q e a) rest

/-- The point is passed when driving the motion from `q`. -/
def OnMotion (r : ℝ) (q : Pose) (ms : List (Elem × ℝ)) (p : P2) : Prop :=
  ∃ pre e a post s, ms = pre ++ (e, a) :: post ∧ 0 ≤ s ∧ s ≤ a ∧ p = (drive r (driveAll r q pre) e s).pt

end PathPlanning.Spec

namespace PathPlanning.Spec

/-- How far, in cells, a car with turning radius `r` (in cells) can be from the nearest of the two ends of a turn, as
long as none of the cells tested for this turn is near it: the length of an arc of `π/(⌊r⌋-1)`, rounded up. -/
def turnGap (r : ℝ) : Int := ⌈Real.pi * r / (⌊r⌋ - 1)⌉

end PathPlanning.Spec
