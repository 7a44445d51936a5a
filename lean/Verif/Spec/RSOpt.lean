import Verif.Spec.ReedsShepp

/-!
# Specification: what a motion costs

Written from the meaning of the settings of the curve generator (cost factors for forward, backward,
curved and straight driving), without reference to how curves are computed.
-/

noncomputable section

namespace PathPlanning.Spec

open RS (Dir Ori)

/-- The centre of the circle on which a car at `q` turns to the side `o` with radius `r`. -/
def turnCentre (r : ℝ) (o : Ori) (q : Pose) : P2 :=
  ⟨q.x - oriSign o * r * Real.sin q.theta, q.y + oriSign o * r * Real.cos q.theta⟩

/-- Cost factors: forward, backward, curves, straights. -/
structure CostFactors where
  fwd : ℝ
  bwd : ℝ
  curve : ℝ
  straight : ℝ

/-- The factor of a driving direction. -/
def CostFactors.ofDir (k : CostFactors) : Dir → ℝ
  | .fwd => k.fwd
  | .bwd => k.bwd

/-- The cost of one element: driven length times the factors. -/
def elemCost (k : CostFactors) (r : ℝ) : Elem × ℝ → ℝ
  | (.straight d, a) => a * k.ofDir d * k.straight
  | (.turn _ d, a) => a * r * k.ofDir d * k.curve

/-- The cost of a motion. -/
def motionCost (k : CostFactors) (r : ℝ) (ts : List (Elem × ℝ)) : ℝ := (ts.map (elemCost k r)).sum

/-- The motions the generator's curves are compared with, from `start` to `goal` with turning radius
`r`, all turned angles positive:
* turn, straight, turn, if the circles of the first and the last turn do not overlap;
* three turns to alternating sides, if the first and the last centre are at least `2` apart;
* four turns to alternating sides with the driving direction changed in the middle, the same angle
  `u` with `cos u < 1/2` (above 60 degrees) on both middle arcs, and the same condition. -/
inductive Covered (r : ℝ) (start goal : Pose) : List (Elem × ℝ) → Prop
  | csc {o o' : Ori} {d d' d'' : Dir} {t1 L t3 : ℝ} : 0 < t1 → 0 ≤ L → 0 < t3 →
      2 * r ≤ eucl (turnCentre r o start) (turnCentre r o' goal) →
      Covered r start goal [(.turn o d, t1), (.straight d', L), (.turn o' d'', t3)]
  | ccc {o1 o2 o3 : Ori} {d1 d2 d3 : Dir} {t1 t2 t3 : ℝ} : o1 ≠ o2 → o2 ≠ o3 → 0 < t1 → 0 < t2 → 0 < t3 →
      2 ≤ eucl (turnCentre r o1 start) (turnCentre r o3 goal) →
      Covered r start goal [(.turn o1 d1, t1), (.turn o2 d2, t2), (.turn o3 d3, t3)]
  | cccc {o1 o2 o3 o4 : Ori} {d1 d2 d3 d4 : Dir} {t1 u t4 : ℝ} : o1 ≠ o2 → o2 ≠ o3 → o3 ≠ o4 → d2 ≠ d3 →
      0 < t1 → 0 < u → 0 < t4 → Real.cos u < 1 / 2 →
      2 ≤ eucl (turnCentre r o1 start) (turnCentre r o4 goal) →
      Covered r start goal [(.turn o1 d1, t1), (.turn o2 d2, u), (.turn o3 d3, u), (.turn o4 d4, t4)]

end PathPlanning.Spec
