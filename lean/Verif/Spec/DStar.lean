import Mathlib.Algebra.Group.Defs

/-!
# Specification: walks towards a goal

`step p n c`: one may go from `n` to `p` at cost `c` (`n` is a neighbour of `p`).
-/

namespace PathPlanning.Spec

/-- `TrailTo step g n d l`: the nodes `l` lead from `n` to `g` in steps of total cost `d`. -/
inductive TrailTo {N K : Type} [AddCommGroup K] (step : N → N → K → Prop) (g : N) : N → K → List N → Prop
  | here : TrailTo step g g 0 [g]
  | next {p n : N} {d c : K} {l : List N} : TrailTo step g p d l → step p n c → TrailTo step g n (d + c) (n :: l)

/-- Some walk leads from `n` to `g`. -/
def CanReach {N K : Type} [AddCommGroup K] (step : N → N → K → Prop) (g n : N) : Prop := ∃ d l, TrailTo step g n d l

end PathPlanning.Spec
