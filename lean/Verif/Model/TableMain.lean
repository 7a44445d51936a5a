import Verif.Model.Table

/-!
# Model of `main` of the table generator

Source: `/repo/src/ReedsShepp/CostPrecomputation.cpp:220-288`.  Parsing of the command line by boost is not modelled: the
arguments are the values of the options.
-/

namespace PathPlanning.Table

noncomputable section

/-- What `main` does: leave with an exit code, or call `precompute` with a number of cells per side. -/
inductive Main
  | exit (code : Int)
  | run (pixels : Int)

/-- `main` (CostPrecomputation.cpp:262-285): range checks and the number of cells per side; the conversion of the quotient to
`int` is undefined if it does not fit. -/
def main (dimension angles : Int) (resolution : ℝ) : CRes Main :=
  if dimension < 0 ∨ dimension > 100 then .ok (.exit 2)
  else if angles < 1 ∨ angles > 36 then .ok (.exit 2)
  else if resolution ≤ 0 ∨ resolution > 2 then .ok (.exit 2)
  else do
    let pixels ← castI ((dimension : ℝ) / resolution)
    pure (.run pixels)

/-- The size of one layer, `dimension*dimension` in `int` (CostPrecomputation.cpp:126); overflow is undefined. -/
def layerSize (pixels : Int) : CRes Int :=
  if -2147483648 ≤ pixels * pixels ∧ pixels * pixels < 2147483648 then .ok (pixels * pixels) else .ub

end

end PathPlanning.Table
