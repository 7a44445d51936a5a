import Verif.Model.ReedsShepp

/-!
# Model of the table heuristic and of the program that writes its table

Sources: `HeuristicNonHolonomicNoObstacles`
(`/repo/include/cslibs_path_planning/generic/Heuristics.hpp:419-551`) and
`/repo/src/ReedsShepp/CostPrecomputation.cpp`.

Simplifications: a file is its numbers in order (the text format, in particular the rounding to six
digits by `operator<<`, is not modelled); `dimension` and `angles` are unbounded integers; a failing
`assert` is `ub`; the window shown in debug mode and the progress output are not modelled.
-/

noncomputable section

namespace PathPlanning.Table

open PathPlanning.RS (Gen Curve MapIf NOT_FREE)

/-- The numbers of a table file, in order (written by CostPrecomputation.cpp:203-212, read by
Heuristics.hpp:521-539): the three numbers of the header, then the body. -/
structure File where
  dim : Nat
  angles : Nat
  res : ℝ
  body : List ℝ

/-- Number `i` of the body; extraction beyond the end of the file leaves the value-initialised `0`. -/
def File.num (f : File) (i : Nat) : ℝ := f.body.getD i 0

/-- Layer `a` as read (Heuristics.hpp:529-536). -/
def File.layer (f : File) (a : Nat) : ℝ × List ℝ :=
  (f.num (a * (f.dim * f.dim + 1)),
   (List.range (f.dim * f.dim)).map fun i : Nat => f.num (a * (f.dim * f.dim + 1) + 1 + i))

/-- Fields of the singleton (Heuristics.hpp:544-550). -/
structure Tab where
  dim : Nat
  angles : Nat
  resMap : ℝ
  resPre : ℝ
  factor : ℝ
  costs : List (ℝ × List ℝ)

/-- `updateResolutionFactor` (Heuristics.hpp:512-514). -/
def Tab.update (t : Tab) : Tab := { t with factor := t.resPre / t.resMap }

/-- `read` (Heuristics.hpp:516-541). -/
def Tab.read (t : Tab) (f : File) : Tab :=
  let t := { t with dim := f.dim, angles := f.angles, resPre := f.res }
  let t := t.update
  { t with costs := t.costs ++ (List.range f.angles).map f.layer }

/-- The constructor (Heuristics.hpp:454-458) reads the default file; `resolution_map` is not
initialised (`garbage`). -/
def Tab.new (garbage : ℝ) (deflt : File) : Tab :=
  Tab.read ⟨0, 0, garbage, 0, 0, []⟩ deflt

/-- `init` (Heuristics.hpp:448-451): reads another file into the same object. -/
def Tab.init (t : Tab) (f : File) : Tab := t.read f

/-- `setMap` (Heuristics.hpp:443-447). -/
def Tab.setMap (t : Tab) (resolution : ℝ) : Tab := Tab.update { t with resMap := resolution }

/-- The index of the angle layer (Heuristics.hpp:486-494). -/
def Tab.angleIdx (t : Tab) (angle : ℝ) : Int :=
  let angle := if angle < 0 then angle + 2 * Real.pi else angle
  ⌊angle / (2 * Real.pi + 1 / 1000) * ((t.angles : ℝ) - 1)⌋

/-- `computeImp` (Heuristics.hpp:460-510): the value written to `current->h`. A division by a factor of
zero gives a value that cannot be converted to `int`. -/
def Tab.compute (clamp : ℝ → ℝ) (t : Tab) (current goal : Pose) (res : ℝ) : CRes ℝ :=
  if t.angles = 0 ∨ t.factor = 0 then .ub else do
  let gx := current.x - goal.x
  let gy := current.y - goal.y
  let gt := -goal.theta
  let rx := gx * Real.cos gt - gy * Real.sin gt
  let ry := gx * Real.sin gt + gy * Real.cos gt
  let px ← castI (rx / t.factor + ((t.dim / 2 : Nat) : ℝ))
  let py ← castI (ry / t.factor + ((t.dim / 2 : Nat) : ℝ))
  let th := clamp (current.theta + gt)
  if ¬ (-Real.pi ≤ th ∧ th < Real.pi) then .ub else
  let a := t.angleIdx th
  if ¬ (0 ≤ a ∧ a < t.angles) then .ub else
  if px < 0 ∨ px ≥ t.dim then .ok 0 else
  if py < 0 ∨ py ≥ t.dim then .ok 0 else do
  let idx := ((t.dim : Int) - py) * t.dim + px
  let layer ← vget t.costs a.toNat
  let v ← if idx < 0 then .ub else vget layer.2 idx.toNat
  pure (res * v * t.factor)

/-! ### CostPrecomputation -/

/-- The cells of the inner loops in order (CostPrecomputation.cpp:137-141). -/
def cells (dim : Nat) : List (Nat × Nat) :=
  (List.range dim).flatMap fun y : Nat => (List.range dim).map fun x : Nat => (x, y)

/-- One cell (CostPrecomputation.cpp:142-177): `c->weight()` of a null pointer is `ub`. -/
def cellCost (clamp : ℝ → ℝ) (dim : Nat) (theta : ℝ) (map : MapIf) (g : Gen) (x y : Nat) :
    CRes (Gen × ℝ) := do
  let r ← g.findPath clamp ⟨x, y, theta⟩ ⟨dim / 2, dim / 2, 0⟩ map true
  match r.2 with
  | none => .ub
  | some c => .ok (r.1, if c.weight < NOT_FREE then c.weight else 0)

/-- The cells of one layer. -/
def layerLoop (clamp : ℝ → ℝ) (dim : Nat) (theta : ℝ) (map : MapIf) :
    Gen → List (Nat × Nat) → CRes (Gen × List ℝ)
  | g, [] => .ok (g, [])
  | g, c :: cs => do
    let r ← cellCost clamp dim theta map g c.1 c.2
    let rest ← layerLoop clamp dim theta map r.1 cs
    pure (rest.1, r.2 :: rest.2)

/-- The loop over the angles (CostPrecomputation.cpp:120-200). -/
def angleLoop (clamp : ℝ → ℝ) (dim angles : Nat) (map : MapIf) :
    Gen → List Nat → CRes (List (ℝ × List ℝ))
  | _, [] => .ok []
  | g, a :: as => do
    let r ← layerLoop clamp dim (a * (2 * Real.pi / angles)) map g (cells dim)
    let rest ← angleLoop clamp dim angles map r.1 as
    pure ((a * (2 * Real.pi / angles), r.2) :: rest)

/-- `precompute` (CostPrecomputation.cpp:36-216) with the generator set up in lines 39-116. -/
def precompute (clamp : ℝ → ℝ) (g : Gen) (dim angles : Nat) (res : ℝ) (map : MapIf) : CRes File := do
  let ls ← angleLoop clamp dim angles map g (List.range angles)
  pure ⟨dim, angles, res, ls.flatMap fun l : ℝ × List ℝ => l.1 :: l.2⟩

/-- The generator of `precompute` (CostPrecomputation.cpp:39-116): six patterns, radius 2.5, no maximum
arc. -/
def precompGen : CRes Gen :=
  ["LSL", "LSR", "RSL", "RSR", "LRL", "RLR"].foldlM
    (fun g s => do let r ← Gen.parse g s.toList; pure r.2) { radius := 5 / 2 }

end PathPlanning.Table
