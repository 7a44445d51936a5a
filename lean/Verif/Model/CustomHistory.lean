import Verif.Model.KinCustom
import Verif.Model.SteerHistory

/-!
# Model of later searches with a user supplied goal test

Sources: `/repo/include/cslibs_path_planning/generic/SearchAlgorithm.hpp:253-295, 345-370, 447-526`.

`Model/KinCustom.lean` begins with the nodes as `setMap` leaves them; here the nodes have the labels and contents of earlier searches.
-/

namespace PathPlanning

section
variable {N K C : Type} [DecidableEq N] [LinearOrder C]
variable (A : KAlgo N K C)

/-- `findPathMapPose` and `findPathMapNode` (SearchAlgorithm.hpp:345-370) on nodes with labels `lab` and contents `kin` (those after
`initStartPose` or `initStartNode`). -/
def kFindTestOn [Fintype N] (P : OpenList N C) (cfg : SCfg N C) (T : KGoalTest N K C P) (lab : Labels N C) (kin : N → K)
    (fuel : Nat) : Option (CRes (List N) × KSt N K C P) :=
  kLoopT A cfg T fuel (kInitOn A P cfg lab kin)

end

noncomputable section

variable {m : GridMap ℝ}

/-- The start nodes of a later search: the nodes of `getPoses` whose *stored* coordinates are not occupied (SearchAlgorithm.hpp:466-478,
499-512). -/
def padStartOn (clamp : ℝ → ℝ) (m : GridMap ℝ) (old : PadCell m.width m.height → SNode) (x y : ℝ) :
    CRes (List (PadCell m.width m.height) × List (PadCell m.width m.height)) := do
  let sp ← getPoses clamp m.width m.height ⟨x, y, 0⟩
  let s ← notOccupiedOn m old sp
  pure (sp, s)

/-- Contents after `initStartNode` (SearchAlgorithm.hpp:495-526): heading and depth are written, the rest is what earlier searches have
stored. -/
def padNodeOn {w h : Nat} (old : PadCell w h → SNode) (sp s : List (PadCell w h)) (node : SNode) (n : PadCell w h) : SNode :=
  { old n with
    forward := if n ∈ sp then n.fwd else (old n).forward
    theta := if n ∈ s then node.theta else (old n).theta
    depth := if n ∈ s then 0 else (old n).depth }

/-- A search with a goal test on start nodes `s`; `reversed` turns the path round (SearchAlgorithm.hpp:268-279, 289-293). -/
def padRunTestOn (A : KAlgo (PadCell m.width m.height) SNode ℝ) (P : OpenList (PadCell m.width m.height) ℝ)
    (cfg : SCfg (PadCell m.width m.height) ℝ) (T : KGoalTest (PadCell m.width m.height) SNode ℝ P) (reversed : Bool)
    (lab : Labels (PadCell m.width m.height) ℝ) (s : List (PadCell m.width m.height)) (kin : PadCell m.width m.height → SNode)
    (fuel : Nat) : Option (CRes (List SNode) × Option (KSt (PadCell m.width m.height) SNode ℝ P)) :=
  (kFindTestOn A P { cfg with start := s } T lab kin fuel).map fun x =>
    (match x.1 with
      | .ok p => .ok (if reversed then (p.map x.2.kin).reverse else p.map x.2.kin)
      | .throw e => .throw e
      | .ub => .ub, some x.2)

/-- `findPath(from, goal_test)` (SearchAlgorithm.hpp:253-281) on nodes with labels `lab` and contents `old`. -/
def padFindTestOn (clamp : ℝ → ℝ) (A : KAlgo (PadCell m.width m.height) SNode ℝ)
    (P : OpenList (PadCell m.width m.height) ℝ) (cfg : SCfg (PadCell m.width m.height) ℝ)
    (T : KGoalTest (PadCell m.width m.height) SNode ℝ P) (reversed : Bool) (lab : Labels (PadCell m.width m.height) ℝ)
    (old : PadCell m.width m.height → SNode) (start : Pose) (fuel : Nat) :
    Option (CRes (List SNode) × Option (KSt (PadCell m.width m.height) SNode ℝ P)) :=
  match padStartOn clamp m old start.x start.y with
  | .throw e => some (.throw e, none)
  | .ub => some (.ub, none)
  | .ok (sp, s) => padRunTestOn A P cfg T reversed lab s (padContentOn old sp s [] [] start start) fuel

/-- `findPathWithStartConfiguration(from, goal_test)` (SearchAlgorithm.hpp:283-295) on nodes with labels `lab` and contents `old`. -/
def padFindConfigOn (clamp : ℝ → ℝ) (A : KAlgo (PadCell m.width m.height) SNode ℝ)
    (P : OpenList (PadCell m.width m.height) ℝ) (cfg : SCfg (PadCell m.width m.height) ℝ)
    (T : KGoalTest (PadCell m.width m.height) SNode ℝ P) (reversed : Bool) (lab : Labels (PadCell m.width m.height) ℝ)
    (old : PadCell m.width m.height → SNode) (node : SNode) (fuel : Nat) :
    Option (CRes (List SNode) × Option (KSt (PadCell m.width m.height) SNode ℝ P)) :=
  match padStartOn clamp m old node.x node.y with
  | .throw e => some (.throw e, none)
  | .ub => some (.ub, none)
  | .ok (sp, s) => padRunTestOn A P cfg T reversed lab s (padNodeOn old sp s node) fuel

end
end PathPlanning
