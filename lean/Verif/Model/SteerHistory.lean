import Verif.Model.SteerSearch
import Verif.Model.KinHistory

/-!
# Model of later searches with a steering neighbourhood

Sources: `/repo/include/cslibs_path_planning/generic/SearchAlgorithm.hpp:331-343, 447-570`, `MapManager.hpp:747-755`,
`Common.hpp:153-177`.

`Model/SteerSearch.lean` begins with the nodes as `setMap` (or the construction of a chunk) leaves them.  A later search finds the labels
and the contents of the earlier ones.
-/

noncomputable section

namespace PathPlanning

/-- The nodes of `ns` that are not occupied (`map_.isOccupied(s)`, MapManager.hpp:747-755): tested is the cell of the *stored* coordinates
(truncated towards zero). -/
def notOccupiedOn (m : GridMap ℝ) (old : PadCell m.width m.height → SNode) :
    List (PadCell m.width m.height) → CRes (List (PadCell m.width m.height))
  | [] => .ok []
  | n :: ns => do
    let o ← ptOccupied m (truncC (old n).x) (truncC (old n).y)
    let r ← notOccupiedOn m old ns
    pure (if o then r else n :: r)

/-- The start and goal nodes of a later search (SearchAlgorithm.hpp:462-492, 528-570). -/
def padInitOn (clamp : ℝ → ℝ) (m : GridMap ℝ) (old : PadCell m.width m.height → SNode) (start goal : Pose) :
    CRes (List (PadCell m.width m.height) × List (PadCell m.width m.height) × List (PadCell m.width m.height) ×
      List (PadCell m.width m.height)) := do
  let sp ← getPoses clamp m.width m.height start
  let s ← notOccupiedOn m old sp
  let gp ← getPoses clamp m.width m.height goal
  let g ← notOccupiedOn m old gp
  pure (sp, s, gp, g)

/-- The contents of the nodes when a later search begins: only the direction (Common.hpp:163, 169) and the heading (SearchAlgorithm.hpp:474,
553) are written, the rest is what earlier searches have stored. -/
def padContentOn {w h : Nat} (old : PadCell w h → SNode) (sp s gp g : List (PadCell w h)) (start goal : Pose)
    (n : PadCell w h) : SNode :=
  { old n with
    forward := if n ∈ sp ∨ n ∈ gp then n.fwd else (old n).forward
    theta := if n ∈ g then goal.theta else if n ∈ s then start.theta else (old n).theta }

/-- `findPathPose` (SearchAlgorithm.hpp:331-343) on nodes with labels `lab` and contents `old`: the result and the nodes afterwards (if
start and goal could be looked up). -/
def padFindOn (clamp : ℝ → ℝ) {m : GridMap ℝ} (A : KAlgo (PadCell m.width m.height) SNode ℝ)
    (P : OpenList (PadCell m.width m.height) ℝ) (cfg : SCfg (PadCell m.width m.height) ℝ)
    (lab : Labels (PadCell m.width m.height) ℝ) (old : PadCell m.width m.height → SNode) (start goal : Pose) (fuel : Nat) :
    Option (CRes (List SNode) × Option (KSt (PadCell m.width m.height) SNode ℝ P)) :=
  match padInitOn clamp m old start goal with
  | .throw e => some (.throw e, none)
  | .ub => some (.ub, none)
  | .ok (sp, s, gp, g) =>
    (kFindOn A P { cfg with start := s, goal := g } lab (padContentOn old sp s gp g start goal) fuel).map fun x =>
      (match x.1 with
        | .ok p => .ok (p.map x.2.kin)
        | .throw e => .throw e
        | .ub => .ub, some x.2)

end PathPlanning
