import Verif.Model.HybridSearch
import Verif.Model.SteerHistory

/-!
# Model of later searches with analytic expansion

Sources: `/repo/include/cslibs_path_planning/generic/SearchAlgorithm.hpp:331-343, 372-492, 528-613`.

`Model/HybridSearch.lean` begins with freshly initialised nodes and forgets them at the end.  Here a search begins with the labels and
contents an earlier search has left, and its result includes the nodes.
-/

namespace PathPlanning

section
variable {N K C X : Type} [DecidableEq N] [LinearOrder C]
variable (A : KAlgo N K C) (E : KExp X K C) {P : OpenList N C}

/-- Result of one iteration of the main loop, with the nodes. -/
inductive XIterS (N K C X : Type) (P : OpenList N C) where
  | more (st : KSt N K C P) (x : X)
  | done (r : CRes (List K)) (st : KSt N K C P) (x : X)

/-- `xIterate` (SearchAlgorithm.hpp:383-435) with the nodes: when an expansion ends the search, the node `cur` has been taken off the open
list and marked (SearchAlgorithm.hpp:390-404), nothing else has been written. -/
def xIterateS [Fintype N] (cfg : SCfg N C) (st : KSt N K C P) (x : X) : XIterS N K C X P :=
  let rest := fun x' => match kIterate A cfg st with
    | .more st' => XIterS.more st' x'
    | .done r st' => .done (contents st'.kin r) st' x'
  match P.next st.s.opn with
  | none => rest x
  | some (cur, o) =>
    if cfg.abort st.s.expansions then rest x
    else
      let s1 := popNode (A.alg st.s.lab st.kin) cfg st.s cur o
      match xLoop E cfg.start s1.lab st.kin cur cfg.goal x with
      | .throw e => .done (.throw e) { st with s := s1 } x
      | .ub => .done .ub { st with s := s1 } x
      | .ok (some q, x') => .done (.ok q) { st with s := s1 } x'
      | .ok (none, x') => rest x'

/-- `findPathImp` (SearchAlgorithm.hpp:372-445), with the nodes. -/
def xSearchS [Fintype N] (cfg : SCfg N C) : Nat → KSt N K C P → X → Option (CRes (List K) × KSt N K C P × X)
  | 0, _, _ => none
  | fuel + 1, st, x =>
    match xIterateS A E cfg st x with
    | .done r st' x' => some (r, st', x')
    | .more st' x' => xSearchS cfg fuel st' x'

/-- `findPathPose` (SearchAlgorithm.hpp:331-343) on given start and goal nodes and on nodes with labels `lab` and contents `kin`. -/
def xFindOn [Fintype N] (P : OpenList N C) (cfg : SCfg N C) (lab : Labels N C) (kin : N → K) (x : X) (fuel : Nat) :
    Option (CRes (List K) × KSt N K C P × X) :=
  xSearchS A E cfg fuel (kInitOn A P cfg lab kin) x

end

/-- `findPathPose` (SearchAlgorithm.hpp:331-343) with analytic expansion on nodes with labels `lab` and contents `old`, as `padFindOn`. -/
noncomputable def padFindXOn {X : Type} (clamp : ℝ → ℝ) {m : GridMap ℝ} (A : KAlgo (PadCell m.width m.height) SNode ℝ)
    (E : KExp X SNode ℝ) (P : OpenList (PadCell m.width m.height) ℝ) (cfg : SCfg (PadCell m.width m.height) ℝ)
    (lab : Labels (PadCell m.width m.height) ℝ) (old : PadCell m.width m.height → SNode) (start goal : Pose) (x : X) (fuel : Nat) :
    Option (CRes (List SNode) × Option (KSt (PadCell m.width m.height) SNode ℝ P) × X) :=
  match padInitOn clamp m old start goal with
  | .throw e => some (.throw e, none, x)
  | .ub => some (.ub, none, x)
  | .ok (sp, s, gp, g) =>
    (xFindOn A E P { cfg with start := s, goal := g } lab (padContentOn old sp s gp g start goal) x fuel).map fun y =>
      (y.1, some y.2.1, y.2.2)

end PathPlanning
