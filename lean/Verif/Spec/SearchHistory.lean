import Verif.Spec.SearchCustom

/-!
# Specification: every history of one search object

Independent of the search algorithm, except that a history is a sequence of calls of its public functions.
-/

namespace PathPlanning

variable {N C : Type} [DecidableEq N] [LinearOrder C] [Fintype N]

/-- The nodes of a search object can look like this: `setMap` was called, then any number of searches (between poses or with a goal
test), each with its own start and goal nodes, options, and with a time limit or an interruption after any number of expansions.  The list
holds the start nodes of all these searches. -/
inductive Used (A : Algo N C) (P : OpenList N C) : List N → Labels N C → Prop
  | setMap : Used A P [] (freshLabels A)
  | find {S lab cfg fuel r st} : Used A P S lab → TopOk cfg.top → ExpansionOk cfg →
      findPathNodes A P cfg lab fuel = some (r, st) → Used A P (cfg.start ++ S) st.lab
  | test {S lab cfg fuel r st} {T : GoalTest N C P} : Used A P S lab → TopOk cfg.top →
      findPathCustom A P cfg T lab fuel = some (r, st) → Used A P (cfg.start ++ S) st.lab

/-- A walk of neighbours from a start node that comes to each of its further nodes at a strictly smaller cost than the one already
stored there. -/
inductive CloserWalk (A : Algo N C) (start : List N) (lab : Labels N C) : N → List N → C → Prop
  | start {s} : s ∈ start → CloserWalk A start lab s [s] A.zero
  | step {u v l d c} : CloserWalk A start lab u l d → (v, c) ∈ A.succ u →
      ((A.add d c : C) : WithTop C) < (lab v).dist → CloserWalk A start lab v (l ++ [v]) (A.add d c)

/-- The result of a search between poses on a used object: a closer walk into the goal region, or a closer walk continued by an
analytic expansion. -/
def LaterPath (A : Algo N C) (cfg : SCfg N C) (lab : Labels N C) (p : List N) : Prop :=
  ∃ t l d, CloserWalk A cfg.start lab t l d ∧
    ((p = l ∧ InGoalRegion A cfg.goal t) ∨ ∃ g ∈ cfg.goal, ∃ k e, cfg.canExpand k t g = some e ∧ p = l ++ e)

end PathPlanning
