import Verif.Spec.SearchHistory
import Verif.Model.CustomDuring

/-!
# Specification: every history of one search object on a map that changes

Independent of the search algorithm, except that a history is a sequence of calls of its public functions.
-/

namespace PathPlanning

variable {N C : Type} [DecidableEq N] [LinearOrder C] [Fintype N]

/-- The nodes of a search object can look like this: `setMap` was called once, then any number of searches (between poses or with a goal
test), each with its own start and goal nodes and options, cut off anywhere.  Between the searches, and from their callbacks, the map is
written to: the iteration number `k` of a search sees the neighbours `maps k`, all of them among `U`.  The index `W` collects the
neighbours of all searches, the list their start nodes. -/
inductive UsedOn (A : Algo N C) (P : OpenList N C) : (N → List (N × C)) → List N → Labels N C → Prop
  | setMap : UsedOn A P (fun _ => []) [] (freshLabels A)
  | find {W S lab maps U cfg fuel r st} : UsedOn A P W S lab → (∀ k u, ∀ e ∈ maps k u, e ∈ U u) → CostOk (A.withSucc U) →
      TopOk cfg.top → ExpansionOk cfg → findPathDuring A maps P cfg lab fuel = some (r, st) →
      UsedOn A P (fun u => W u ++ U u) (cfg.start ++ S) st.lab
  | test {W S lab maps U cfg fuel r st} {T : GoalTest N C P} : UsedOn A P W S lab → (∀ k u, ∀ e ∈ maps k u, e ∈ U u) →
      CostOk (A.withSucc U) → TopOk cfg.top → findPathCustomDuring A maps P cfg T lab fuel = some (r, st) →
      UsedOn A P (fun u => W u ++ U u) (cfg.start ++ S) st.lab

end PathPlanning
