import Verif.Model.KinHistory
import Verif.Spec.KinSearch

/-!
# Specification: every history of searches over nodes with stored poses
-/

namespace PathPlanning
namespace Spec

variable {N K C : Type} [DecidableEq N] [LinearOrder C] [Fintype N]

/-- `During A P cfg lab kin pc st`: while a search that began with labels `lab` and contents `kin` is running, the state can be `st`.
`pc` says where: `none` at the head of the main loop, `some (cur, ms)` while the node `cur` is worked on and the moves `ms` have not been
tried.  The search may be one between poses or one with a goal test: what happens to the candidates is left open, and so is the node
the heuristic refers to when there is no goal node. -/
inductive During (A : KAlgo N K C) (P : OpenList N C) (cfg : SCfg N C) (lab : Labels N C) (kin : N → K) :
    Option (N × List (K → List K → Option (C × K))) → KSt N K C P → Prop
  | init : During A P cfg lab kin none (kInitOn A P cfg lab kin)
  | pop {st cur o} (hg : Option (N → C)) : During A P cfg lab kin none st → P.next st.s.opn = some (cur, o) →
      During A P cfg lab kin (some (cur, A.moves))
        { st with s := popNode (A.alg st.s.lab st.kin) { cfg with heurGoal := hg } st.s cur o }
  | cands {pc st st'} : During A P cfg lab kin pc st → st'.s.lab = st.s.lab → st'.s.opn = st.s.opn → st'.kin = st.kin →
      During A P cfg lab kin pc st'
  | move {cur mv ms st st'} : During A P cfg lab kin (some (cur, mv :: ms)) st → kTry A cfg.goal cur mv st = .ok st' →
      During A P cfg lab kin (some (cur, ms)) st'
  | loop {cur st} : During A P cfg lab kin (some (cur, [])) st → During A P cfg lab kin none st

/-- The labels of the nodes of a search object can look like this: `setMap` was called, then any number of searches, each with its own
start and goal nodes or goal test and options, with whatever contents (`kin`) of the nodes, and each left at any point of its
execution: at its end, by an exception, by an interruption or the time limit.  The map, the neighbourhood, the heuristic and the goal
test (`A'`) may have been other ones, as long as the steps have costs of the list `cs`.  The list of nodes holds the start nodes of all
these searches. -/
inductive KUsed (A : KAlgo N K C) (cs : List C) (P : OpenList N C) : List N → Labels N C → Prop
  | setMap : KUsed A cs P [] (fun _ => Label.fresh A.zero)
  | left {S lab} {A' : KAlgo N K C} {cfg kin pc st} : KUsed A cs P S lab → A'.zero = A.zero → A'.add = A.add → KCostOk A' cs →
      During A' P cfg lab kin pc st → KUsed A cs P (cfg.start ++ S) st.s.lab

/-- Like `Saturated`, for a search that begins with the labels `lab`: every legal move from a stored pose leads to a node of the
set or to a node at which an earlier search has stored a distance that is not larger than the cost `dist n + c` of the
move. -/
structure SaturatedFrom (A : KAlgo N K C) (start : List N) (lab : Labels N C) (kin0 : N → K) (κ : N → Option K)
    (dist : N → WithTop C) : Prop where
  init : ∀ s ∈ start, κ s = some (kin0 s) ∧ dist s = (A.zero : WithTop C)
  cell : ∀ n k, κ n = some k → n ∈ start ∨ A.lookup k = .ok (some n)
  moves : ∀ n k, κ n = some k → ∀ mv ∈ A.moves, ∃ ps, ∀ c k' v, mv k ps = some (c, k') →
    A.usable k k' = .ok true → A.lookup k' = .ok (some v) →
      κ v ≠ none ∨ (lab v).dist ≤ (dist n).map (fun a => A.add a c)
  reach : ∀ n k, κ n = some k → Reachable A start kin0 k

end Spec
end PathPlanning
