import Verif.Model.Search

/-!
# Counters of a search object over several searches

Source: `/repo/include/cslibs_path_planning/generic/SearchAlgorithm.hpp`.
-/

namespace PathPlanning

variable {N C : Type} [DecidableEq N] [LinearOrder C] [Fintype N]

/-- The members that survive a search: the labels in the node manager and the counter `touched`, which the constructor sets to zero
(SearchAlgorithm.hpp:127-129) and `init()` does not reset (SearchAlgorithm.hpp:447-456). -/
structure Persist (N C : Type) where
  lab : Labels N C
  touched : Nat

/-- `getExpansions`, `getMultiExpansions`, `getTouchedNodes` (SearchAlgorithm.hpp:176-188). -/
structure Stats where
  expansions : Nat
  multi : Nat
  touched : Nat

/-- A search between poses (`findPathPose`, SearchAlgorithm.hpp:331-343) and the getters afterwards: `++touched`
(SearchAlgorithm.hpp:662) goes on from the value the last search has left, the other counters from zero (450-452).
Simplification: the counters are natural numbers, not `int`. -/
def searchAndCount (A : Algo N C) (P : OpenList N C) (o : Persist N C) (cfg : SCfg N C) (fuel : Nat) :
    Option (CRes (List N) × Stats × Persist N C) :=
  (findPathNodes A P cfg o.lab fuel).map fun x =>
    (x.1, ⟨x.2.expansions, x.2.multi, o.touched + x.2.touched⟩, ⟨x.2.lab, o.touched + x.2.touched⟩)

/-- Several searches on one object: the getters after each of them. -/
def searchesAndCount (A : Algo N C) (P : OpenList N C) (fuel : Nat) : List (SCfg N C) → Persist N C → Option (List Stats × Persist N C)
  | [], o => some ([], o)
  | cfg :: cfgs, o =>
    match searchAndCount A P o cfg fuel with
    | none => none
    | some (_, s, o') =>
      match searchesAndCount A P fuel cfgs o' with
      | none => none
      | some (ss, o'') => some (s :: ss, o'')

end PathPlanning
