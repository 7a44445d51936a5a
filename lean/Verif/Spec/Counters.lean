import Verif.Spec.Search
import Mathlib.Algebra.BigOperators.Group.Finset.Basic

/-!
# Specification: what the counters of a search count
-/

namespace PathPlanning

variable {N C : Type}

/-- Contract of an open list that knows how many entries it holds: `clear` leaves none, `add` makes one more, `next` one fewer, and
`next` fails exactly if there are none. -/
structure Counts (P : OpenList N C) where
  size : P.O → Nat
  empty : size P.empty = 0
  add : ∀ o n k, size (P.add o n k) = size o + 1
  next : ∀ o n o', P.next o = some (n, o') → size o' + 1 = size o
  none : ∀ o, P.next o = none → size o = 0

/-- The nodes marked as expanded. -/
def expandedNodes [Fintype N] (lab : N → Label N C) : Finset N := Finset.univ.filter fun n => (lab n).expanded = true

/-- The number of directed edges that leave a node of `s`: how often `iterateFreeNeighbors` can offer a neighbour when it is
called once for every node of `s`. -/
def edgesFrom (A : Algo N C) (s : Finset N) : Nat := ∑ n ∈ s, (A.succ n).length

end PathPlanning
