import Verif.Model.KinDuringMap
import Verif.Spec.KinSearch

/-!
# Specification of steering searches on a map that changes (C120)

`us j k k'` tells whether the map of moment `j` accepts the line from pose `k` to pose `k'`.
-/

namespace PathPlanning
namespace Spec
open Classical

variable {N K C : Type}

/-- The vehicle on a map that accepts a line if one of the first `E` maps does. -/
noncomputable def onSome (A : KAlgo N K C) (us : Nat → K → K → CRes Bool) (E : Nat) : KAlgo N K C :=
  { A with usable := fun k k' => .ok (decide (∃ j < E, us j k k' = .ok true)) }

/-- The vehicle on a map that accepts a line if all of the first `E` maps do. -/
noncomputable def onAll (A : KAlgo N K C) (us : Nat → K → K → CRes Bool) (E : Nat) : KAlgo N K C :=
  { A with usable := fun k k' => .ok (decide (∀ j < E, us j k k' = .ok true)) }

/-- The map test `a`, or the lookup after it, throws `e` for some poses the search may ask about. -/
def Thrown (A : KAlgo N K C) (a : K → K → CRes Bool) (start : List N) (kin0 : N → K) (e : String) : Prop :=
  ∃ k k', Asked A start kin0 k k' ∧ (a k k' = .throw e ∨ (a k k' = .ok true ∧ A.lookup k' = .throw e))

/-- The map test `a`, or the lookup after it, misbehaves for some poses the search may ask about. -/
def Misbehaves (A : KAlgo N K C) (a : K → K → CRes Bool) (start : List N) (kin0 : N → K) : Prop :=
  ∃ k k', Asked A start kin0 k k' ∧ (a k k' = .ub ∨ (a k k' = .ok true ∧ A.lookup k' = .ub))

/-- A set of nodes with poses (`κ n = some k`: pose `k` is stored at `n`) that contains the start and cannot be left by a move
that all of the first `E` maps accept.  (For neighbourhoods that look at predecessors: for the predecessors at the time of the
expansion.)  The poses themselves are reached by steps each of which was accepted by one of the maps. -/
structure ClosedUnder (A : KAlgo N K C) (us : Nat → K → K → CRes Bool) (E : Nat) (start : List N) (kin0 : N → K)
    (κ : N → Option K) : Prop where
  init : ∀ s ∈ start, κ s = some (kin0 s)
  cell : ∀ n k, κ n = some k → n ∈ start ∨ A.lookup k = .ok (some n)
  moves : ∀ n k, κ n = some k → ∀ mv ∈ A.moves, ∃ ps, ∀ c k' v, mv k ps = some (c, k') →
    (∀ j < E, us j k k' = .ok true) → A.lookup k' = .ok (some v) → κ v ≠ none
  reach : ∀ n k, κ n = some k → Reachable (onSome A us E) start kin0 k

end Spec
end PathPlanning
