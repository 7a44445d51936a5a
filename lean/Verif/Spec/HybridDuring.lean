import Verif.Model.HybridDuring
import Verif.Spec.HybridSearch
import Verif.Spec.KinDuringMap

/-!
# Specification: searches with analytic expansion on a map that changes (C121)

`Es j` is the analytic expansion on the map of moment `j`.
-/

namespace PathPlanning.Spec

variable {N K C X : Type}

/-- The expansion came from state `x` to its present state by calls, each on one of the first `n` maps, with heuristic values of this
search. -/
inductive ExpCallsAt (Es : Nat → KExp X K C) (n : Nat) (H : C → Prop) (x : X) : X → Prop
  | refl : ExpCallsAt Es n H x x
  | step {x1 x2 : X} {k : K} {h : C} {kg : K} {b : Bool} {j : Nat} : ExpCallsAt Es n H x x1 → j < n → H h →
      (Es j).expand x1 k h kg = .ok (b, x2) → ExpCallsAt Es n H x x2

/-- The search may ask the expansion in state `x1` for a way from `k` to `kg` (see `AskedFor`). -/
structure AskedForAt (A : KAlgo N K C) (Es : Nat → KExp X K C) (n : Nat) (start goal : List N) (kin0 : N → K) (x x1 : X) (k : K)
    (h : C) (kg : K) : Prop where
  calls : ExpCallsAt Es n (fun h => ∃ a b, h = A.heur a b) x x1
  reach : Reachable A start kin0 k
  goal : ∃ g ∈ goal, kg = kin0 g ∨ (A.lookup kg = .ok (some g) ∧ Reachable A start kin0 kg)
  heur : ∃ b, h = A.heur k b

/-- The search ends in the iteration number `n` with a path `q` whose last part is an expansion accepted on the map `n`: legal steps
lead from a start pose to `k`, another node, and from there the expansion found the way `e :: es` to the goal pose `kg`.  If `ex`
holds, every step to `k` begins exactly at the pose before it. -/
def EndsExpandedAt [Fintype N] (A : KAlgo N K C) (Es : Nat → KExp X K C) (n : Nat) (ex : Prop) (start goal : List N) (kin0 : N → K)
    (x x' : X) (q : List K) (k kg : K) : Prop :=
  ∃ x1 h l e es, AskedForAt A Es (n + 1) start goal kin0 x x1 k h kg ∧ (Es n).expand x1 k h kg = .ok (true, x') ∧
    (Es n).get x' = e :: es ∧ q = l ++ [(Es n).turn k e] ++ e :: es ∧ l ≠ [] ∧
    (∃ d, CellTrace A start kin0 (l ++ [k]) d) ∧ (∃ s ∈ start, l.head? = some (kin0 s)) ∧
    (∀ y ∈ l, Reachable A start kin0 y) ∧ l.length < Fintype.card N ∧ (ex → ∃ d, Drive A (l ++ [k]) d)

/-- The expansion found, on the map `n`, a way from the pose of a start node itself. -/
def ExpandsStartAt (A : KAlgo N K C) (Es : Nat → KExp X K C) (n : Nat) (start goal : List N) (kin0 : N → K) (x : X) : Prop :=
  ∃ x1 x2 s h kg, s ∈ start ∧ AskedForAt A Es (n + 1) start goal kin0 x x1 (kin0 s) h kg ∧
    (Es n).expand x1 (kin0 s) h kg = .ok (true, x2)

/-- The expansion itself misbehaves (`f r`) on a question of the search on the map `n`. -/
def ExpFailsAt (A : KAlgo N K C) (Es : Nat → KExp X K C) (n : Nat) (start goal : List N) (kin0 : N → K) (x : X)
    (f : CRes (Bool × X) → Prop) : Prop :=
  ∃ x1 k h kg, AskedForAt A Es (n + 1) start goal kin0 x x1 k h kg ∧ f ((Es n).expand x1 k h kg)

/-- The callback only takes steps away: what a map accepts, the map before accepts. -/
def OnlyFewer (us : Nat → K → K → CRes Bool) : Prop := ∀ j k k', us (j + 1) k k' = .ok true → us j k k' = .ok true

end PathPlanning.Spec
