import Verif.Model.KinSearch
import Verif.Spec.Search

/-!
# Specification of paths of a search that stores poses in its nodes

Only `advance`, the map tests and `lookup` are mentioned.
-/

namespace PathPlanning
namespace Spec

variable {N K C : Type}

/-- The vehicle may drive from pose `k` to pose `k'` in one step of cost `c`: the neighbourhood produces
`k'` (for some content of the predecessors) and the map accepts the straight line between the two. -/
def LegalStep (A : KAlgo N K C) (k : K) (c : C) (k' : K) : Prop :=
  ∃ mv ∈ A.moves, ∃ ps, mv k ps = some (c, k') ∧ A.usable k k' = .ok true

/-- The two poses fall into the same cell of the discretised state space. -/
def SameCell (A : KAlgo N K C) (k k' : K) : Prop :=
  ∃ n, A.lookup k = .ok (some n) ∧ A.lookup k' = .ok (some n)

/-- Pose `k` can be reached by the vehicle: there is a sequence of legal steps from the pose of a start node to `k`, every
pose of which lies in a cell of the map. -/
inductive Reachable (A : KAlgo N K C) (start : List N) (kin0 : N → K) : K → Prop
  | start {s} : s ∈ start → Reachable A start kin0 (kin0 s)
  | step {k c k' n} : Reachable A start kin0 k → LegalStep A k c k' → A.lookup k' = .ok (some n) →
      Reachable A start kin0 k'

/-- The steps are legal, where a step may begin at another pose of the cell of the previous pose, one the vehicle can
reach (but not at another pose than the first). -/
inductive CellTrace (A : KAlgo N K C) (start : List N) (kin0 : N → K) : List K → C → Prop
  | start {s} : s ∈ start → CellTrace A start kin0 [kin0 s] A.zero
  | exact {l k c k' d} : CellTrace A start kin0 (l ++ [k]) d → LegalStep A k c k' →
      CellTrace A start kin0 (l ++ [k] ++ [k']) (A.add d c)
  | jump {l k k1 c k' d} : CellTrace A start kin0 (l ++ [k]) d → l ≠ [] → SameCell A k1 k →
      Reachable A start kin0 k1 → LegalStep A k1 c k' →
      CellTrace A start kin0 (l ++ [k] ++ [k']) (A.add d c)

/-- A drivable sequence of poses: every step is a move of the neighbourhood from the previous pose (which may
look at the poses before it) along a line the map accepts. -/
inductive Drive (A : KAlgo N K C) : List K → C → Prop
  | start (k) : Drive A [k] A.zero
  | step {l k c k' d mv} : Drive A (l ++ [k]) d → mv ∈ A.moves →
      mv k (l.reverse.take A.predDepth) = some (c, k') → A.usable k k' = .ok true →
      Drive A (l ++ [k] ++ [k']) (A.add d c)

/-- Step costs come from a finite list, never make a path cheaper, and addition is monotone. -/
structure KCostOk [LinearOrder C] (A : KAlgo N K C) (cs : List C) : Prop where
  costs : ∀ mv ∈ A.moves, ∀ k ps c k', mv k ps = some (c, k') → c ∈ cs
  infl : ∀ c ∈ cs, ∀ a, a ≤ A.add a c
  mono : ∀ a b c, a ≤ b → A.add a c ≤ A.add b c

/-- The search may ask the map about the step from `k` to `k'`: `k` can be reached from a start pose by legal steps, and
`k'` is what the neighbourhood computes from it. -/
def Asked (A : KAlgo N K C) (start : List N) (kin0 : N → K) (k k' : K) : Prop :=
  Reachable A start kin0 k ∧ ∃ mv ∈ A.moves, ∃ ps c, mv k ps = some (c, k')

/-- The map operations neither throw nor misbehave for the poses the search may ask about. -/
structure MapOk (A : KAlgo N K C) (start : List N) (kin0 : N → K) : Prop where
  usable : ∀ k k', Asked A start kin0 k k' → ∃ b, A.usable k k' = .ok b
  lookup : ∀ k k', Asked A start kin0 k k' → A.usable k k' = .ok true → ∃ r, A.lookup k' = .ok r

/-- Pose `k`, at distance `w`, passed the goal test against the pose a goal node had at that time: the pose
`kin0 g` written at the beginning, or a pose that the vehicle can reach and that falls into the cell of the goal node (the
search had stored it there). -/
def GoalMet (A : KAlgo N K C) (start goal : List N) (kin0 : N → K) (k : K) (w : C) : Prop :=
  Reachable A start kin0 k ∧ ∃ g ∈ goal, ∃ kg pv, A.isGoal kg k pv = true ∧ w = A.distTo kg k ∧
    (kg = kin0 g ∨ (A.lookup kg = .ok (some g) ∧ Reachable A start kin0 kg))

/-- The map operations throw `e` for some poses the search may ask about. -/
def MapThrows (A : KAlgo N K C) (start : List N) (kin0 : N → K) (e : String) : Prop :=
  ∃ k k', Asked A start kin0 k k' ∧ (A.usable k k' = .throw e ∨ (A.usable k k' = .ok true ∧ A.lookup k' = .throw e))

/-- The map operations misbehave for some poses the search may ask about. -/
def MapUb (A : KAlgo N K C) (start : List N) (kin0 : N → K) : Prop :=
  ∃ k k', Asked A start kin0 k k' ∧ (A.usable k k' = .ub ∨ (A.usable k k' = .ok true ∧ A.lookup k' = .ub))

/-- A set of nodes with poses (`κ n = some k`: pose `k` is stored at `n`) that contains the start and cannot be
left: every legal move from a stored pose leads to a node of the set.  (For neighbourhoods that look at
predecessors: for the predecessors at the time of the expansion.) -/
structure Saturated (A : KAlgo N K C) (start : List N) (kin0 : N → K) (κ : N → Option K) : Prop where
  init : ∀ s ∈ start, κ s = some (kin0 s)
  cell : ∀ n k, κ n = some k → n ∈ start ∨ A.lookup k = .ok (some n)
  moves : ∀ n k, κ n = some k → ∀ mv ∈ A.moves, ∃ ps, ∀ c k' v, mv k ps = some (c, k') →
    A.usable k k' = .ok true → A.lookup k' = .ok (some v) → κ v ≠ none
  reach : ∀ n k, κ n = some k → Reachable A start kin0 k

end Spec
end PathPlanning
