import Verif.Spec.KinSearch

/-!
# Specification: rival drives

What a search that keeps one pose per cell can overlook.
-/

namespace PathPlanning
namespace Spec

variable {N K C : Type}

/-- A pose goal node `g` may have: the one written at the beginning, or one the vehicle can reach that falls into its cell. -/
def GoalHas (A : KAlgo N K C) (start : List N) (kin0 : N → K) (g : N) (kg : K) : Prop :=
  kg = kin0 g ∨ (A.lookup kg = .ok (some g) ∧ Reachable A start kin0 kg)

/-- A drive `q` of cost `D` that begins at the pose of a start node, and all of whose further poses lie in cells of the map. -/
structure DriveFrom (A : KAlgo N K C) (start : List N) (kin0 : N → K) (q : List K) (D : C) : Prop where
  drive : Drive A q D
  head : ∃ s ∈ start, q.head? = some (kin0 s)
  cells : ∀ k ∈ q.tail, ∃ n, A.lookup k = .ok (some n)

/-- A drive `l ++ [k]` of cost `D` has a rival: a drive from a start pose that is at most as expensive and ends in the cell of
`k`, but at another pose, or having come by other poses (of which the last `h` count). -/
def Rival [LE C] (A : KAlgo N K C) (start : List N) (kin0 : N → K) (h : Nat) (l : List K) (k : K) (D : C) : Prop :=
  ∃ l2 k2 D2 v, DriveFrom A start kin0 (l2 ++ [k2]) D2 ∧ D2 ≤ D ∧ A.lookup k = .ok (some v) ∧
    (A.lookup k2 = .ok (some v) ∨ (v ∈ start ∧ l2 = [] ∧ k2 = kin0 v)) ∧
    ¬ (k2 = k ∧ l2.reverse.take h = l.reverse.take h)

end Spec
end PathPlanning
