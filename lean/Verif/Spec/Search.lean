import Verif.Model.Search

/-!
# Specification of paths, walk costs and open-list contracts

Independent of the search algorithm: only the neighbour relation, the cost arithmetic and the
operations of the open list are mentioned.
-/

namespace PathPlanning

variable {N C : Type}

/-- `v` is a (free) neighbour of `u`. -/
def IsNeighbour (succ : N → List (N × C)) (u v : N) : Prop := ∃ c, (v, c) ∈ succ u

/-- Some walk from a start node to `n` has cost `d` (costs accumulated from the start). -/
inductive Reach (A : Algo N C) (start : List N) : N → C → Prop
  | start {s} : s ∈ start → Reach A start s A.zero
  | step {u v d c} : Reach A start u d → (v, c) ∈ A.succ u → Reach A start v (A.add d c)

/-- `l` is a walk that begins at a start node, uses neighbour steps only, ends at `n` and has
cost `d`. -/
inductive WalkTo (A : Algo N C) (start : List N) : N → List N → C → Prop
  | start {s} : s ∈ start → WalkTo A start s [s] A.zero
  | step {u v l d c} : WalkTo A start u l d → (v, c) ∈ A.succ u →
      WalkTo A start v (l ++ [v]) (A.add d c)

/-- Step costs never make a path cheaper, and addition is monotone.  True for non-negative step
costs, in exact and in correctly rounded arithmetic. -/
structure CostOk [LinearOrder C] (A : Algo N C) : Prop where
  infl : ∀ u v c, (v, c) ∈ A.succ u → ∀ a, a ≤ A.add a c
  mono : ∀ a b c, a ≤ b → A.add a c ≤ A.add b c

/-- Contract of an open list: `mem o n` means node `n` is stored (at least once); `next` fails
exactly on an empty list and otherwise removes one occurrence; a size bounds the number of
successive `next` calls. -/
structure Lawful (P : OpenList N C) where
  mem : P.O → N → Prop
  size : P.O → Nat
  empty_mem : ∀ n, ¬ mem P.empty n
  add_mem : ∀ o n k m, mem (P.add o n k) m ↔ m = n ∨ mem o m
  next_none : ∀ o, P.next o = none ↔ ∀ n, ¬ mem o n
  next_some : ∀ o n o', P.next o = some (n, o') →
    mem o n ∧ (∀ m, mem o' m → mem o m) ∧ (∀ m, mem o m → m = n ∨ mem o' m)
  next_size : ∀ o n o', P.next o = some (n, o') → size o' < size o

/-- Contract of a priority queue: `ent o n k` means node `n` is stored with the key (total cost
at insertion) `k`; `next` removes an entry with the smallest key. -/
structure MinFirst [LinearOrder C] (P : OpenList N C) where
  ent : P.O → N → WithTop C → Prop
  empty_ent : ∀ n k, ¬ ent P.empty n k
  add_ent : ∀ o n k m k', ent (P.add o n k) m k' ↔ (m = n ∧ k' = k) ∨ ent o m k'
  next_some : ∀ o n o', P.next o = some (n, o') →
    ∃ k, ent o n k ∧ (∀ m k', ent o m k' → k ≤ k') ∧ (∀ m k', ent o' m k' → ent o m k') ∧
      (∀ m k', ent o m k' → (m = n ∧ k' = k) ∨ ent o' m k')

/-- Contract of `std::priority_queue::top` with the comparison of `PairDistance`: an element
with the smallest second component; none exactly for the empty queue. -/
structure TopOk [LinearOrder C] (top : List (N × C) → Option (N × C)) : Prop where
  none_iff : ∀ l, top l = none ↔ l = []
  mem : ∀ l x, top l = some x → x ∈ l
  min : ∀ l x, top l = some x → ∀ y ∈ l, x.2 ≤ y.2

/-- The goal region: `n` passes the neighbourhood's goal test for one of the goal nodes. -/
def InGoalRegion (A : Algo N C) (goal : List N) (n : N) : Prop := ∃ g ∈ goal, A.isGoal g n = true

/-- What a user may expect of a non-empty result: a walk of free neighbours from a start node
that ends in the goal region, or such a walk followed by an analytic expansion. -/
def ValidPath (A : Algo N C) (cfg : SCfg N C) (p : List N) : Prop :=
  ∃ t l d, WalkTo A cfg.start t l d ∧
    ((p = l ∧ InGoalRegion A cfg.goal t) ∨
      ∃ g ∈ cfg.goal, ∃ k e, cfg.canExpand k t g = some e ∧ p = l ++ e)

/-- Contract of the analytic expansion: it is not attempted successfully at a start node, and a
successful expansion has at least one node. -/
structure ExpansionOk (cfg : SCfg N C) : Prop where
  start : ∀ k s g, s ∈ cfg.start → cfg.canExpand k s g = none
  nonempty : ∀ k n g e, cfg.canExpand k n g = some e → e ≠ []

end PathPlanning
