import Verif.Model.HybridSearch
import Verif.Spec.KinSearch

/-!
# Specification: searches with analytic expansion
-/

namespace PathPlanning.Spec

variable {N K C X : Type}

/-- The expansion came from state `x` to its present state by calls with heuristic values of this search. -/
inductive ExpCalls (E : KExp X K C) (H : C → Prop) (x : X) : X → Prop
  | refl : ExpCalls E H x x
  | step {x1 x2 k h kg b} : ExpCalls E H x x1 → H h → E.expand x1 k h kg = .ok (b, x2) → ExpCalls E H x x2

/-- The search, begun with the expansion in state `x`, may ask the expansion in state `x1` for a way from `k` to `kg`: `k` can be
reached, and `kg` is the pose of a goal node (the one written at the beginning, or a reachable pose stored there). -/
structure AskedFor (A : KAlgo N K C) (E : KExp X K C) (start goal : List N) (kin0 : N → K) (x x1 : X) (k : K) (h : C) (kg : K) :
    Prop where
  calls : ExpCalls E (fun h => ∃ a b, h = A.heur a b) x x1
  reach : Reachable A start kin0 k
  goal : ∃ g ∈ goal, kg = kin0 g ∨ (A.lookup kg = .ok (some g) ∧ Reachable A start kin0 kg)
  heur : ∃ b, h = A.heur k b

/-- The path `q` ends with an expansion: legal steps lead from a start pose to `k`, another node, and from there the expansion
found the way `e :: es` to the goal pose `kg`.  (`k` is shown with the heading of the first pose of the expansion.)
If `ex` holds, every step to `k` begins exactly at the pose before it. -/
def EndsExpanded [Fintype N] (A : KAlgo N K C) (E : KExp X K C) (ex : Prop) (start goal : List N) (kin0 : N → K) (x x' : X)
    (q : List K) (k kg : K) : Prop :=
  ∃ x1 h l e es, AskedFor A E start goal kin0 x x1 k h kg ∧ E.expand x1 k h kg = .ok (true, x') ∧ E.get x' = e :: es ∧
    q = l ++ [E.turn k e] ++ e :: es ∧ l ≠ [] ∧ (∃ d, CellTrace A start kin0 (l ++ [k]) d) ∧ (∃ s ∈ start, l.head? = some (kin0 s)) ∧
    (∀ y ∈ l, Reachable A start kin0 y) ∧ l.length < Fintype.card N ∧ (ex → ∃ d, Drive A (l ++ [k]) d)

/-- The expansion found a way from the pose of a start node itself. -/
def ExpandsStart (A : KAlgo N K C) (E : KExp X K C) (start goal : List N) (kin0 : N → K) (x : X) : Prop :=
  ∃ x1 x2 s h kg, s ∈ start ∧ AskedFor A E start goal kin0 x x1 (kin0 s) h kg ∧ E.expand x1 (kin0 s) h kg = .ok (true, x2)

/-- The expansion itself misbehaves (`f r`) on a question of the search. -/
def ExpFails (A : KAlgo N K C) (E : KExp X K C) (start goal : List N) (kin0 : N → K) (x : X) (f : CRes (Bool × X) → Prop) : Prop :=
  ∃ x1 k h kg, AskedFor A E start goal kin0 x x1 k h kg ∧ f (E.expand x1 k h kg)

/-- The search uses no heuristic and takes a cheapest node off its open list. -/
def Exact [LinearOrder C] (A : KAlgo N K C) (P : OpenList N C) (cfg : SCfg N C) : Prop :=
  (∀ k g, A.heur k g = A.zero) ∧ cfg.heurGoal = none ∧ (∀ a, A.add a A.zero = a) ∧ Nonempty (MinFirst P)

end PathPlanning.Spec

namespace PathPlanning.Spec
variable {N K C X : Type}

/-- Asked one after the other for a way from `k` to each of the poses, the expansion refuses every time (and gets from state
`x1` to state `x2`). -/
def RefusesAll (E : KExp X K C) (k : K) (h : C) : List K → X → X → Prop
  | [], x1, x2 => x1 = x2
  | kg :: kgs, x1, x2 => ∃ x', E.expand x1 k h kg = .ok (false, x') ∧ RefusesAll E k h kgs x' x2

end PathPlanning.Spec
