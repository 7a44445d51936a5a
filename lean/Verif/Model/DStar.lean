import Verif.Prelude
import Mathlib.Algebra.Order.Monoid.WithTop

/-!
# Model of the incremental search (`GenericDynSearchAlgorithm`, `DStar2DSearch`)

Sources: `/repo/include/cslibs_path_planning/generic/SearchAlgorithm.hpp` (747-897), `Heuristics.hpp` (`DHeuristicNode`).

The class does not compile as it stands (the members `start` and `goal` of the base class are sets of nodes, here they are used
as single nodes); the model takes them to be single nodes, as the code intends.  A node (`NodeT*`) is an element of a type
`N`; a `double` that may be `INFINITY` is an element of `WithTop K`, exact arithmetic.  The container of the open nodes
(`DynamicPrioritySet` of the external library cslibs_utils) is the list of its elements and an arbitrary function `top` that
selects one of them.  `MARK_WATCHED` is only read by the drawing code and left out.
-/

namespace PathPlanning.DStar

/-- Fields of `DHeuristicNode` (Heuristics.hpp:72-131, Common.hpp:105-108). -/
structure DLab (N K : Type) where
  dist : WithTop K
  rhs : WithTop K
  key1 : WithTop K
  key2 : WithTop K
  h : K
  prev : Option N
  opn : Bool
  closed : Bool
deriving DecidableEq

/-- What the search uses of map, neighbourhood, heuristic and open list. -/
structure DAlgo (N K : Type) where
  /-- neighbours for which `iterateFreeNeighbors` calls `processNeighbor`, in that order, with `delta * res`
  (DirectNeighborhood.hpp:46-63, SearchAlgorithm.hpp:857) -/
  succ : N → List (N × K)
  /-- `getDelta(map, a, b) * res` (DirectNeighborhood.hpp:66-83, SearchAlgorithm.hpp:795-796) -/
  delta : N → N → K
  /-- value stored by `Heuristic::compute(a, b, res)` (Heuristics.hpp:212-227) -/
  heur : N → N → K
  start : N
  goal : N
  /-- `open.top()`; `none` for an empty container -/
  top : (N → DLab N K) → List N → Option N

/-- Nodes of the map and content of the open list. -/
structure DSt (N K : Type) where
  lab : N → DLab N K
  opn : List N

section
variable {N K : Type} [DecidableEq N] [AddCommGroup K] [LinearOrder K]

/-- `DHeuristicNode::init` (Heuristics.hpp:99-115, Common.hpp:85-103). -/
def DLab.fresh : DLab N K :=
  { dist := ⊤, rhs := ⊤, key1 := ⊤, key2 := ⊤, h := 0, prev := none, opn := false, closed := false }

/-- `DHeuristicNode::CalcKey` (Heuristics.hpp:84-92): second key. -/
def DLab.calc2 (l : DLab N K) : WithTop K := if l.rhs < l.dist then l.rhs else l.dist

/-- `DHeuristicNode::CalcKey` (Heuristics.hpp:84-92): first key. -/
def DLab.calc1 (l : DLab N K) : WithTop K := l.calc2 + (l.h : K)

/-- `DHeuristicNode::CalcKey()` (Heuristics.hpp:89-92). -/
def DLab.calcKey (l : DLab N K) : DLab N K := { l with key1 := l.calc1, key2 := l.calc2 }

/-- Writing one node's fields. -/
def setD (lab : N → DLab N K) (n : N) (l : DLab N K) : N → DLab N K :=
  fun m => if m = n then l else lab m

/-- `init` (SearchAlgorithm.hpp:820-839) on nodes with the labels `lab0`: only the start and the goal are initialised. -/
def dInit (A : DAlgo N K) (lab0 : N → DLab N K) : DSt N K :=
  let lab := setD (setD lab0 A.start DLab.fresh) A.goal DLab.fresh
  let lab := setD lab A.goal { lab A.goal with rhs := 0 }
  let lab := setD lab A.goal { lab A.goal with h := A.heur A.goal A.start }
  let lab := setD lab A.start { lab A.start with h := A.heur A.start A.start }
  let lab := setD lab A.goal { (lab A.goal).calcKey with opn := true }
  ⟨lab, [A.goal]⟩

/-- `UpdateVertex` (SearchAlgorithm.hpp:841-853). -/
def updateVertex (A : DAlgo N K) (n : N) (d : WithTop K) (s : DSt N K) : DSt N K :=
  let l := if n = A.goal then s.lab n else { s.lab n with rhs := d }
  let o := if l.opn then s.opn.erase n else s.opn
  if l.dist ≠ l.rhs then ⟨setD s.lab n { l.calcKey with opn := true }, o ++ [n]⟩
  else ⟨setD s.lab n l, o⟩

/-- `processNeighbor` (SearchAlgorithm.hpp:855-880). -/
def dProcess (A : DAlgo N K) (cur : N) (s : DSt N K) (m : N × K) : DSt N K :=
  let d := (s.lab cur).dist + (m.2 : K)
  let closer := decide (d < (s.lab m.1).dist)
  if (s.lab m.1).closed && !closer then s
  else if !(s.lab m.1).opn || closer then
    updateVertex A m.1 d ⟨setD s.lab m.1 { s.lab m.1 with prev := some cur, h := A.heur m.1 A.start }, s.opn⟩
  else s

/-- `iterateFreeNeighbors` (DirectNeighborhood.hpp:46-63). -/
def dIterate (A : DAlgo N K) (cur : N) (s : DSt N K) : DSt N K := (A.succ cur).foldl (dProcess A cur) s

/-- `TopKey` (SearchAlgorithm.hpp:752-760). -/
def topKey (A : DAlgo N K) (s : DSt N K) : WithTop K × WithTop K :=
  match A.top s.lab s.opn with
  | none => (⊤, ⊤)
  | some t => ((s.lab t).key1, (s.lab t).key2)

/-- `less_keys` (SearchAlgorithm.hpp:762-773). -/
def lessKeys (l r : WithTop K × WithTop K) : Bool :=
  if l.1 < r.1 then true
  else if l.1 = r.1 then (if l.2 < r.2 then true else false)
  else false

/-- `continue_while` (SearchAlgorithm.hpp:775-782). -/
def continueWhile (A : DAlgo N K) (s : DSt N K) : Bool :=
  lessKeys (topKey A s) ((s.lab A.start).calc1, (s.lab A.start).calc2) ||
    decide ((s.lab A.start).rhs = (s.lab A.start).dist)

/-- Body of the loop of `findPathImp` (SearchAlgorithm.hpp:787-799).  `open.next()` asserts that the list is not empty. -/
def dStep (A : DAlgo N K) (s : DSt N K) : CRes (DSt N K) :=
  match A.top s.lab s.opn with
  | none => .ub
  | some c =>
    let o := s.opn.erase c
    let lab := setD s.lab c { s.lab c with opn := false, closed := true }
    if (lab c).rhs < (lab c).dist then
      .ok (dIterate A c ⟨setD lab c { lab c with dist := (lab c).rhs }, o⟩)
    else
      let lab := setD lab c { lab c with dist := ⊤ }
      match (lab c).prev with
      | none => .ub
      | some p => .ok (dIterate A c (updateVertex A c ((lab p).dist + (A.delta p c : K)) ⟨lab, o⟩))

/-- `findPathImp` (SearchAlgorithm.hpp:783-800); `none`: not finished after `fuel` rounds. -/
def dLoop (A : DAlgo N K) : Nat → DSt N K → Option (CRes (DSt N K))
  | 0, _ => none
  | fuel + 1, s =>
    if continueWhile A s then
      match dStep A s with
      | .ok s' => dLoop A fuel s'
      | .throw e => some (.throw e)
      | .ub => some .ub
    else some (.ok s)

/-- The loop of `findPath` that follows the pointers `prev` (SearchAlgorithm.hpp:890-893), from `cur` on. -/
def dFollow (A : DAlgo N K) (lab : N → DLab N K) : Nat → N → Option (CRes (List N))
  | 0, _ => none
  | fuel + 1, cur =>
    if cur = A.goal then some (.ok [])
    else
      match (lab cur).prev with
      | none => some .ub
      | some p => (dFollow A lab fuel p).map fun r => r.bind fun l => .ok (p :: l)

/-- The part of `findPath` after the search (SearchAlgorithm.hpp:887-895). -/
def dPath (A : DAlgo N K) (fuel : Nat) (s : DSt N K) : Option (CRes (List N)) :=
  if (s.lab A.start).prev.isSome then
    (dFollow A s.lab fuel A.start).map fun r => r.bind fun l => .ok (A.start :: l)
  else some (.ok [])

/-- `init` followed by `findPath` (SearchAlgorithm.hpp:820-839, 882-896). -/
def dFind (A : DAlgo N K) (fuel : Nat) (lab0 : N → DLab N K) : Option (CRes (List N)) :=
  match dLoop A fuel (dInit A lab0) with
  | none => none
  | some .ub => some .ub
  | some (.throw e) => some (.throw e)
  | some (.ok s) => dPath A fuel s

end

/-- `DHeuristicNode::getTotalCost` (Heuristics.hpp:80-82), the value by which the open list is ordered, for finite keys. -/
def dTotal {K : Type} [Field K] (key1 key2 : K) : K := key1 + key2 / key1

end PathPlanning.DStar
