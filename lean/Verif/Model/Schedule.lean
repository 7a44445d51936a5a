import Verif.Prelude
import Mathlib.Data.BitVec

/-!
# Mark bits, intermission schedule, throttling of the analytic expansion

Sources: `/repo/include/cslibs_path_planning/generic/Common.hpp` (`Node::mark` ...),
`Intermission.hpp`, `ReedsSheppExpansion.hpp`.
-/

namespace PathPlanning

/-! ### Mark bits -/

/-- `MARK_NONE, MARK_OPEN, MARK_CLOSED, MARK_WATCHED, MARK_EXPANDED` (Common.hpp:64-68). -/
def MARK_NONE : BitVec 8 := 0
def MARK_OPEN : BitVec 8 := 1
def MARK_CLOSED : BitVec 8 := 2
def MARK_WATCHED : BitVec 8 := 4
def MARK_EXPANDED : BitVec 8 := 8

/-- `mark` (Common.hpp:70-72). -/
def markBits (m k : BitVec 8) : BitVec 8 := m ||| k
/-- `unMark` (Common.hpp:73-75). -/
def unMarkBits (m k : BitVec 8) : BitVec 8 := m &&& ~~~k
/-- `isMarked` (Common.hpp:77-79). -/
def isMarkedBits (m k : BitVec 8) : Bool := decide (m &&& k = k)

/-! ### Intermission -/

/-- The function-static variables of `CallbackIntermission<steps, start_step>::call`
(Intermission.hpp:29-30). -/
structure InterSt where
  next : Int
  start : Bool
deriving DecidableEq

/-- Initial values of the statics (Intermission.hpp:29-30). -/
def interInit (startStep : Int) : InterSt := ⟨startStep, true⟩

/-- One `call` (Intermission.hpp:28-38); the Boolean says whether the callback is invoked. -/
def interCall (steps : Int) (s : InterSt) : Bool × InterSt :=
  let next := s.next - 1
  if next ≤ 0 || s.start then
    (true, if next > 0 then { s with next := next } else ⟨steps, false⟩)
  else (false, { s with next := next })

/-- State after `k` calls. -/
def interAfter (steps startStep : Int) : Nat → InterSt
  | 0 => interInit startStep
  | k + 1 => (interCall steps (interAfter steps startStep k)).2

/-- Whether the `k`-th call (`k = 1, 2, ...`) invokes the callback; for `steps = 0` the
specialisation with empty bodies is used (Intermission.hpp:28-46). -/
def interFires (steps startStep : Int) (k : Nat) : Bool :=
  if steps = 0 then false
  else (interCall steps (interAfter steps startStep (k - 1))).1

/-! ### Throttling of the analytic expansion -/

section
variable {K : Type} [Field K] [LinearOrder K] [IsStrictOrderedRing K] [FloorRing K]

/-- `current`, `n`, `initial_cost`, `min_cost` (ReedsSheppExpansion.hpp:145-150). -/
structure ExpSt (K : Type) where
  current : Int
  n : Int
  initial : K
  min : K
deriving DecidableEq, Repr

/-- Constructor (ReedsSheppExpansion.hpp:16-19); `min_cost` is not initialised, but it is only
read after having been set. -/
def expInit (N : Int) (junk : K) : ExpSt K := ⟨N, N, -1, junk⟩

/-- `expand` for a node whose direction is enabled and forward, up to the call of `find`
(ReedsSheppExpansion.hpp:57-77): returns whether `find` is called.  The double product is
truncated to `int` (undefined behaviour if not representable). -/
def expStep (N : Int) (s : ExpSt K) (cost : K) : CRes (Bool × ExpSt K) := do
  let s1 : ExpSt K := { s with current := s.current + 1 }
  if s1.initial < 0 then pure (false, { s1 with initial := cost, min := cost })
  else
    let s2 ← (if cost < s1.min then do
        let n ← castI ((N : K) * (cost / s1.initial))
        pure { s1 with min := cost, n := n }
      else pure s1 : CRes (ExpSt K))
    if s2.current < s2.n then pure (false, s2)
    else pure (true, { s2 with current := 0 })

/-- A run over the heuristic costs of the successive nodes: the attempts made, and the state. -/
def expRun (N : Int) : ExpSt K → List K → CRes (List Bool × ExpSt K)
  | s, [] => .ok ([], s)
  | s, c :: cs => do
    let (b, s') ← expStep N s c
    let (bs, s'') ← expRun N s' cs
    pure (b :: bs, s'')

end
end PathPlanning
