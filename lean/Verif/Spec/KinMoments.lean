import Verif.Spec.KinDuringMap

/-!
# Which map accepted which step (C120, C122)
-/

namespace PathPlanning.Spec

variable {N K C : Type}

/-- Every step of the path `q` was accepted by the map of one moment before `E`, no two steps by that of the same moment: `J i` is
the moment of the step from `q[i]` to `q[i + 1]`, taken from `q[i]` or from a reachable pose of the same cell (at the start: from
`q[0]` itself). -/
def TakenAt (A : KAlgo N K C) (us : Nat → K → K → CRes Bool) (E : Nat) (start : List N) (kin0 : N → K) (q : List K)
    (J : Nat → Nat) : Prop :=
  (∀ i y z, q[i]? = some y → q[i + 1]? = some z → J i < E ∧ ∃ x c, (x = y ∨ (0 < i ∧ SameCell A x y)) ∧
    Reachable (onSome A us E) start kin0 x ∧ LegalStep (A.withUsable (us (J i))) x c z) ∧
  ∀ i j, i + 1 < q.length → j + 1 < q.length → J i = J j → i = j

end PathPlanning.Spec
