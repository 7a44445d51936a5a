import Verif.Model.Sampling
import Verif.Spec.Geom

/-!
# Specification of goal regions and of the sampling planner
-/

namespace PathPlanning.Spec
open PathPlanning.Sampling

/-- A region in state `s` yields exactly the goals `gs` (pose and value of `gain` after the call), then reports the
end; `g` is the value of the caller's variable before the first call. -/
inductive Yields {S : Type} (R : Region S) : S → ℝ → List (Pose × ℝ) → Prop
  | done {s g} : R.next s g = none → Yields R s g []
  | more {s g p g' s' l} : R.next s g = some (p, g', s') → Yields R s' g' l → Yields R s g ((p, g') :: l)

/-- The goals (with their gains) a pose list hands out, one call of `getNextGoal` after the other, when the caller's gain
variable holds `g` before the first call; no call is undefined. -/
inductive Hands : PoseList → ℝ → List (Pose × ℝ) → Prop
  | done {p g} : p.next g = .ok none → Hands p g []
  | more {p g q g' p' l} : p.next g = .ok (some (q, g', p')) → Hands p' g' l → Hands p g ((q, g') :: l)

/-- The curves obtained by asking the generator for the goals that are on the map, in order: cost (gain times weight)
and curve, for the goals for which a curve was returned. -/
inductive Attempts (clamp : ℝ → ℝ) (m : GridMap ℝ) (start : Pose) :
    RS.Gen → List (Pose × ℝ) → List (ℝ × RS.Curve) → RS.Gen → Prop
  | nil {g} : Attempts clamp m start g [] [] g
  | off {g p k l out g'} : m.isInMapD p.x p.y = false → Attempts clamp m start g l out g' →
      Attempts clamp m start g ((p, k) :: l) out g'
  | miss {g p k l out g' g1} : m.isInMapD p.x p.y = true →
      g.findPath clamp start (pos2map m p) (mapIf m) false = .ok (g1, none) →
      Attempts clamp m start g1 l out g' → Attempts clamp m start g ((p, k) :: l) out g'
  | hit {g p k l out g' g1 c} : m.isInMapD p.x p.y = true →
      g.findPath clamp start (pos2map m p) (mapIf m) false = .ok (g1, some c) →
      Attempts clamp m start g1 l out g' → Attempts clamp m start g ((p, k) :: l) ((k * c.weight, c) :: out) g'

/-- Number `i` of the attempts is the first of least cost among the valid ones that cost less than `999999`. -/
def IsBest (out : List (ℝ × RS.Curve)) (i : Nat) (c : RS.Curve) : Prop :=
  ∃ cost, out[i]? = some (cost, c) ∧ c.isValid = true ∧ cost < 999999 ∧
    (∀ (j : Nat) (cost' : ℝ) (c' : RS.Curve), out[j]? = some (cost', c') → c'.isValid = true → cost ≤ cost') ∧
    (∀ (j : Nat) (cost' : ℝ) (c' : RS.Curve), j < i → out[j]? = some (cost', c') → c'.isValid = true → cost < cost')

/-- The heap history is clean: the objects `0 .. n-1` are allocated once each; all but `keep` are released exactly once,
after their allocation; nothing else is released. -/
structure CleanHeap (ev : List HeapEv) (n : Nat) (keep : Option Nat) : Prop where
  news : ∀ i, ev.count (.new i) = if i < n then 1 else 0
  dels : ∀ i, ev.count (.del i) = if i < n ∧ keep ≠ some i then 1 else 0
  order : ∀ i, HeapEv.del i ∈ ev → List.Sublist [HeapEv.new i, .del i] ev

end PathPlanning.Spec
