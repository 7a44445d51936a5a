import Verif.Model.Expansion
import Verif.Spec.RSOpt

/-!
# Specification: histories of the analytic expansion

The expansion object is a process-wide singleton: it is created once and then called by all searches, with
arbitrary nodes, goals and maps.
-/

noncomputable section

namespace PathPlanning.Spec

open RSExp (St Node)

/-- The object after any number of calls with non-negative heuristic values. -/
inductive ExpReach (clamp : ℝ → ℝ) (N : Int) (ef eb : Bool) : St → Prop
  | new {junk : ℝ} {junkF : Bool} {st : St} : St.new N ef eb junk junkF = .ok st → ExpReach clamp N ef eb st
  | step {st st' : St} {fuel : Nat} {start goal : Node} {map : RS.MapIf} {b : Bool} :
      ExpReach clamp N ef eb st → 0 ≤ start.h →
      st.expand clamp fuel N ef eb start goal map = .ok (some (b, st')) → ExpReach clamp N ef eb st'

/-- `st'` is `st` after any number of further calls with non-negative heuristic values. -/
inductive ExpLater (clamp : ℝ → ℝ) (N : Int) (ef eb : Bool) (st : St) : St → Prop
  | refl : ExpLater clamp N ef eb st st
  | step {st1 st2 : St} {fuel : Nat} {start goal : Node} {map : RS.MapIf} {b : Bool} :
      ExpLater clamp N ef eb st st1 → 0 ≤ start.h →
      st1.expand clamp fuel N ef eb start goal map = .ok (some (b, st2)) → ExpLater clamp N ef eb st st2

/-- Turn, straight, turn, all forward. -/
def cscForward (o o' : RS.Ori) (t1 L t3 : ℝ) : List (Elem × ℝ) :=
  [(.turn o .fwd, t1), (.straight .fwd, L), (.turn o' .fwd, t3)]

end PathPlanning.Spec
