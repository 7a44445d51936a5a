import Verif.Props.DeadlineKinTest
import Verif.Props.DeadlineKinEx

/-!
# `setTimeLimit` and a steering search with a goal test: a concrete case
-/

namespace PathPlanning.KinEx
open Deadline

/-- A goal test that never accepts a node. -/
def never {N S C : Type} {P : OpenList N C} : KGoalTest N S C P := ⟨fun _ _ => (none, false), none⟩

/-- With a limit of two milliseconds and a millisecond per round two nodes are expanded: `steer_test_kept` (with k = 2) speaks about this
search. -/
theorem test_two_milliseconds : ∃ st, kFindTimedTestOn A P cfg never (2 / 1000 : ℚ) 0 ticks (fun _ => Label.fresh A.zero) kin0 5 =
    some (.ok [], st) ∧ st.s.expansions = 2 ∧ (2 / 1000 : ℚ) * 1000000000 ≤ ((ticks 2 - 0 : Int) : ℚ) := by
  have h : (match kFindTestOn A P { cfg with abort := clockAbort (some 2000000) ticks } never (fun _ => Label.fresh A.zero) kin0 5 with
    | some (.ok [], st) => decide (st.s.expansions = 2)
    | _ => false) = true := by decide +kernel
  unfold kFindTimedTestOn
  rw [stamp2]
  match e : kFindTestOn A P { cfg with abort := clockAbort (some 2000000) ticks } never (fun _ => Label.fresh A.zero) kin0 5, h with
  | some (.ok [], st), h =>
    exact ⟨st, e, by simpa using h, by norm_num [ticks]⟩

/-- Half a millisecond: nothing is expanded, for any goal test. -/
theorem test_half_millisecond (T : KGoalTest _ _ _ P) :
    kFindTimedTestOn A P cfg T (1 / 2000 : ℚ) 0 ticks (fun _ => Label.fresh A.zero) kin0 5 =
      some (.ok [], kInitOn A P cfg (fun _ => Label.fresh A.zero) kin0) :=
  steer_test_below_millisecond minTop_ok (by norm_num) (by norm_num) (by norm_num) (by norm_num) (by decide) 4

end PathPlanning.KinEx
