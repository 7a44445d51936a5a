import Verif.Props.DeadlineTest
import Verif.Props.DeadlineEx
import Verif.Props.SearchCustomEx

/-!
# `setTimeLimit` and a search with a goal test: a concrete case (C129)
-/

namespace PathPlanning.Deadline.Ex
open SearchEx TimeLimit

/-- On a fast machine half a second is enough for the way around the wall. -/
theorem row_found_in_time : ∃ f p t, findTimedTest A P cfg rowTest (1 / 2 : ℚ) 100 (fun _ => 200) (freshLabels A) f = some (.ok p, t) ∧
    p ≠ [] := by
  obtain ⟨f, p, t, _, _, h, hp, _⟩ := row_found
  refine ⟨f, p, t, ?_, hp⟩
  unfold findTimedTest
  rw [half]
  have : clockAbort (some 500000100) (fun _ => 200) = fun _ => false := funext fun _ => by simp [clockAbort]
  dsimp only
  rw [this]
  exact h

/-- On the same machine a tenth of a millisecond is not: `test_larger_limit` is about such pairs of runs. -/
theorem row_not_found (f : Nat) : ∃ t, findTimedTest A P cfg rowTest (1 / 10000 : ℚ) 100 (fun _ => 200) (freshLabels A) (f + 1) =
    some (.ok [], t) ∧ t.expansions = 0 :=
  test_below_millisecond topRef_ok (by norm_num) (by norm_num) (by norm_num) (by norm_num) (by norm_num) f

/-- `test_kept`: at one reading of a quarter of a second per round, not more than two nodes are expanded. -/
example {f r t} (h : findTimedTest A P cfg rowTest (1 / 2 : ℚ) 100 (fun k => 100 + 250000000 * k) (freshLabels A) f = some (r, t)) :
    t.expansions ≤ 2 :=
  test_kept (cfg := cfg) (by norm_num) half h (by norm_num)

end PathPlanning.Deadline.Ex
