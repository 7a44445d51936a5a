import Verif.Props.Deadline
import Verif.Props.SearchExamples
import Verif.Props.KinSearchEx
import Mathlib.Data.Rat.Floor

/-!
# The hypotheses of the theorems about `setTimeLimit` are met (C129)
-/

namespace PathPlanning.Deadline.Ex
open SearchEx TimeLimit

theorem half : stampAbort (1 / 2 : ℚ) 100 = .ok (some 500000100) := by
  have : truncC ((1 / 2 : ℚ) * 1000) = 500 := by
    rw [truncC_nonneg (by norm_num), Int.floor_eq_iff]
    norm_num
  unfold stampAbort
  simp only [this]
  rw [if_pos (by norm_num), if_neg (by decide), if_neg (by decide), if_neg (by decide)]
  rfl

/-- On a fast machine half a second is enough. -/
theorem found : ∃ f p t, findTimed A P cfg (1 / 2 : ℚ) 100 (fun _ => 200) (freshLabels A) f = some (.ok p, t) ∧ p ≠ [] := by
  obtain ⟨f, p, t, h, hp⟩ := finds_path
  refine ⟨f, p, t, ?_, hp⟩
  unfold findTimed
  rw [half]
  exact in_time (cfg := cfg) (late := fun _ => false) (fun _ h => by cases h) h (fun k _ => by simp [clockAbort])

/-- On the same machine a tenth of a millisecond is not. -/
theorem not_found (f : Nat) : ∃ t, findTimed A P cfg (1 / 10000 : ℚ) 100 (fun _ => 200) (freshLabels A) (f + 1) = some (.ok [], t) :=
  ⟨_, below_millisecond topRef_ok (by norm_num) (by norm_num) (by decide) (by norm_num) f⟩

/-- A slower machine, on which the limit strikes: `larger_limit` applies to both runs. -/
example {f f' : Nat} {r r' t t'} (h : findTimed A P cfg (1 / 2 : ℚ) 100 (fun k => 200 * k) (freshLabels A) f = some (r, t))
    (h' : findTimed A P cfg (0 : ℚ) 100 (fun k => 200 * k) (freshLabels A) f' = some (r', t')) : (r = r' ∧ t = t') ∨ r = .ok [] :=
  larger_limit (cfg := cfg) topRef_ok rfl (by norm_num) (.inr le_rfl) half (by rw [stampAbort, if_neg (by norm_num)]) (fun _ => le_rfl) h h'

/-- `kept`: at one reading of a quarter of a second per round, not more than two nodes are expanded. -/
example {f p t} (h : findTimed A P cfg (1 / 2 : ℚ) 100 (fun k => 100 + 250000000 * k) (freshLabels A) f = some (.ok p, t)) :
    t.expansions ≤ 2 :=
  kept (cfg := cfg) (by norm_num) half h (by norm_num)

/-- A limit meant as "never". -/
example : ∃ t, findTimed A P cfg (10 ^ 30 : ℚ) 100 (fun _ => 200) (freshLabels A) 1 = some (.ub, t) :=
  ⟨_, huge (by norm_num) 1⟩

/-- A steering search: `steer_larger_limit` applies. -/
example {f r} (h : kFindTimed KinEx.A KinEx.P KinEx.cfg (1 / 2 : ℚ) 100 (fun k => 200 * k) KinEx.kin0 f = some r) :
    r = .ok [0, 2, 5, 7] ∨ r = .ok [] :=
  steer_larger_limit (cfg := KinEx.cfg) (l2 := (0 : ℚ)) (now2 := 100) (clock2 := fun k => 200 * k) KinEx.minTop_ok rfl (by norm_num) (.inr le_rfl) half
    (by rw [stampAbort, if_neg (by norm_num)]) (fun _ => le_rfl) h
    (show kFindTimed KinEx.A KinEx.P KinEx.cfg (0 : ℚ) 100 (fun k => 200 * k) KinEx.kin0 5 = _ from by
      rw [steer_no_limit le_rfl]; exact KinEx.run)

end PathPlanning.Deadline.Ex
