import Verif.Props.DeadlineKin
import Verif.Props.KinHistEx
import Mathlib.Data.Rat.Floor

/-!
# `setTimeLimit` and a steering search: a concrete case
-/

namespace PathPlanning.KinEx
open Deadline

/-- One round takes a millisecond. -/
def ticks (k : Nat) : Int := 1000000 * k

theorem stamp2 : stampAbort (2 / 1000 : ℚ) 0 = .ok (some 2000000) := by decide +kernel

/-- The search that finds its path in its fifth round (`first`), with a limit of two milliseconds: no path after two expansions, so
`steer_kept` (with k = 2) and `steer_not_early` speak about it. -/
theorem two_milliseconds : ∃ st, kFindTimedOn A P cfg (2 / 1000 : ℚ) 0 ticks (fun _ => Label.fresh A.zero) kin0 5 = some (.ok [], st) ∧
    st.s.expansions = 2 ∧ (2 / 1000 : ℚ) * 1000000000 ≤ ((ticks 2 - 0 : Int) : ℚ) := by
  have h : (match kFindOn A P { cfg with abort := clockAbort (some 2000000) ticks } (fun _ => Label.fresh A.zero) kin0 5 with
    | some (.ok [], st) => decide (st.s.expansions = 2)
    | _ => false) = true := by decide +kernel
  unfold kFindTimedOn
  rw [stamp2]
  match e : kFindOn A P { cfg with abort := clockAbort (some 2000000) ticks } (fun _ => Label.fresh A.zero) kin0 5, h with
  | some (.ok [], st), h =>
    exact ⟨st, e, by simpa using h, by norm_num [ticks]⟩

/-- Half a millisecond: nothing is expanded. -/
theorem half_millisecond : kFindTimedOn A P cfg (1 / 2000 : ℚ) 0 ticks (fun _ => Label.fresh A.zero) kin0 5 =
    some (.ok [], kInitOn A P cfg (fun _ => Label.fresh A.zero) kin0) :=
  steer_below_millisecond minTop_ok (by norm_num) (by norm_num) (by decide) (by decide) 4

end PathPlanning.KinEx
