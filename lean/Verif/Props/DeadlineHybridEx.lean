import Verif.Props.DeadlineHybrid
import Verif.Props.DeadlineKinEx

/-!
# `setTimeLimit` and a search with an analytic expansion: a concrete case
-/

namespace PathPlanning.KinEx
open Deadline

/-- An expansion that never reaches the goal and counts how often it is tried. -/
def tries {S C : Type} : KExp Nat S C where
  expand x _ _ _ := .ok (false, x + 1)
  get _ := []
  turn k _ := k

/-- With a limit of two milliseconds and a millisecond per round two nodes are expanded, and the expansion is tried twice: `hybrid_kept`
(with k = 2) speaks about this search. -/
theorem hybrid_two_milliseconds : ∃ st, xFindTimedOn A tries P cfg (2 / 1000 : ℚ) 0 ticks (fun _ => Label.fresh A.zero) kin0 0 5 =
    some (.ok [], st, 2) ∧ st.s.expansions = 2 ∧ (2 / 1000 : ℚ) * 1000000000 ≤ ((ticks 2 - 0 : Int) : ℚ) := by
  have h : (match xFindOn A tries P { cfg with abort := clockAbort (some 2000000) ticks } (fun _ => Label.fresh A.zero) kin0 0 5 with
    | some (.ok [], st, 2) => decide (st.s.expansions = 2)
    | _ => false) = true := by decide +kernel
  unfold xFindTimedOn
  rw [stamp2]
  match e : xFindOn A tries P { cfg with abort := clockAbort (some 2000000) ticks } (fun _ => Label.fresh A.zero) kin0 0 5, h with
  | some (.ok [], st, 2), h =>
    exact ⟨st, e, by simpa using h, by norm_num [ticks]⟩

/-- Half a millisecond: nothing is expanded and no expansion is tried. -/
theorem hybrid_half_millisecond : xFindTimedOn A tries P cfg (1 / 2000 : ℚ) 0 ticks (fun _ => Label.fresh A.zero) kin0 0 5 =
    some (.ok [], kInitOn A P cfg (fun _ => Label.fresh A.zero) kin0, 0) :=
  hybrid_below_millisecond minTop_ok (by norm_num) (by norm_num) (by norm_num) (by norm_num) (by decide) 4

end PathPlanning.KinEx
