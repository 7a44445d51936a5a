import Verif.Props.SearchCustom3
import Verif.Props.SearchExamples

/-!
# The hypotheses of the theorems about goal tests are met by concrete searches

The grid of `SearchExamples`; the goal region is the row behind the wall.
-/

namespace PathPlanning
namespace SearchEx

/-- The row behind the wall. -/
def behind (n : W) : Prop := n.2.val = 2

/-- A goal test for it; the weight is the column, the heuristic goal is (0, 2). -/
noncomputable def rowTest : GoalTest W ℝ P where
  terminate _ n := if n.2.val = 2 then (some (n.1.val : ℝ), true) else (none, false)
  heurGoal := some fun n => hL2 1 n (0, 2)

theorem rowTest_region : TestsRegion rowTest behind := by
  intro st n
  constructor
  · intro h; exact ⟨(n.1.val : ℝ), by simp only [rowTest, if_pos (show n.2.val = 2 from h)]⟩
  · intro h; simp only [rowTest, if_neg (show ¬ n.2.val = 2 from h)]

theorem rowTest_stops : StopsOnlyAtCandidates rowTest := by
  intro st n h
  simp only [rowTest] at h ⊢
  split_ifs at h ⊢
  simp

theorem behind_reachable : ∃ n d, Reach A cfg.start n d ∧ behind n ∧ AlwaysAccepts rowTest n := by
  have r0 : Reach A cfg.start ((0, 0) : W) A.zero := .start (by simp [cfg])
  have r1 := Reach.step r0 (step_free (n := (0, 0)) (m := (1, 0)) (d := ⟨1, 0, ((1 : Int) : ℝ)⟩)
    (by simp [dirs8]) (by decide) (by decide) (by decide))
  have r2 := Reach.step r1 (step_free (n := (1, 0)) (m := (2, 0)) (d := ⟨1, 0, ((1 : Int) : ℝ)⟩)
    (by simp [dirs8]) (by decide) (by decide) (by decide))
  have r3 := Reach.step r2 (step_free (n := (2, 0)) (m := (3, 1))
    (d := ⟨1, 1, Real.sqrt 2 * ((1 : Int) : ℝ)⟩) (by simp [dirs8]) (by decide) (by decide) (by decide))
  have r4 := Reach.step r3 (step_free (n := (3, 1)) (m := (2, 2))
    (d := ⟨-1, 1, Real.sqrt 2 * ((1 : Int) : ℝ)⟩) (by simp [dirs8]) (by decide) (by decide) (by decide))
  refine ⟨_, _, r4, (by decide : ((2, 2) : W).2.val = 2), fun st => ?_⟩
  simp only [rowTest]
  rw [if_pos (by decide)]
  simp

theorem add_zero' (a : ℝ) : A.add a A.zero = a := by
  show a + (0 : ℝ) = a
  ring

/-- `custom_search_valid`, `custom_search_complete` and `region_search_shortest` apply: the search finds a cheapest path into the row
behind the wall. -/
theorem row_found : ∃ fuel p st' t d, findPathCustom A P cfg rowTest (freshLabels A) fuel = some (.ok p, st') ∧ p ≠ [] ∧
    WalkTo A cfg.start t p d ∧ behind t ∧ ∀ n e, Reach A cfg.start n e → behind n → d ≤ e := by
  obtain ⟨fuel, p, st', h1, _, _⟩ := custom_search_valid costOk prioLawful cfg topRef_ok rowTest
  have hp : p ≠ [] := by
    rintro rfl
    obtain ⟨n, d, hr, _, ha⟩ := behind_reachable
    exact custom_search_complete costOk prioLawful cfg topRef_ok (fun _ => rfl) rowTest rowTest_stops h1 ⟨n, d, hr, ha⟩
  obtain ⟨t, d, h2, h3, h4⟩ :=
    region_search_shortest costOk add_zero' prioLawful prioMin cfg topRef_ok rowTest rowTest_region h1 hp
  exact ⟨fuel, p, st', t, d, h1, hp, h2, h3, h4⟩

/-- `heuristic_goal_no_effect` applies: without the heuristic goal the search returns the same path. -/
example : ∃ fuel p st' st2, p ≠ [] ∧ findPathCustom A P cfg rowTest (freshLabels A) fuel = some (.ok p, st') ∧
    findPathCustom A P cfg (rowTest.withGoal none) (freshLabels A) fuel = some (.ok p, st2) ∧ st2.expansions = st'.expansions := by
  obtain ⟨fuel, p, st', t, d, h1, hp, _⟩ := row_found
  obtain ⟨st2, h2, h3, _⟩ := heuristic_goal_no_effect costOk add_zero' prioLawful prioMin cfg topRef_ok rfl rowTest
    (f := fun n => if n.2.val = 2 then (some (n.1.val : ℝ), true) else (none, false)) (fun _ _ => rfl) none h1
  exact ⟨fuel, p, st', st2, hp, h1, h2, h3⟩

/-- A goal test that collects every node of the row and never stops: `getPathCandidates` lists at least one path. -/
noncomputable def collectRow : GoalTest W ℝ P where
  terminate _ n := if n.2.val = 2 then (some (n.1.val : ℝ), false) else (none, false)
  heurGoal := none

example : ∃ fuel p st' ps qs, findPathCustom A P cfg collectRow (freshLabels A) fuel = some (.ok p, st') ∧ p ≠ [] ∧
    getPathCandidates cfg st' = .ok ps ∧ PathsTo A cfg.start ps qs ∧ ps.head? = some p := by
  obtain ⟨fuel, p, st', h1, _, _⟩ := custom_search_valid costOk prioLawful cfg topRef_ok collectRow
  have hp : p ≠ [] := by
    rintro rfl
    obtain ⟨n, d, hr, hb, _⟩ := behind_reachable
    refine custom_search_complete costOk prioLawful cfg topRef_ok (fun _ => rfl) collectRow ?_ h1 ⟨n, d, hr, ?_⟩
    · intro st n h
      simp only [collectRow] at h
      split_ifs at h
    · intro st
      simp only [collectRow]
      rw [if_pos (show n.2.val = 2 from hb)]
      simp
  obtain ⟨ps, qs, h2, _, _, h3, h4⟩ := custom_candidates_listed costOk prioLawful cfg topRef_ok collectRow h1
  refine ⟨fuel, p, st', ps, qs, h1, hp, h2, h3, ?_⟩
  cases hh : ps.head? with
  | none => rw [hh] at h4; cases h4; exact absurd rfl hp
  | some q => rw [hh] at h4; cases h4; rfl

end SearchEx
end PathPlanning
