import Verif.Props.SearchHist
import Verif.Props.SearchExamples

/-!
# C80: concrete histories
-/

namespace PathPlanning
namespace SearchEx

/-- A second search, from (2,2), for the same goal. -/
noncomputable def cfg2 : SCfg W ℝ := { cfg with start := [(2, 2)] }

theorem noExp2 : ExpansionOk cfg2 := ⟨fun _ _ _ _ => rfl, fun _ _ _ _ h => by cases h⟩

/-- After the search from (0,0), which succeeds, a closer walk leads from (2,2) into the goal region, and the second search finds it. -/
theorem second_search : ∃ f1 p1 st1 f2 p2 st2, findPathNodes A P cfg (freshLabels A) f1 = some (.ok p1, st1) ∧ p1 ≠ [] ∧
    Used A P ((0, 0) :: []) st1.lab ∧ findPathNodes A P cfg2 st1.lab f2 = some (.ok p2, st2) ∧ p2 ≠ [] := by
  obtain ⟨f1, p1, st1, h1, h2⟩ := finds_path
  have hU : Used A P [((0, 0) : W)] st1.lab := by
    have := Used.find (A := A) (P := P) .setMap topRef_ok noExp h1
    exact this
  obtain ⟨f2, p2, st2, h3, h4⟩ := later_search_iff costOk prioLawful hU cfg2 topRef_ok (fun _ _ _ => rfl) (fun _ => rfl)
  refine ⟨f1, p1, st1, f2, p2, st2, h1, h2, hU, h3, h4.2 ?_⟩
  have hlow : (((1 : ℝ) : ℝ) : WithTop ℝ) < (st1.lab ((1, 2) : W)).dist := by
    by_cases ht : (st1.lab ((1, 2) : W)).dist = ⊤
    · rw [ht]; exact WithTop.coe_lt_top _
    · obtain ⟨d, hr, hd⟩ := used_dist costOk prioLawful hU _ ht
      rw [hd, WithTop.coe_lt_coe]
      have hc := Consistent.walk (grid_exact (free := free) (res := 1) (D := 1) (heur := GridHeur.l2.fn 1) (dist := gridHypot) (by norm_num) (euclid8 (by norm_num)))
        (hL2_consistent (free := free) (res := 1) (by norm_num) (euclid8 (D := 1) (by norm_num)) ((1, 2) : W)) hr
      have h0 : hL2 1 ((1, 2) : W) (1, 2) = 0 := by simp [hL2, dX, dY]
      have h5 : (1 : ℝ) < hL2 1 ((0, 0) : W) (1, 2) := by
        have : hL2 1 ((0, 0) : W) (1, 2) = Real.sqrt 5 := by
          simp [hL2, dX, dY]; norm_num
        rw [this]
        exact Real.lt_sqrt_of_sq_lt (by norm_num)
      simp only [h0] at hc
      linarith
  have hs := CloserWalk.step (A := A) (lab := st1.lab) (.start (s := ((2, 2) : W)) (start := cfg2.start) (by simp [cfg2]))
    (step_free (n := (2, 2)) (m := (1, 2)) (d := ⟨-1, 0, ((1 : Int) : ℝ)⟩) (by simp [dirs8]) (by decide) (by decide) (by decide)) (by
      have e : A.add A.zero ((⟨-1, 0, ((1 : Int) : ℝ)⟩ : Dir ℝ).delta * 1) = 1 := by simp [A, gridAlgo]
      rw [e]; exact hlow)
  exact ⟨_, _, _, hs, (0, 2), by simp [cfg2, cfg], by
    show gridIsGoal 1 ((0, 2) : W) (1, 2) = true
    decide⟩

/-- The search from (0,0) once more finds nothing: every node it comes to has been reached as cheaply before. -/
example : ∃ f1 p1 st1 f2 st2, findPathNodes A P cfg (freshLabels A) f1 = some (.ok p1, st1) ∧ p1 ≠ [] ∧
    Used A P [((0, 0) : W)] st1.lab ∧ findPathNodes A P cfg st1.lab f2 = some (.ok [], st2) ∧
    ¬ ∃ t l d, CloserWalk A cfg.start st1.lab t l d ∧ InGoalRegion A cfg.goal t := by
  obtain ⟨f1, p1, st1, h1, h2⟩ := finds_path
  obtain ⟨f2, st2, h3⟩ := repeated_search_fails costOk prioLawful cfg cfg (s := (0, 0)) rfl rfl
    topRef_ok topRef_ok noExp noExp start_not_goal start_not_goal rfl h1
  have hU : Used A P [((0, 0) : W)] st1.lab := Used.find (A := A) (P := P) .setMap topRef_ok noExp h1
  exact ⟨f1, p1, st1, f2, st2, h1, h2, hU, h3, later_search_complete costOk prioLawful hU cfg topRef_ok noExp (fun _ => rfl) h3⟩

end SearchEx
end PathPlanning
