import Verif.Props.GridSearch
import Mathlib.Data.List.MinMax

/-!
# The hypotheses of the search theorems are met by concrete searches

A 4 x 3 grid whose middle row is blocked except for its last cell; start (0,0), goal (0,2).
-/

namespace PathPlanning
namespace SearchEx

/-- A reference `goal_candidates.top()`. -/
noncomputable def topRef {N : Type} (l : List (N × ℝ)) : Option (N × ℝ) := l.argmin Prod.snd

theorem topRef_ok {N : Type} : TopOk (topRef (N := N)) where
  none_iff l := List.argmin_eq_none
  mem l x h := List.argmin_mem h
  min l x h y hy := not_lt.1 (List.not_lt_of_mem_argmin hy h)

abbrev W := GNode 4 3

/-- Blocked: (0,1), (1,1), (2,1). -/
def free (n : W) : Bool := !(n.2.val == 1 && decide (n.1.val < 3))

noncomputable def A : Algo W ℝ :=
  gridAlgo free 1 (dirs8 (Real.sqrt 2) 1) 1 (GridHeur.l2.fn 1) gridHypot

noncomputable def cfg : SCfg W ℝ where
  start := [(0, 0)]
  goal := [(0, 2)]
  useCands := false
  oversearch := 0
  accept := none
  abort _ := false
  canExpand _ _ _ := none
  top := topRef

noncomputable def P : OpenList W ℝ := PriorityManager

theorem costOk : CostOk A := (grid_exact (by norm_num) (euclid8 (by norm_num))).ok

theorem noExp : ExpansionOk cfg := ⟨fun _ _ _ _ => rfl, fun _ _ _ _ h => by cases h⟩

theorem step_free {n m : W} {d : Dir ℝ} (hd : d ∈ dirs8 (Real.sqrt 2) 1) (hf : free m = true)
    (hx : ((m.1 : Nat) : Int) = (n.1 : Nat) + d.dx) (hy : ((m.2 : Nat) : Int) = (n.2 : Nat) + d.dy) :
    (m, d.delta * 1) ∈ A.succ n := mem_gridSucc.2 ⟨hf, d, hd, hx, hy, rfl⟩

/-- The goal region is reachable around the wall: (0,0) (1,0) (2,0) (3,1) (2,2) (1,2). -/
theorem reachable : ∃ n d, Reach A cfg.start n d ∧ InGoalRegion A cfg.goal n := by
  have r0 : Reach A cfg.start ((0, 0) : W) A.zero := .start (by simp [cfg])
  have r1 := Reach.step r0 (step_free (n := (0, 0)) (m := (1, 0)) (d := ⟨1, 0, ((1 : Int) : ℝ)⟩)
    (by simp [dirs8]) (by decide) (by decide) (by decide))
  have r2 := Reach.step r1 (step_free (n := (1, 0)) (m := (2, 0)) (d := ⟨1, 0, ((1 : Int) : ℝ)⟩)
    (by simp [dirs8]) (by decide) (by decide) (by decide))
  have r3 := Reach.step r2 (step_free (n := (2, 0)) (m := (3, 1))
    (d := ⟨1, 1, Real.sqrt 2 * ((1 : Int) : ℝ)⟩) (by simp [dirs8]) (by decide) (by decide) (by decide))
  have r4 := Reach.step r3 (step_free (n := (3, 1)) (m := (2, 2))
    (d := ⟨-1, 1, Real.sqrt 2 * ((1 : Int) : ℝ)⟩) (by simp [dirs8]) (by decide) (by decide) (by decide))
  have r5 := Reach.step r4 (step_free (n := (2, 2)) (m := (1, 2)) (d := ⟨-1, 0, ((1 : Int) : ℝ)⟩)
    (by simp [dirs8]) (by decide) (by decide) (by decide))
  exact ⟨_, _, r5, (0, 2), by simp [cfg], by
    show gridIsGoal 1 ((0, 2) : W) (1, 2) = true
    decide⟩

/-- `search_terminates_valid`, `search_complete`, `search_empty_iff`: the search finds a path. -/
theorem finds_path : ∃ fuel p st', findPathNodes A P cfg (freshLabels A) fuel = some (.ok p, st') ∧
    p ≠ [] := by
  obtain ⟨fuel, p, st', h1, h2⟩ := search_empty_iff costOk prioLawful cfg topRef_ok
    (fun _ _ _ => rfl) (fun _ => rfl)
  exact ⟨fuel, p, st', h1, fun hp => (h2.1 hp) reachable⟩

/-- `path_cost_le_stored` applies to it. -/
example : ∃ fuel p st' t d, findPathNodes A P cfg (freshLabels A) fuel = some (.ok p, st') ∧
    WalkTo A cfg.start t p d ∧ (d : WithTop ℝ) ≤ (st'.lab t).dist := by
  obtain ⟨fuel, p, st', h1, h2⟩ := finds_path
  obtain ⟨t, d, h3, _, h4, _⟩ := path_cost_le_stored costOk prioLawful cfg topRef_ok
    (fun _ _ _ => rfl) h1 h2
  exact ⟨fuel, p, st', t, d, h1, h3, h4⟩

/-- `grid_search_optimal` (hence `search_optimal_consistent`) applies to it. -/
example : ∃ fuel p st' t d, findPathNodes A P cfg (freshLabels A) fuel = some (.ok p, st') ∧
    WalkTo A cfg.start t p d ∧ ∀ t' d', Reach A cfg.start t' d' → InGoalRegion A cfg.goal t' →
      d + hL2 1 t (0, 2) ≤ d' + hL2 1 t' (0, 2) := by
  obtain ⟨fuel, p, st', h1, h2⟩ := finds_path
  obtain ⟨t, d, h3, _, _, _, _, _, h4⟩ := grid_search_optimal (free := free) (res := 1)
    (by norm_num) (euclid8 (D := 1) (by norm_num)) .l2 prioLawful prioMin cfg topRef_ok
    (fun _ _ _ => rfl) rfl (s := (0, 0)) (g := (0, 2)) rfl rfl h1 h2
  refine ⟨fuel, p, st', t, d, h1, h3, fun t' d' hr ⟨g, hg, hgg⟩ => h4 t' d' hr ?_⟩
  simp only [cfg, List.mem_singleton] at hg
  subst hg
  have : gridIsGoal 1 ((0, 2) : W) t' = true := hgg
  simpa [gridIsGoal] using this

/-- The same search with goal candidates: `oversearch_exhaustive` applies. -/
noncomputable def cfgO : SCfg W ℝ := { cfg with useCands := true, oversearch := 1 }

example : ∃ fuel p st', findPathNodes A P cfgO (freshLabels A) fuel = some (.ok p, st') ∧
    p ≠ [] ∧ Consistent A (hval A cfgO.goal) := by
  obtain ⟨fuel, p, st', h1, h2⟩ := search_empty_iff costOk prioLawful cfgO topRef_ok
    (fun _ _ _ => rfl) (fun _ => rfl)
  exact ⟨fuel, p, st', h1, fun hp => (h2.1 hp) reachable,
    hL2_consistent (free := free) (by norm_num) (euclid8 (D := 1) (by norm_num)) (0, 2)⟩

theorem start_not_goal : ¬ InGoalRegion A cfg.goal ((0, 0) : W) := by
  rintro ⟨g, hg, hgg⟩
  simp only [cfg, List.mem_singleton] at hg
  subst hg
  have : gridIsGoal 1 ((0, 2) : W) (0, 0) = true := hgg
  revert this
  decide

/-- `repeated_search_fails` is not vacuous: the first search succeeds, the same search repeated
on the same object finds nothing. -/
example : ∃ f1 p st1 f2 st2, findPathNodes A P cfg (freshLabels A) f1 = some (.ok p, st1) ∧
    p ≠ [] ∧ findPathNodes A P cfg st1.lab f2 = some (.ok [], st2) := by
  obtain ⟨f1, p, st1, h1, h2⟩ := finds_path
  obtain ⟨f2, st2, h3⟩ := repeated_search_fails costOk prioLawful cfg cfg (s := (0, 0)) rfl rfl
    topRef_ok topRef_ok noExp noExp start_not_goal start_not_goal rfl h1
  exact ⟨f1, p, st1, f2, st2, h1, h2, h3⟩

/-- Analytic expansion succeeding at a non-start node meets `ExpansionOk`. -/
noncomputable def cfgE : SCfg W ℝ :=
  { cfg with canExpand := fun _ n g => if n = (0, 0) then none else some [g] }

example : ExpansionOk cfgE ∧ ∃ k n g e, cfgE.canExpand k n g = some e := by
  refine ⟨⟨?_, ?_⟩, 0, (1, 0), (0, 2), [(0, 2)], by simp [cfgE]⟩
  · intro k s g hs
    simp only [cfgE, cfg, List.mem_singleton] at hs
    simp [cfgE, hs]
  · intro k n g e he
    simp only [cfgE] at he
    split at he
    · cases he
    · cases he; simp

/-- An occupied start: `occupied_gives_empty` applies. -/
example : ∃ fuel, findPathPose A P (fun n : W => .ok [n]) (fun n => !free n) cfg (freshLabels A)
    (0, 1) (0, 2) fuel = some (.ok []) :=
  occupied_gives_empty costOk prioLawful _ _ cfg topRef_ok (fun _ _ _ => rfl) _ _ rfl rfl
    (.inl (by intro s hs; simp only [List.mem_singleton] at hs; subst hs; decide))

/-- `hL1_overestimates_8`: concrete cells. -/
example : ∃ c, Reach (gridAlgo free 1 (dirs8 (Real.sqrt 2) 1) 1 (hL1 1) gridHypot)
    [((2, 0) : W)] (3, 1) c ∧ c < hL1 1 ((2, 0) : W) (3, 1) :=
  hL1_overestimates_8 (by norm_num) (by norm_num) (by decide) (by decide) (by decide)

/-- `customTest_without_candidate_empty`: a test accepting everything. -/
example {fuel : Nat} {r} {st' : SSt W ℝ P}
    (h : findPathCustom A P cfg ⟨fun _ _ => (none, true), none⟩ (freshLabels A) fuel = some (r, st')) :
    r = .ok [] :=
  customTest_without_candidate_empty cfg topRef_ok _ (fun _ _ => rfl) _ h

/-- `expansion_at_start_ub`: an expansion that always succeeds. -/
example : ∃ st', findPathNodes A P { cfg with canExpand := fun _ _ g => some [g] }
    (freshLabels A) 1 = some (.ub, st') :=
  expansion_at_start_ub prioLawful _ (s := (0, 0)) (g := (0, 2)) (gs := []) rfl rfl rfl rfl

end SearchEx
end PathPlanning
