import Verif.Props.MapChange
import Verif.Props.MapChangeRS
import Verif.Props.SearchExamples
import Verif.Props.RSFree
import Verif.Props.LegacyOpt
import Mathlib.Tactic.IntervalCases
import Mathlib.Analysis.Real.Pi.Bounds

/-!
# The hypotheses of C111 are met by concrete maps and searches
-/

namespace PathPlanning.MapChangeEx
open Spec MapChange

/-- 4 × 3 cells, the middle row occupied except for its last cell. -/
noncomputable def m : GridMap ℝ := ⟨4, 3, 1, 0, 0, [0, 0, 0, 0, 255, 255, 255, 0, 0, 0, 0, 0], 50, 200, -1⟩

/-- The same with graded values and other thresholds. -/
theorem graded : SameClasses m (recolour m [3, 8, 1, 0, 211, 200, 180, 90, 0, 7, 100, 99] 100 150 (-1)) := by
  intro x y hx hy
  have hx : x < 4 := hx
  have hy : y < 3 := hy
  interval_cases x <;> interval_cases y <;> exact ⟨rfl, rfl⟩

/-- The same with a gap in the wall. -/
theorem gap : OnlyFreed m (recolour m [0, 0, 0, 0, 255, 0, 255, 0, 0, 0, 0, 0] 50 200 (-1)) := by
  intro x y hx hy
  have hx : x < 4 := hx
  have hy : y < 3 := hy
  interval_cases x <;> interval_cases y <;> first | exact fun _ => rfl | (intro h; exact absurd h (by decide))

theorem free_eq : (mapFree m : GNode 4 3 → Bool) = SearchEx.free := by
  funext n
  obtain ⟨⟨x, hx⟩, ⟨y, hy⟩⟩ := n
  have hx' : x < 4 := hx
  have hy' : y < 3 := hy
  interval_cases x <;> interval_cases y <;> rfl

/-- With the gap the search still succeeds and the path is no longer. -/
example : ∃ fuel fuel' p p' st st' t t',
    findPathNodes (aStar (mapFree m) m.res) SearchEx.P SearchEx.cfg (freshLabels (aStar (mapFree m) m.res)) fuel = some (.ok p, st) ∧
    findPathNodes (aStar (w := 4) (h := 3) (mapFree (recolour m [0, 0, 0, 0, 255, 0, 255, 0, 0, 0, 0, 0] 50 200 (-1))) m.res) SearchEx.P SearchEx.cfg
      (freshLabels (aStar (mapFree (recolour m [0, 0, 0, 0, 255, 0, 255, 0, 0, 0, 0, 0] 50 200 (-1))) m.res)) fuel' = some (.ok p', st') ∧
    p.getLast? = some t ∧ p'.getLast? = some t' ∧
    gridLen (p'.map GNode.cell) * m.res + GridHeur.l2.fn m.res t' ((0, 2) : GNode 4 3) ≤
      gridLen (p.map GNode.cell) * m.res + GridHeur.l2.fn m.res t ((0, 2) : GNode 4 3) := by
  obtain ⟨fuel, p, st, h1, h2⟩ := SearchEx.finds_path
  have hA : SearchEx.A = aStar (w := 4) (h := 3) (mapFree m) m.res := by
    unfold SearchEx.A aStar; rw [← free_eq]; rfl
  rw [hA] at h1
  obtain ⟨fuel', p', st', h3, -⟩ := search_terminates_valid
    (A := aStar (w := 4) (h := 3) (mapFree (recolour m [0, 0, 0, 0, 255, 0, 255, 0, 0, 0, 0, 0] 50 200 (-1))) m.res)
    (grid_exact (by norm_num [m]) (euclid8 (by norm_num))).ok prioLawful SearchEx.cfg SearchEx.topRef_ok SearchEx.noExp
  obtain ⟨t, t', h4, h5, h6⟩ := grid_freed (m := m) gap (by norm_num [m]) (D := 1) (by norm_num) (.inr ⟨rfl, rfl⟩) .l2 prioLawful prioMin SearchEx.cfg
    SearchEx.topRef_ok (fun _ _ _ => rfl) (fun _ => rfl) rfl (s := ((0, 0) : GNode 4 3)) (g := ((0, 2) : GNode 4 3)) rfl rfl h1 h2 h3
  exact ⟨fuel, fuel', p, p', st, st', t, t', h1, h3, h4, h5, h6⟩

/-- There and back around the wall. -/
example : ∃ fuel fuel' p p' st st',
    findPathNodes SearchEx.A SearchEx.P SearchEx.cfg (freshLabels SearchEx.A) fuel = some (.ok p, st) ∧
    findPathNodes SearchEx.A SearchEx.P { SearchEx.cfg with start := [(0, 2)], goal := [(0, 0)] } (freshLabels SearchEx.A) fuel' = some (.ok p', st') ∧
    p ≠ [] ∧ p' ≠ [] ∧
    gridLen (upTo (0, 2) (p.map GNode.cell)) = gridLen (upTo (0, 0) (p'.map GNode.cell)) := by
  obtain ⟨fuel, p, st, h1, h2⟩ := SearchEx.finds_path
  obtain ⟨fuel', p', st', h3, -⟩ := search_terminates_valid SearchEx.costOk prioLawful
    { SearchEx.cfg with start := [(0, 2)], goal := [(0, 0)] } SearchEx.topRef_ok ⟨fun _ _ _ _ => rfl, fun _ _ _ _ h => by cases h⟩
  obtain ⟨e1, e2⟩ := there_and_back (free := SearchEx.free) (res := 1) (cfg := SearchEx.cfg)
    (cfg' := { SearchEx.cfg with start := [(0, 2)], goal := [(0, 0)] }) (s := (0, 0)) (g := (0, 2)) (by norm_num) prioLawful prioMin
    SearchEx.topRef_ok (fun _ _ _ => rfl) (fun _ => rfl) rfl SearchEx.topRef_ok (fun _ _ _ => rfl) (fun _ => rfl) rfl rfl rfl rfl rfl
    (by decide) (by decide) h1 h3
  exact ⟨fuel, fuel', p, p', st, st', h1, h3, h2, fun e => h2 (e1.2 e), e2 h2⟩

/-- A\* with the wall and with the gap. -/
example : ∃ r r', Legacy.planPath Legacy.realArith (recolour (GridMap.mk' 3 2 (1 : ℚ)) [0, 255, 0, 0, 0, 0] 50 200 (-1)) 7
      (Legacy.OL.create 3 2 fun _ => ⟨(0, 0), 0, 0, none, true, true⟩) (0, 0) (2, 1) = .ok (some r) ∧ r.found = true ∧
    Legacy.planPath Legacy.realArith (GridMap.mk' 3 2 (1 : ℚ)) 7
      (Legacy.OL.create 3 2 fun _ => ⟨(0, 0), 0, 0, none, true, true⟩) (0, 0) (2, 1) = .ok (some r') ∧ r'.found = true := by
  have ok1 : Legacy.MapOk (recolour (GridMap.mk' 3 2 (1 : ℚ)) [0, 255, 0, 0, 0, 0] 50 200 (-1)) :=
    ⟨⟨by decide, by decide, by decide, by decide⟩, by decide⟩
  have ok2 : Legacy.MapOk (GridMap.mk' 3 2 (1 : ℚ)) := ⟨⟨by decide, by decide, by decide, by decide⟩, by decide⟩
  have o1 := Legacy.AStarObj.create (A := Legacy.realArith) _ (fun _ => ⟨(0, 0), 0, 0, none, true, true⟩) ok1
  have o2 := Legacy.AStarObj.create (A := Legacy.realArith) _ (fun _ => ⟨(0, 0), 0, 0, none, true, true⟩) ok2
  obtain ⟨r, h1, h2⟩ := Legacy.planPath_complete o1 (0, 0) (2, 1) (fuel := 7) (by decide)
  have hfound : r.found = true := by
    refine h2.2 ⟨by unfold Legacy.Cell; decide, by unfold Legacy.Cell; decide, [(0, 0), (1, 1), (2, 1)], rfl, rfl, ?_, ?_⟩
    · simp [EightAdjacent]
    · intro c hc
      simp only [List.dropLast_cons_cons, List.dropLast_singleton, List.mem_cons, List.not_mem_nil, or_false] at hc
      rcases hc with rfl | rfl <;> exact ⟨by unfold Legacy.Cell; decide, by decide⟩
  obtain ⟨r', h3, h4⟩ := legacy_freed o1 o2 rfl rfl (by
    intro x y hx hy _
    have hx : x < 3 := hx
    have hy : y < 2 := hy
    interval_cases x <;> interval_cases y <;> rfl) (0, 0) (2, 1) (fuel := 7) (by decide) h1 hfound
  exact ⟨r, r', h1, hfound, h3, h4⟩

/-- Curves: with the settings of `RS.findPath_example` but a maximum arc of 26, a curve found on a map with an obstacle far
away is found again when the obstacle is gone. -/
example : ∃ (clamp : ℝ → ℝ) (g : RS.Gen) (M : RS.MapIf), (g.env clamp M false).Sane ∧ g.maxArc = some 26 ∧ 8 * Real.pi < 26 ∧
    (∃ x y, M.free x y = false) ∧ ∀ x y, M.free x y = true → (fun _ _ => true : Int → Int → Bool) x y = true := by
  obtain ⟨clamp, g, g', k, h1, h2, -, -⟩ := RS.findPath_example
  refine ⟨clamp, { g with maxArc := some 26 }, { RS.freeMap with free := fun x _ => decide (x < 100) }, ?_, rfl, ?_, ⟨100, 0, by simp⟩, fun _ _ _ => rfl⟩
  · exact ⟨h2.1, h2.2, h2.3, h2.4, h2.5, h2.6, h2.7, h2.8, h2.9⟩
  · have := Real.pi_lt_d2; linarith

end PathPlanning.MapChangeEx
