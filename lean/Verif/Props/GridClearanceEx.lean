import Verif.Props.GridClearance
import Verif.Props.LegacyOpt

/-!
# Grid paths as motions of a disc: concrete searches (C108)
-/

noncomputable section

namespace PathPlanning
open Spec

namespace GridClearEx

/-- A 7 × 7 map with an obstacle in cell (3,3), grown by one cell. -/
abbrev W := GNode 7 7

def obstacle (c : Int × Int) : Prop := c = (3, 3)

def free (n : W) : Bool := !(decide (2 ≤ n.1.val) && decide (n.1.val ≤ 4) && decide (2 ≤ n.2.val) && decide (n.2.val ≤ 4))

def A : Algo W ℝ := gridAlgo free 1 (dirs8 (Real.sqrt 2) 1) 1 (GridHeur.l2.fn 1) gridHypot

def cfg : SCfg W ℝ where
  start := [(1, 3)]
  goal := [(4, 6)]
  useCands := false
  oversearch := 0
  accept := none
  abort _ := false
  canExpand _ _ _ := none
  top := SearchEx.topRef

theorem costOk : CostOk A := (grid_exact (by norm_num) (euclid8 (by norm_num))).ok

theorem grown : Grown free 1 obstacle := by
  rintro o n rfl ⟨h1, h2⟩
  revert h1 h2
  unfold GNode.cell
  revert n
  decide +kernel

theorem step_free {n m : W} {d : Dir ℝ} (hd : d ∈ dirs8 (Real.sqrt 2) 1) (hf : free m = true)
    (hx : ((m.1 : Nat) : Int) = (n.1 : Nat) + d.dx) (hy : ((m.2 : Nat) : Int) = (n.2 : Nat) + d.dy) :
    (m, d.delta * 1) ∈ A.succ n := mem_gridSucc.2 ⟨hf, d, hd, hx, hy, rfl⟩

/-- The goal region is reached past the corner of the grown obstacle: (1,3) (1,4) (2,5) (3,6). -/
theorem reachable : ∃ n d, Reach A cfg.start n d ∧ InGoalRegion A cfg.goal n := by
  have r0 : Reach A cfg.start ((1, 3) : W) A.zero := .start (by simp [cfg])
  have r1 := Reach.step r0 (step_free (n := (1, 3)) (m := (1, 4)) (d := ⟨0, 1, ((1 : Int) : ℝ)⟩)
    (by simp [dirs8]) (by decide) (by decide) (by decide))
  have r2 := Reach.step r1 (step_free (n := (1, 4)) (m := (2, 5))
    (d := ⟨1, 1, Real.sqrt 2 * ((1 : Int) : ℝ)⟩) (by simp [dirs8]) (by decide) (by decide) (by decide))
  have r3 := Reach.step r2 (step_free (n := (2, 5)) (m := (3, 6))
    (d := ⟨1, 1, Real.sqrt 2 * ((1 : Int) : ℝ)⟩) (by simp [dirs8]) (by decide) (by decide) (by decide))
  exact ⟨_, _, r3, (4, 6), by simp [cfg], by
    show gridIsGoal 1 ((4, 6) : W) (3, 6) = true
    decide⟩

/-- A robot with a radius of 1.4 cells can follow the path that the search finds around the obstacle. -/
theorem robot_fits : ∃ fuel p st', findPathNodes A PriorityManager cfg (freshLabels A) fuel = some (.ok p, st') ∧ p ≠ [] ∧
    DiscClear (7 / 5) obstacle (p.map GNode.cell) := by
  obtain ⟨f1, p1, s1, h1, h2⟩ := search_empty_iff costOk prioLawful cfg SearchEx.topRef_ok (fun _ _ _ => rfl) (fun _ => rfl)
  obtain ⟨f2, p2, s2, h3, h4, -⟩ := grid_search_clear (r := 7 / 5) (free := free) (adj := Adj8 1) (D := 1) costOk prioLawful
    (steps8 (by norm_num)) (d := 1) ⟨by norm_num, by norm_num, .inr (.inl ⟨rfl, by norm_num, by norm_num⟩)⟩ grown .setMap cfg
    SearchEx.topRef_ok (fun _ _ _ => rfl) (by
      intro s hs o ho hc
      simp only [cfg, List.mem_singleton] at hs
      subst hs; rw [ho] at hc
      revert hc; unfold CellsWithin GNode.cell; decide)
  have h5 := search_result_unique h1 h3
  simp only [Prod.mk.injEq, CRes.ok.injEq] at h5
  obtain ⟨rfl, -⟩ := h5
  exact ⟨f1, p1, s1, h1, fun hp => h2.1 hp reachable, h4⟩

/-! ## Without growing: squeezing between two obstacles -/

/-- A 3 × 3 map with a diagonal wall (0,2), (1,1), (2,0). -/
abbrev W3 := GNode 3 3

def wall (c : Int × Int) : Prop := c.1 + c.2 = 2

def free3 (n : W3) : Bool := decide (n.1.val + n.2.val ≠ 2)

def A3 : Algo W3 ℝ := gridAlgo free3 1 (dirs8 (Real.sqrt 2) 1) 1 (GridHeur.l2.fn 1) gridHypot

def cfg3 : SCfg W3 ℝ where
  start := [(0, 0)]
  goal := [(2, 2)]
  useCands := false
  oversearch := 0
  accept := none
  abort _ := false
  canExpand _ _ _ := none
  top := SearchEx.topRef

theorem costOk3 : CostOk A3 := (grid_exact (by norm_num) (euclid8 (by norm_num))).ok

theorem reachable3 : ∃ n d, Reach A3 cfg3.start n d ∧ InGoalRegion A3 cfg3.goal n := by
  have st : ∀ {n m : W3} {d : Dir ℝ}, d ∈ dirs8 (Real.sqrt 2) 1 → free3 m = true → ((m.1 : Nat) : Int) = (n.1 : Nat) + d.dx →
      ((m.2 : Nat) : Int) = (n.2 : Nat) + d.dy → (m, d.delta * 1) ∈ A3.succ n :=
    fun hd hf hx hy => mem_gridSucc.2 ⟨hf, _, hd, hx, hy, rfl⟩
  have r0 : Reach A3 cfg3.start ((0, 0) : W3) A3.zero := .start (by simp [cfg3])
  have r1 := Reach.step r0 (st (n := (0, 0)) (m := (1, 0)) (d := ⟨1, 0, ((1 : Int) : ℝ)⟩)
    (by simp [dirs8]) (by decide) (by decide) (by decide))
  have r2 := Reach.step r1 (st (n := (1, 0)) (m := (2, 1))
    (d := ⟨1, 1, Real.sqrt 2 * ((1 : Int) : ℝ)⟩) (by simp [dirs8]) (by decide) (by decide) (by decide))
  exact ⟨_, _, r2, (2, 2), by simp [cfg3], by
    show gridIsGoal 1 ((2, 2) : W3) (2, 1) = true
    decide⟩

/-- A path from below the wall to above it steps over it diagonally. -/
theorem crosses {n : W3} {l : List W3} {c : ℝ} (hw : WalkTo A3 cfg3.start n l c) :
    n.1.val + n.2.val < 2 ∨ ∃ u v : Int × Int, [u, v] <:+: l.map GNode.cell ∧ u.1 + u.2 = 1 ∧ v = (u.1 + 1, u.2 + 1) := by
  have hlast : ∀ {n : W3} {l : List W3} {c : ℝ}, WalkTo A3 cfg3.start n l c → ∃ l', l = l' ++ [n] := by
    intro n l c h
    cases h with
    | start _ => exact ⟨[], rfl⟩
    | step _ _ => exact ⟨_, rfl⟩
  induction hw with
  | @start s h =>
    simp only [cfg3, List.mem_singleton] at h
    subst h; exact .inl (by decide)
  | @step u v l d c hw he ih =>
    rcases ih with ih | ⟨a, b, hm, h1, h2⟩
    · obtain ⟨hf, dr, hdr, e1, e2, -⟩ := mem_gridSucc.1 he
      by_cases hv : v.1.val + v.2.val < 2
      · exact .inl hv
      · right
        have hv2 : v.1.val + v.2.val ≠ 2 := by simpa [free3] using hf
        obtain ⟨h1, h2⟩ := adj8_within (D := 1) (by norm_num) (steps8 (by norm_num) dr hdr u.cell v.cell e1 e2)
        obtain ⟨l', rfl⟩ := hlast hw
        refine ⟨u.cell, v.cell, ⟨l'.map GNode.cell, [], by simp⟩, ?_, ?_⟩
        · have := abs_le.1 h1; have := abs_le.1 h2
          simp only [GNode.cell] at *
          omega
        · have := abs_le.1 h1; have := abs_le.1 h2
          simp only [GNode.cell, Prod.mk.injEq] at *
          omega
    · exact .inr ⟨a, b, by rw [List.map_append]; exact hm.trans (List.infix_append' [] _ _), h1, h2⟩

theorem above3 : ∀ t : W3, t.1.val + t.2.val < 2 → gridIsGoal 1 ((2, 2) : W3) t = true → False := by decide +kernel

/-- **The 8-neighbourhood squeezes between obstacles that touch at a corner**: without growing the obstacles the search finds a path through the
closed wall, and no disc of positive radius can follow it. -/
theorem squeezes : ∃ fuel p st', findPathNodes A3 PriorityManager cfg3 (freshLabels A3) fuel = some (.ok p, st') ∧ p ≠ [] ∧
    ∀ r : ℝ, 0 < r → ¬ DiscClear r wall (p.map GNode.cell) := by
  obtain ⟨f1, p1, s1, h1, h2⟩ := search_empty_iff costOk3 prioLawful cfg3 SearchEx.topRef_ok (fun _ _ _ => rfl) (fun _ => rfl)
  obtain ⟨f2, p2, s2, h3, h4, -⟩ := later_search_sound costOk3 prioLawful .setMap cfg3 SearchEx.topRef_ok
    ⟨fun _ _ _ _ => rfl, fun _ _ _ _ h => by cases h⟩
  have h5 := search_result_unique h1 h3
  simp only [Prod.mk.injEq, CRes.ok.injEq] at h5
  obtain ⟨rfl, -⟩ := h5
  have hne : p1 ≠ [] := fun hp => h2.1 hp reachable3
  refine ⟨f1, p1, s1, h1, hne, fun r hr hclear => ?_⟩
  rcases h4 with h4 | ⟨t, l, d, hw, ⟨rfl, g, hg, hgt⟩ | ⟨g, -, k, e, he, -⟩⟩
  · exact hne h4
  · rcases crosses hw.walk with h6 | ⟨u, v, hm, hu, rfl⟩
    · simp only [cfg3, List.mem_singleton] at hg
      subst hg
      have hgt' : gridIsGoal 1 ((2, 2) : W3) t = true := hgt
      exact above3 t h6 hgt'
    · have hu' : (u.1 : ℝ) + u.2 = 1 := by exact_mod_cast hu
      have hmin : 0 < min r 1 := lt_min hr one_pos
      refine hclear ⟨(u.1 : ℝ) + 1, u.2 + 1⟩ (u.1 + 1, u.2) (.inr ⟨u, _, hm, 1 / 2, by norm_num, by norm_num, ?_, ?_⟩)
        (by show u.1 + 1 + u.2 = 2; omega) ⟨⟨(u.1 : ℝ) + 1, u.2 + 1 - min r 1⟩, ⟨?_, ?_, ?_, ?_⟩, ?_⟩
      · simp only [cellCentre]; push_cast; ring
      · simp only [cellCentre]; push_cast; ring
      · simp
      · simp
      · have := min_le_right r 1
        simp only; linarith
      · simp only; linarith
      · have h7 := min_le_left r 1
        simp only
        nlinarith
  · cases he

/-! ## Legacy A* and distance transform -/

/-- The corner cell (0,0) of a 4 × 4 map is an obstacle, grown by one cell. -/
def corner : GridMap ℚ := { GridMap.mk' 4 4 (1 : ℚ) with data := [255, 255, 0, 0, 255, 255, 0, 0, 0, 0, 0, 0, 0, 0, 0, 0] }

theorem corner_ok : Legacy.MapOk corner := ⟨⟨by decide, by decide, by decide, by decide⟩, by decide⟩

/-- `legacy_clear` applies: the search from (0,3) to (3,0) succeeds, and a robot with a radius of 1.4 cells can follow its path. -/
theorem legacy_fits : ∃ r, Legacy.planPath Legacy.realArith corner 17
    (Legacy.OL.create 4 4 fun _ => ⟨(0, 0), 0, 0, none, true, true⟩) (0, 3) (3, 0) = .ok (some r) ∧ r.found = true ∧
    DiscClear (7 / 5) (fun c => c = (0, 0)) r.path := by
  have hobj := Legacy.AStarObj.create (A := Legacy.realArith) corner (fun _ => ⟨(0, 0), 0, 0, none, true, true⟩) corner_ok
  obtain ⟨r, h1, h2⟩ := Legacy.planPath_complete (A := Legacy.realArith) hobj (0, 3) (3, 0) (fuel := 17) (by decide)
  refine ⟨r, h1, h2.2 ⟨by unfold Legacy.Cell; decide, by unfold Legacy.Cell; decide, [(0, 3), (1, 2), (2, 1), (3, 0)], ?_⟩, ?_⟩
  · refine ⟨rfl, rfl, by simp [EightAdjacent], ?_⟩
    intro c hc
    simp only [List.dropLast_cons_cons, List.dropLast_singleton, List.mem_cons, List.not_mem_nil, or_false] at hc
    rcases hc with rfl | rfl | rfl <;> exact ⟨by unfold Legacy.Cell; decide, by decide⟩
  · refine legacy_clear hobj (0, 3) (3, 0) (by decide) r h1 (d := 1) (by norm_num) (by norm_num) (by norm_num) (by norm_num) ?_ ?_
    · rintro ob ⟨x, y⟩ rfl ⟨h3, h4⟩ ⟨⟨h5, -, h6, -⟩, h7⟩
      have := abs_le.1 h3; have := abs_le.1 h4
      simp only at *
      have hx : x = 0 ∨ x = 1 := by omega
      have hy : y = 0 ∨ y = 1 := by omega
      rcases hx with rfl | rfl <;> rcases hy with rfl | rfl <;> revert h7 <;> decide
    · rintro o rfl
      unfold CellsWithin; decide

/-- The cell (3,3) of a 7 × 7 array is an obstacle, grown by one cell. -/
def occ7 (v : Int × Int) : Bool := decide (2 ≤ v.1 ∧ v.1 ≤ 4 ∧ 2 ≤ v.2 ∧ v.2 ≤ 4)

/-- `dt_clear` applies: the path from (1,4) to (2,5) past the corner of the grown obstacle. -/
theorem dt_fits : ∃ fuel c p, DT.loop 7 7 fuel (DT.init occ7 (2, 5)) = some c ∧
    DT.backtrack 7 7 DT.nb8 c (2, 5) 50 (1, 4) = some p ∧ p.getLast? = some (2, 5) ∧ DiscClear (7 / 5) (fun c => c = (3, 3)) p := by
  have hg : DT.InArr 7 7 (2, 5) := by unfold DT.InArr; decide
  have hw := Walk.snoc (ok := fun v => Interior 7 7 v ∧ occ7 v = false) (goal := (2, 5)) (v := (1, 4)) Walk.nil (by unfold Touch; decide)
    ⟨by unfold Interior; decide, by decide⟩
  obtain ⟨fuel, c, p, h1, h2, -, h4, -⟩ := DT.dt_complete 7 7 occ7 (2, 5) (1, 4) hg _ hw
  obtain ⟨x, hx, -⟩ := (DT.dt_exact h1).2.2 (1, 4) _ hw
  refine ⟨fuel, c, p, h1, h2, h4, dt_clear hg h1 hx h2 (d := 1) (by norm_num) (by norm_num) (by norm_num) (by norm_num) ?_ ?_⟩
  · rintro ob v rfl ⟨h5, h6⟩
    have := abs_le.1 h5; have := abs_le.1 h6
    simp only [occ7, decide_eq_true_eq] at *
    omega
  · rintro o rfl
    unfold CellsWithin; decide

end GridClearEx

end PathPlanning
