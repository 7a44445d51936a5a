import Verif.Props.SearchMaps
import Verif.Props.DuringGrid
import Verif.Props.SearchExamples

/-!
# Later searches on a grid map that has changed (C126): grids
-/

namespace PathPlanning.Maps
open PathPlanning Spec
set_option linter.unusedSectionVars false

variable {w h : Nat}

/-- No cell within one step of `s` is free now that was not free before. -/
def NoNewNeighbour (D : Int) (s : GNode w h) (before now : GNode w h → Bool) : Prop :=
  ∀ v : GNode w h, NearCell D s.cell v.cell → now v = true → before v = true

/-- **C126 (grid searches).**  4- or 8-neighbourhood of any step width, one of the listed heuristics; the object has been used for any
searches on maps of the same size, `free` is the map now.  The search ends; a path it returns leads from the start cell into the goal
region through cells that are free now, and comes to each cell shorter than the searches before (`CloserWalk`). -/
theorem grid_later {res : ℝ} (hr : 0 ≤ res) {dirs : List (Dir ℝ)} {D : Int} (hD : 0 < D) {adj : Int × Int → Int × Int → Prop}
    (hcase : (dirs = dirs4 D ∧ adj = Adj4 D) ∨ (dirs = dirs8 (Real.sqrt 2) D ∧ adj = Adj8 D))
    (heur : GNode w h → GNode w h → ℝ) {P : OpenList (GNode w h) ℝ} (L : Lawful P) (free0 free : GNode w h → Bool)
    {W S lab} (hU : UsedOn (gridAlgo free0 res dirs D heur gridHypot) P W S lab)
    (cfg : SCfg (GNode w h) ℝ) (ht : TopOk cfg.top) (hx : ∀ k n g, cfg.canExpand k n g = none)
    {s g : GNode w h} (hs : cfg.start = [s]) (hg : cfg.goal = [g]) :
    ∃ fuel p st', findPathNodes (gridAlgo free res dirs D heur gridHypot) P cfg lab fuel = some (.ok p, st') ∧
      (p ≠ [] → ∃ t : GNode w h, FreePath w h (freeCell free) adj s.cell t.cell (p.map GNode.cell) ∧ NearCell D g.cell t.cell ∧
        (t = s ∨ ((gridLen (p.map GNode.cell) * res : ℝ) : WithTop ℝ) < (lab t).dist)) := by
  have he : EuclidDirs dirs := by
    rcases hcase with ⟨rfl, _⟩ | ⟨rfl, _⟩
    · exact euclid4 hD.le
    · exact euclid8 hD.le
  have hde : DirsExact dirs adj := by
    rcases hcase with ⟨rfl, rfl⟩ | ⟨rfl, rfl⟩
    · exact dirs4_exact hD.le
    · exact dirs8_exact hD
  have hxo : ExpansionOk cfg := ⟨fun k s g _ => hx k s g, fun k n g e h => by rw [hx] at h; cases h⟩
  have ok : CostOk ((gridAlgo free0 res dirs D heur gridHypot).withSucc (gridSucc free res dirs)) := (grid_exact (free := free) hr he).ok
  obtain ⟨fuel, p, st', h1, h2, _⟩ := later_sound ok L hU cfg ht hxo (maps := fun _ => gridSucc free res dirs) (fun _ _ _ he => he)
  have h1' : findPathNodes (gridAlgo free res dirs D heur gridHypot) P cfg lab fuel = some (.ok p, st') := by
    rw [← During.constant (A := gridAlgo free res dirs D heur gridHypot)]
    unfold findPathDuring at h1 ⊢
    rw [← During.loop_withSucc (gridSucc free res dirs)] at h1
    rw [← During.loop_withSucc (gridSucc free res dirs)]
    exact h1
  refine ⟨fuel, p, st', h1', fun hp => ?_⟩
  obtain ⟨t, l, d, hw, hgo⟩ := h2.resolve_left hp
  rcases hgo with ⟨rfl, hgoal⟩ | ⟨_, _, k, e, he', _⟩
  · rw [hs] at hw
    have h3 : WalkTo (gridAlgo free res dirs D heur gridHypot) [s] t p d := hw.walk
    obtain ⟨hfp, hd⟩ := walkTo_freePath hde h3
    refine ⟨t, hfp, ?_, ?_⟩
    · obtain ⟨g', hg', hgg⟩ := hgoal
      rw [hg] at hg'
      rw [List.mem_singleton.1 hg'] at hgg
      have : gridIsGoal D g t = true := hgg
      simpa [gridIsGoal, NearCell, GNode.cell] using this
    · rcases hw.last with h | h
      · exact .inl (List.mem_singleton.1 h)
      · exact .inr (by rw [← hd]; exact h)
  · rw [hx] at he'; cases he'

/-- **C126 (planning again on a grid).**  A search from the cell `s` was made, then the map was changed without calling `setMap`.  As long
as no cell in the reach of one step of `s` was freed, searching from `s` again finds nothing - also if the way to the goal is free
now. -/
theorem grid_replan_fails {res : ℝ} (hr : 0 ≤ res) {dirs : List (Dir ℝ)} {D : Int} (hD : 0 < D)
    (hcase : dirs = dirs4 D ∨ dirs = dirs8 (Real.sqrt 2) D)
    (heur : GNode w h → GNode w h → ℝ) {P : OpenList (GNode w h) ℝ} (L : Lawful P) (before now : GNode w h → Bool)
    (cfg cfg2 : SCfg (GNode w h) ℝ) (ht : TopOk cfg.top) (ht2 : TopOk cfg2.top) (hx : ExpansionOk cfg)
    (hx2 : ∀ k n g, cfg2.canExpand k n g = none) (hab : cfg.abort 0 = false) (hab2 : ∀ k, cfg2.abort k = false)
    {s g g2 : GNode w h} (hs : cfg.start = [s]) (hs2 : cfg2.start = [s]) (hg : cfg.goal = [g]) (hg2 : cfg2.goal = [g2])
    (hn : ¬ NearCell D g.cell s.cell) (hn2 : ¬ NearCell D g2.cell s.cell) (hnew : NoNewNeighbour D s before now)
    {fuel : Nat} {r} {st : SSt (GNode w h) ℝ P}
    (hrun : findPathNodes (gridAlgo before res dirs D heur gridHypot) P cfg (freshLabels (gridAlgo before res dirs D heur gridHypot)) fuel
      = some (r, st)) :
    ∃ fuel2 st2, findPathNodes (gridAlgo now res dirs D heur gridHypot) P cfg2 st.lab fuel2 = some (.ok [], st2) := by
  have he : EuclidDirs dirs := by
    rcases hcase with rfl | rfl
    · exact euclid4 hD.le
    · exact euclid8 hD.le
  have hnear : ∀ d ∈ dirs, |d.dx| ≤ D ∧ |d.dy| ≤ D := by
    have hD' : |D| = D := abs_of_pos hD
    rcases hcase with rfl | rfl
    · intro d hd
      simp only [dirs4, List.mem_cons, List.not_mem_nil, or_false] at hd
      rcases hd with rfl | rfl | rfl | rfl <;> simp [hD', hD.le]
    · intro d hd
      simp only [dirs8, List.mem_cons, List.not_mem_nil, or_false] at hd
      rcases hd with rfl | rfl | rfl | rfl | rfl | rfl | rfl | rfl <;> simp [hD', hD.le]
  have hnc : ∀ (g t : GNode w h), gridIsGoal D g t = true ↔ NearCell D g.cell t.cell := by
    intro g t
    simp [gridIsGoal, NearCell, GNode.cell]
  refine replan_fails (A := gridAlgo before res dirs D heur gridHypot) (U := gridSucc now res dirs) (grid_exact hr he).ok
    (grid_exact (free := now) hr he).ok L cfg cfg2 hs hs2 ht ht2 hx hx2 ?_ ?_ hab hab2 ?_ hrun
  · rintro ⟨g', hg', hgg⟩
    rw [hg] at hg'
    rw [List.mem_singleton.1 hg'] at hgg
    exact hn ((hnc g s).1 hgg)
  · rintro ⟨g', hg', hgg⟩
    rw [hg2] at hg'
    rw [List.mem_singleton.1 hg'] at hgg
    exact hn2 ((hnc g2 s).1 hgg)
  · rintro ⟨v, c⟩ hv
    obtain ⟨hf, d, hd, h1, h2, h3⟩ := mem_gridSucc.1 hv
    refine mem_gridSucc.2 ⟨hnew v ?_ hf, d, hd, h1, h2, h3⟩
    obtain ⟨k1, k2⟩ := hnear d hd
    unfold NearCell GNode.cell
    simp only
    rw [h1, h2, show ((s.1 : Nat) : Int) - (((s.1 : Nat) : Int) + d.dx) = -d.dx by ring,
      show ((s.2 : Nat) : Int) - (((s.2 : Nat) : Int) + d.dy) = -d.dy by ring, abs_neg, abs_neg]
    exact ⟨k1, k2⟩

namespace Ex
open SearchEx

/-- The middle row is closed; `SearchEx.free` has a gap at (3,1). -/
def closed (n : W) : Bool := n.2.val != 1

noncomputable def AClosed : Algo W ℝ := gridAlgo closed 1 (dirs8 (Real.sqrt 2) 1) 1 (GridHeur.l2.fn 1) gridHypot

theorem noNew : NoNewNeighbour 1 ((0, 0) : W) closed free := by
  unfold NoNewNeighbour NearCell GNode.cell closed free
  decide +kernel

/-- The wall is closed and the first search finds nothing; then a gap is opened and the goal can be reached (`SearchEx.reachable`), but
the search from the same cell finds nothing - while a search after `setMap` finds a way (`SearchEx.finds_path`). -/
theorem gap_not_found : ∃ f1 r1 st1 f2 st2, findPathNodes AClosed P cfg (freshLabels AClosed) f1 = some (r1, st1) ∧
    findPathNodes A P cfg st1.lab f2 = some (.ok [], st2) ∧
    (∃ n d, Reach A cfg.start n d ∧ InGoalRegion A cfg.goal n) ∧
    ∃ f3 p3 st3, findPathNodes A P cfg (freshLabels A) f3 = some (.ok p3, st3) ∧ p3 ≠ [] := by
  obtain ⟨f1, p1, st1, h1, _⟩ := search_empty_iff (A := AClosed) (grid_exact (by norm_num) (euclid8 (by norm_num))).ok prioLawful cfg topRef_ok
    (fun _ _ _ => rfl) (fun _ => rfl)
  have hn : ¬ NearCell 1 (GNode.cell ((0, 2) : W)) (GNode.cell ((0, 0) : W)) := by
    unfold NearCell GNode.cell
    decide
  obtain ⟨f2, st2, h2⟩ := grid_replan_fails (res := 1) (by norm_num) (D := 1) (by norm_num) (.inr rfl) (GridHeur.l2.fn 1) prioLawful closed
    free cfg cfg topRef_ok topRef_ok noExp (fun _ _ _ => rfl) rfl (fun _ => rfl) rfl rfl rfl rfl hn hn noNew h1
  exact ⟨f1, _, st1, f2, st2, h1, h2, reachable, finds_path⟩

/-- `grid_later` applies: after the search on the closed map, the object is asked for a way from (2,2) on the map with the gap. -/
example : ∃ f1 p1 st1 f2 p2 st2, findPathNodes AClosed P cfg (freshLabels AClosed) f1 = some (.ok p1, st1) ∧
    findPathNodes A P { cfg with start := [(2, 2)] } st1.lab f2 = some (.ok p2, st2) := by
  obtain ⟨f1, p1, st1, h1, _⟩ := search_empty_iff (A := AClosed) (grid_exact (by norm_num) (euclid8 (by norm_num))).ok prioLawful cfg topRef_ok
    (fun _ _ _ => rfl) (fun _ => rfl)
  have hU : UsedOn A P _ _ st1.lab := .find (A := A) (P := P) (maps := fun _ => AClosed.succ) (U := AClosed.succ) .setMap
    (fun _ _ _ he => he) (grid_exact (free := closed) (by norm_num) (euclid8 (by norm_num))).ok topRef_ok noExp (by
      have := h1
      rw [← During.constant] at this
      unfold findPathDuring at this ⊢
      rw [← During.loop_withSucc AClosed.succ]
      exact this)
  obtain ⟨f2, p2, st2, h2, _⟩ := grid_later (res := 1) (by norm_num) (D := 1) (by norm_num) (.inr ⟨rfl, rfl⟩) (GridHeur.l2.fn 1) prioLawful
    free free hU { cfg with start := [(2, 2)] } topRef_ok (fun _ _ _ => rfl) (s := (2, 2)) rfl rfl
  exact ⟨f1, p1, st1, f2, p2, st2, h1, h2⟩

end Ex
end PathPlanning.Maps
