import Verif.Props.DistTransMetric
import Verif.Props.SearchExamples

/-!
# C127: examples
-/

noncomputable section

namespace PathPlanning.DT
open Spec

namespace Metric.Ex

/-- A room of 4 × 3 cells inside an occupied border, with a wall of two cells. -/
def occ (v : Cell) : Bool := !(decide (1 ≤ v.1 ∧ v.1 < 5 ∧ 1 ≤ v.2 ∧ v.2 < 4)) || decide (v = (2, 1) ∨ v = (2, 2))
/-- The same room without the wall. -/
def occ' (v : Cell) : Bool := !(decide (1 ≤ v.1 ∧ v.1 < 5 ∧ 1 ≤ v.2 ∧ v.2 < 4))

abbrev W := GNode 6 5
def free (n : W) : Bool := !occ n.cell

def cfg : SCfg W ℝ where
  start := [(1, 1)]
  goal := [(3, 1)]
  useCands := false
  oversearch := 0
  accept := none
  abort _ := false
  canExpand _ _ _ := none
  top := SearchEx.topRef

theorem border : ∀ n : W, free n = true → Interior 6 5 n.cell := by
  unfold free Interior GNode.cell occ
  decide +kernel

theorem t_cell : GNode.cell ((3, 1) : W) = (3, 1) := by decide
theorem s_cell : GNode.cell ((1, 1) : W) = (1, 1) := by decide

/-- A walk around the wall. -/
theorem way : Walk (Usable 6 5 occ) (3, 1) (1, 1) (0 + 1 + Real.sqrt 2 + Real.sqrt 2 + 1) := by
  have u (v : Cell) (h : Interior 6 5 v ∧ occ v = false) : Usable 6 5 occ v := h
  have k1 := Walk.snoc (Walk.nil (ok := Usable 6 5 occ) (goal := (3, 1))) (v := (3, 2)) (by unfold Touch; decide)
    (u _ (by unfold Interior; decide))
  have k2 := k1.snoc (v := (2, 3)) (by unfold Touch; decide) (u _ (by unfold Interior; decide))
  have k3 := k2.snoc (v := (1, 2)) (by unfold Touch; decide) (u _ (by unfold Interior; decide))
  have k4 := k3.snoc (v := (1, 1)) (by unfold Touch; decide) (u _ (by unfold Interior; decide))
  simpa [stepLen] using k4

/-- The field is finite at the start, A\* finds a path, and the length of the path is the value of the field and of the heuristic. -/
example : ∃ f1 c x f2 p st, loop 6 5 f1 (init occ (3, 1)) = some c ∧ c (1, 1) = fin x ∧
    findPathNodes (MapChange.aStar free 1) PriorityManager cfg (freshLabels (MapChange.aStar free 1)) f2 = some (.ok p, st) ∧
    p ≠ [] ∧ gridLen (upTo (3, 1) (p.map GNode.cell)) = x ∧ x ≤ 2 + 2 * Real.sqrt 2 ∧
    holoCompute 0 (some c) 1 (1, 1) = some x := by
  obtain ⟨f1, c, hl⟩ := loop_terminates 6 5 occ (3, 1)
  obtain ⟨x, hx, hxL⟩ := (dt_exact hl).2.2 _ _ way
  obtain ⟨f2, p, st, h1, -⟩ := search_terminates_valid (A := MapChange.aStar free 1) (grid_exact (by norm_num) (euclid8 (by norm_num))).ok
    prioLawful cfg SearchEx.topRef_ok ⟨fun _ _ _ _ => rfl, fun _ _ _ _ h => by cases h⟩
  have hl' : loop 6 5 f1 (init occ (GNode.cell ((3, 1) : W))) = some c := by rw [t_cell]; exact hl
  have hx' : c (GNode.cell ((1, 1) : W)) = fin x := by rw [s_cell]; exact hx
  obtain ⟨hp, -⟩ := astar_le (occ := occ) (free := free) (s := (1, 1)) (t := (3, 1)) (cfg := cfg) (fun _ => rfl) one_pos prioLawful prioMin SearchEx.topRef_ok
    (fun _ _ _ => rfl) (fun _ => rfl) rfl rfl rfl (by decide) (by decide) (border _ (by decide)) h1 hl' hx'
  have e := (astar_eq (occ := occ) (free := free) (s := (1, 1)) (t := (3, 1)) (cfg := cfg) (fun _ => rfl) border one_pos prioLawful prioMin SearchEx.topRef_ok
    (fun _ _ _ => rfl) (fun _ => rfl) rfl rfl rfl (by decide) (by decide) h1 hl').2 hp
  have e2 := heuristic_perfect (occ := occ) (free := free) (s := (1, 1)) (t := (3, 1)) (cfg := cfg) (c := c) (fuel' := f1) (fun _ => rfl) border one_pos prioLawful prioMin SearchEx.topRef_ok
    (fun _ _ _ => rfl) (fun _ => rfl) rfl rfl rfl (by decide) (by decide) h1 hp (by unfold holoSetMap; simpa using hl')
  rw [hx'] at e
  have e3 := fin_inj.1 e
  rw [t_cell] at e3 e2
  rw [s_cell, mul_one] at e2
  exact ⟨f1, c, x, f2, p, st, hl, hx, h1, hp, e3.symm, by linarith, by rw [e2, e3]⟩

/-- There and back, with the same value. -/
example : ∃ f1 c f2 d x, loop 6 5 f1 (init occ (3, 1)) = some c ∧ loop 6 5 f2 (init occ (1, 1)) = some d ∧ c (1, 1) = d (3, 1) ∧ c (1, 1) = fin x := by
  obtain ⟨f1, c, hl⟩ := loop_terminates 6 5 occ (3, 1)
  obtain ⟨f2, d, hl'⟩ := loop_terminates 6 5 occ (1, 1)
  obtain ⟨x, hx, -⟩ := (dt_exact hl).2.2 _ _ way
  exact ⟨f1, c, f2, d, x, hl, hl', symmetric hl hl' (by unfold Interior; decide) (by unfold Interior; decide), hx⟩

/-- Without the wall the value at the start really falls: at most 2 instead of at least 3. -/
example : ∃ f1 c f2 c' x y, loop 6 5 f1 (init occ (3, 1)) = some c ∧ loop 6 5 f2 (init occ' (3, 1)) = some c' ∧ (∀ a, c' a ≤ c a) ∧
    c (1, 1) = fin x ∧ c' (1, 1) = fin y ∧ y ≤ 2 := by
  obtain ⟨f1, c, hl⟩ := loop_terminates 6 5 occ (3, 1)
  obtain ⟨f2, c', hl'⟩ := loop_terminates 6 5 occ' (3, 1)
  obtain ⟨x, hx, -⟩ := (dt_exact hl).2.2 _ _ way
  have k1 := Walk.snoc (Walk.nil (ok := Usable 6 5 occ') (goal := (3, 1))) (v := (2, 1)) (by unfold Touch; decide)
    (by unfold Usable Interior; decide)
  have k2 := k1.snoc (v := (1, 1)) (by unfold Touch; decide) (by unfold Usable Interior; decide)
  have k3 : Walk (Usable 6 5 occ') (3, 1) (1, 1) 2 := by
    have : (0 : ℝ) + stepLen (3, 1) (2, 1) + stepLen (2, 1) (1, 1) = 2 := by simp [stepLen]; norm_num
    rwa [this] at k2
  obtain ⟨y, hy, i⟩ := (dt_exact hl').2.2 _ _ k3
  exact ⟨f1, c, f2, c', x, y, hl, hl', freed (fun a ha => by unfold occ; rw [show (!decide (1 ≤ a.1 ∧ a.1 < 5 ∧ 1 ≤ a.2 ∧ a.2 < 4)) = true from ha]; rfl) hl hl', hx, hy, i⟩

/-- The room with the coordinates exchanged and shifted into a larger map. -/
example : ∃ (M : Spec.Motion) (o : Cell → Bool), M.swap = true ∧ Moved M (Usable 6 5 occ) (Usable 9 12 o) := by
  refine ⟨⟨true, false, false, 2, 3⟩, fun v => occ (v.2 - 3, v.1 - 2), rfl, fun v => ?_⟩
  obtain ⟨a, b⟩ := v
  simp only [Usable, Interior, Spec.Motion.act, if_true, Bool.false_eq_true, if_false, add_sub_cancel_right]
  constructor
  · rintro ⟨h1, h2⟩; exact ⟨by omega, h2⟩
  · rintro ⟨-, h2⟩
    refine ⟨?_, h2⟩
    unfold occ at h2
    simp at h2
    omega

end Metric.Ex
end PathPlanning.DT
