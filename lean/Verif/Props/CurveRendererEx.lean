import Verif.Props.CurveRenderer
import Verif.Props.RSCost

/-!
# C112 — concrete cases
-/

namespace PathPlanning.CurveRender

open RS Render Spec

/-- **Concrete case.**  A curve that is drawn: the hypotheses of `draw_findPath` and `draw_zero_thickness` can be met. -/
theorem draw_example : ∃ (clamp : ℝ → ℝ) (g : Gen) (k k' : Curve) (fuel : Nat) (cmds : List Cmd),
    draw (g.env clamp freeMap false) false 500 fuel k = .ok (some (cmds, k')) ∧ (∃ p q, Cmd.line .way p q 0 ∈ cmds) ∧
    arrow 500 .start ⟨0, 0, 0⟩ 1 <:+ cmds := by
  obtain ⟨clamp, g, g', k, hE, halt, h, hv, -⟩ := findPath_valid_example
  obtain ⟨n, hn⟩ := draw_zero_thickness g g' clamp _ _ _ _ hE halt k h hv 500
  obtain ⟨ps, -, hps⟩ := draw_findPath g g' clamp _ _ _ _ hE halt k h hv 500
  obtain ⟨cmds, k', e, hq⟩ := hn (max n ps.length) (le_max_left _ _)
  obtain ⟨k'', e', -⟩ := hps (max n ps.length) (le_max_right _ _)
  rw [e] at e'
  injection e' with e'
  injection e' with e'
  injection e' with e1 e2
  exact ⟨clamp, g, k, k', _, cmds, e, hq, by rw [e1]; exact List.suffix_append _ _⟩

/-- A map of two cells: the left one free, the right one occupied (value 255). -/
def two : GridMap ℝ := ⟨2, 1, 1, 0, 0, [0, 255], 50, 200, -1⟩

theorem two_wf : two.WellFormed := ⟨by decide, by decide, by decide, by decide⟩

/-- **Concrete case.**  The free cell is shown white, the occupied one black. -/
theorem two_drawn : ∃ o', drawMap two ⟨1, 2, fun _ _ => (7, 7, 7)⟩ = .ok o' ∧ o'.px 0 0 = (255, 255, 255) ∧
    o'.px 0 1 = (0, 0, 0) := by
  obtain ⟨o', e, -, -, h, -⟩ := drawMap_pixel two two_wf ⟨1, 2, fun _ _ => (7, 7, 7)⟩ (by decide) (by decide)
  refine ⟨o', e, ?_, ?_⟩
  · exact (h 0 0 (by decide) (by decide)).1 rfl
  · exact (h 1 0 (by decide) (by decide)).2 255 rfl rfl

/-- **Concrete case.**  The point `(2.5, 3.5)` is drawn on the pixel of its cell `(2, 3)`, the point `(2.5, 3)` on the one of
the cell below. -/
theorem point_example : p2cv ⟨5 / 2, 7 / 2⟩ 10 = (2, 6) ∧ p2cv ⟨5 / 2, 3⟩ 10 = (2, 7) ∧ pixelOf 10 2 3 = (2, 6) := by
  have fl : ⌊(5 / 2 : ℝ)⌋ = 2 := by rw [Int.floor_eq_iff]; constructor <;> norm_num
  have fl' : ⌊(7 / 2 : ℝ)⌋ = 3 := by rw [Int.floor_eq_iff]; constructor <;> norm_num
  refine ⟨?_, ?_, rfl⟩
  · rw [(point_pixel (h := 10) (p := ⟨5 / 2, 7 / 2⟩) (by norm_num) (by norm_num)).1 ?_]
    · simp only [fl, fl']; rfl
    · intro j hj
      simp only at hj
      have h2 : (7 : ℝ) = ((2 * j : Int) : ℝ) := by push_cast; linarith
      have h3 : (7 : Int) = 2 * j := by exact_mod_cast h2
      omega
  · rw [(point_pixel (h := 10) (p := ⟨5 / 2, 3⟩) (by norm_num) (by norm_num)).2 3 (by norm_num)]
    simp only [fl]; rfl

end PathPlanning.CurveRender
