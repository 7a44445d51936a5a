import Verif.Model.Bresenham
import Verif.Model.MapGen
import Mathlib.Tactic.Linarith
import Mathlib.Tactic.SplitIfs

/-!
# More theorems tightened after surviving mutations (C17, C55)
-/

namespace PathPlanning

/-- A value of the 32-bit type `int`. -/
def Spec.IsInt32 (z : Int) : Prop := -2 ^ 31 ≤ z ∧ z < 2 ^ 31

namespace Bres

theorem fits_iff (z : Int) : fits z = true ↔ Spec.IsInt32 z := by
  unfold fits Spec.IsInt32
  simp only [Bool.and_eq_true, decide_eq_true_eq]
  constructor <;> rintro ⟨h1, h2⟩ <;> constructor <;> norm_num at * <;> omega

/-- One step of the line walk overflows exactly if the doubled error, the error after the step in `x`, the final error or a new coordinate
is no 32-bit number; otherwise it computes the exact step. -/
theorem nextC_iff {K : Type} (b : Bres K) (h : ¬ (b.x = b.x1 ∧ b.y = b.y1)) :
    (Spec.IsInt32 (2 * b.err) ∧ (2 * b.err > b.dy → Spec.IsInt32 (b.err + b.dy)) ∧ (2 * b.err ≤ b.dy → Spec.IsInt32 b.err) ∧
      Spec.IsInt32 (next b).2.err ∧ Spec.IsInt32 (next b).2.x ∧ Spec.IsInt32 (next b).2.y → nextC b = .ok (next b)) ∧
    (¬ (Spec.IsInt32 (2 * b.err) ∧ (2 * b.err > b.dy → Spec.IsInt32 (b.err + b.dy)) ∧ (2 * b.err ≤ b.dy → Spec.IsInt32 b.err) ∧
      Spec.IsInt32 (next b).2.err ∧ Spec.IsInt32 (next b).2.x ∧ Spec.IsInt32 (next b).2.y) → nextC b = .ub) := by
  classical
  have key : ∀ z, (fits z = false) ↔ ¬ Spec.IsInt32 z := fun z => by rw [← fits_iff]; simp
  unfold nextC next
  rw [if_neg h, if_neg h]
  have e : ∀ z, fits z = decide (Spec.IsInt32 z) := fun z => by
    by_cases hz : Spec.IsInt32 z
    · rw [(fits_iff z).2 hz]; simp [hz]
    · rw [(key z).2 hz]; simp [hz]
  by_cases h1 : 2 * b.err > b.dy
  · simp only [h1, if_true]
    by_cases h2 : 2 * b.err < b.dx <;> simp only [h2, if_true, if_false, e] <;> grind
  · simp only [h1, if_false]
    by_cases h2 : 2 * b.err < b.dx <;> simp only [h2, if_true, if_false, e] <;> grind

end Bres

namespace MapGen

/-- The generator refuses a map with a negative number of rooms. -/
theorem new_negative {width rows cols : Int} (h0 : width ≠ 0) (h : rows.tdiv width * cols.tdiv width < 0) :
    Maze.new width rows cols = .throw "bad_array_new_length" := by
  unfold Maze.new initVisited
  rw [if_neg h0]
  simp only [h, if_true]
  rfl

example : Maze.new 8 64 (-64) = .throw "bad_array_new_length" := new_negative (by decide) (by decide)

end MapGen

end PathPlanning
