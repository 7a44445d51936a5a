import Verif.Props.Statics

/-!
# C93: a program with two search objects
-/

noncomputable section

namespace PathPlanning

open Spec

namespace StaticsEx

/-- Object 1 plans on a map with cells of 5 cm; then object 2 is given a map with cells of 10 cm. -/
def fine : GridMap ℝ := GridMap.mk' 10 10 (1 / 20)
def coarse : GridMap ℝ := GridMap.mk' 10 10 (1 / 10)

/-- A node reached with the wheels turned by 60 degrees. -/
def ref : SNode := ⟨5, 5, 0, true, 60, 0, 1⟩

theorem theta_of_step (clamp : ℝ → ℝ) (hclamp : ClampSpec clamp) (d : ℝ) (hd : 0 < d) (hd2 : d ≤ 1) (px res : ℝ) :
    Real.cos ((steerMoveS clamp d px res (12 / 10) false ref true 60).2.2 - ref.theta) ≠ 1 := by
  have ht : Real.tan (((60 : Int) : ℝ) / 180 * Real.pi) = Real.sqrt 3 := by
    rw [show ((60 : Int) : ℝ) / 180 * Real.pi = Real.pi / 3 by push_cast; ring, Real.tan_pi_div_three]
  have e : (steerMoveS clamp d px res (12 / 10) false ref true 60).2.2 =
      clamp (ref.theta + d * 1 / (12 / 10 / Real.sqrt 3)) := by
    unfold steerMoveS
    simp only [ht]
    simp
  rw [e]
  obtain ⟨k, hk⟩ := hclamp.mod (ref.theta + d * 1 / (12 / 10 / Real.sqrt 3))
  rw [hk, show ref.theta + d * 1 / (12 / 10 / Real.sqrt 3) + k * (2 * Real.pi) - ref.theta =
    d * 1 / (12 / 10 / Real.sqrt 3) + k * (2 * Real.pi) by ring, Real.cos_add_int_mul_two_pi]
  have h3 : 0 < Real.sqrt 3 := by positivity
  have h32 : Real.sqrt 3 < 2 := by
    rw [Real.sqrt_lt' (by norm_num)]; norm_num
  have h0 : 0 < d * 1 / (12 / 10 / Real.sqrt 3) := by positivity
  have h1 : d * 1 / (12 / 10 / Real.sqrt 3) < 2 := by
    rw [div_lt_iff₀ (by positivity)]
    have : 1 < 2 * (12 / 10 / Real.sqrt 3) := by
      rw [← mul_div_assoc, lt_div_iff₀ h3]; linarith
    nlinarith
  intro hc
  have := (Real.cos_eq_one_iff_of_lt_of_lt (by linarith [Real.pi_pos]) (by linarith [Real.two_le_pi])).1 hc
  linarith

/-- The successor that keeps the wheels turned. -/
def succ (clamp : ℝ → ℝ) (d px res : ℝ) : SNode :=
  ⟨(steerMoveS clamp d px res (12 / 10) false ref true 60).1, (steerMoveS clamp d px res (12 / 10) false ref true 60).2.1,
    (steerMoveS clamp d px res (12 / 10) false ref true 60).2.2, true, 60, 0, 2⟩

theorem ref_step (clamp : ℝ → ℝ) (S : DynStat) (h : S.par = DynStat.initial.par) :
    dynAdvanceS clamp S {} ref 0 0 = some (S.distPx * 1, succ clamp S.distStep S.distPx S.resolution) := by
  unfold dynAdvanceS
  rw [h]
  rfl

/-- **Concrete case**: after these two calls, the search of object 1 still offers to keep the wheels turned - and no vehicle with
wheel base 1.2 m and steering angles up to 60 degrees can drive this step, in any direction and over any distance. -/
theorem example_too_sharp (clamp : ℝ → ℝ) (hclamp : ClampSpec clamp) :
    ∃ c s, dynAdvanceS clamp (StatSt.run [.setMap 1 fine, .setMap 2 coarse]).stat {} ref 0 0 = some (c, s) ∧
      (StatSt.run [.setMap 1 fine, .setMap 2 coarse]).map 1 = some fine ∧
      ∀ φ dir ds : ℝ, (dir = 1 ∨ dir = -1) → abs φ ≤ (60 : ℝ) / 180 * Real.pi →
        ¬ DrivesTo (12 / 10) fine.res φ dir ds ref s := by
  have hs := ref_step clamp (StatSt.run [.setMap 1 fine, .setMap 2 coarse]).stat rfl
  refine ⟨_, _, hs, rfl, ?_⟩
  intro φ dir ds hdir hφ
  refine disturbed_too_sharp (a := [.setMap 1 fine]) (b := []) (i := 2) (j := 1) (m := coarse) (mj := fine) hclamp
    (fun _ _ h => by simp at h) rfl rfl (by norm_num [fine, GridMap.mk']) (by norm_num [fine, coarse, GridMap.mk'])
    ⟨by decide, by decide⟩ (by norm_num [paramsNow, DynStat.initial]) (so := {}) (n := 0) (step := 0) hs ?_ ?_ hdir ?_
  · exact theta_of_step clamp hclamp (4 / 10) (by norm_num) (by norm_num)
      (StatSt.run [.setMap 1 fine, .setMap 2 coarse]).stat.distPx
      (StatSt.run [.setMap 1 fine, .setMap 2 coarse]).stat.resolution
  · rfl
  · simpa [paramsNow, DynStat.initial] using hφ

/-- With the calls in the other order, the same step can be driven with the configured angle. -/
theorem example_other_order (clamp : ℝ → ℝ) (hclamp : ClampSpec clamp) :
    ∃ c s, dynAdvanceS clamp (StatSt.run [.setMap 2 coarse, .setMap 1 fine]).stat {} ref 0 0 = some (c, s) ∧
      DrivesTo (12 / 10) fine.res ((60 : ℝ) / 180 * Real.pi) 1 (4 / 10) ref s := by
  have hs := ref_step clamp (StatSt.run [.setMap 2 coarse, .setMap 1 fine]).stat rfl
  refine ⟨_, _, hs, ?_⟩
  have := disturbed_step (a := [.setMap 2 coarse]) (b := []) (i := 1) (j := 1) (m := fine) (mj := fine) hclamp
    (fun _ _ h => by simp at h) rfl rfl (by norm_num [fine, GridMap.mk']) (by norm_num [fine, GridMap.mk'])
    ⟨by decide, by decide⟩ (by norm_num [paramsNow, DynStat.initial]) (so := {}) (ref := ref) (n := 0) (step := 0) hs
  rw [div_self (by norm_num [fine, GridMap.mk'])] at this
  have h60 : (((60 : Int)) : ℝ) = 60 := by norm_num
  rw [← h60]
  have hsg : driveSign false true = 1 := rfl
  have hst : stepNow [StatOp.setMap 2 coarse] = 4 / 10 := rfl
  have hcond : ¬ ((paramsNow ([StatOp.setMap 2 coarse] ++ .setMap 1 fine :: [])).reversed = false ∧ ref.depth < 1 ∧
    (succ clamp (StatSt.run [.setMap 2 coarse, .setMap 1 fine]).stat.distStep
      (StatSt.run [.setMap 2 coarse, .setMap 1 fine]).stat.distPx
      (StatSt.run [.setMap 2 coarse, .setMap 1 fine]).stat.resolution).forward = false) := fun h => by cases h.2.2
  rw [if_neg hcond, hst, mul_one, mul_one] at this
  exact this

/-- Doubling the step after `setMap`: the curve becomes twice as long, its cost does not change. -/
theorem example_stale (clamp : ℝ → ℝ) (hclamp : ClampSpec clamp) :
    ∃ c s, dynAdvanceS clamp (StatSt.run [.setMap 1 fine, .setStep (8 / 10)]).stat {} ref 0 0 = some (c, s) ∧
      c * fine.res = 4 / 10 ∧ DrivesTo (12 / 10) fine.res ((60 : ℝ) / 180 * Real.pi) 1 (8 / 10) ref s := by
  have hs := ref_step clamp (StatSt.run [.setMap 1 fine, .setStep (8 / 10)]).stat rfl
  refine ⟨_, _, hs, ?_⟩
  have := stale_step (a := []) (b := [.setStep (8 / 10)]) (i := 1) (m := fine) hclamp (fun _ _ h => by simp at h)
    (by norm_num [fine, GridMap.mk']) ⟨by decide, by decide⟩ (by norm_num [paramsNow, DynStat.initial]) (so := {})
    (ref := ref) (n := 0) (step := 0) (s := succ clamp (StatSt.run [.setMap 1 fine, .setStep (8 / 10)]).stat.distStep
          (StatSt.run [.setMap 1 fine, .setStep (8 / 10)]).stat.distPx
          (StatSt.run [.setMap 1 fine, .setStep (8 / 10)]).stat.resolution) (by decide) rfl rfl hs
  obtain ⟨h1, h2⟩ := this
  refine ⟨h1, ?_⟩
  have h60 : (((60 : Int)) : ℝ) = 60 := by norm_num
  rw [← h60]
  rw [if_neg (by show ¬ ((60 : Int) = 0); decide)] at h2
  exact h2

end StaticsEx

end PathPlanning
