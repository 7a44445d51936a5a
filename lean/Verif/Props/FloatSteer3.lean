import Verif.Props.FloatSteer2

/-!
# C109: the same manoeuvres as in exact arithmetic

Rounding changes numbers, not decisions: from one pose the rounded and the exact successor function offer the same
manoeuvres, with the same steering angle, direction, counter and depth, and with nearly the same cost.
-/

noncomputable section

namespace PathPlanning.Drift
open Spec

variable {F : Fmt} {lib : Lib} {clamp clamp' : ℝ → ℝ}

theorem fl_mul_rel (hu : F.u ≤ 1 / 1024) {k x y a : ℝ} (hk : 0 ≤ k) (hk1 : k ≤ 1000) (h : Rel F.u k x y) : Rel F.u (k + 2) (F.fl (x * a)) (y * a) :=
  (h.mul (c := k) F.u_nonneg hk (Rel.refl F.u a) (by simp)).fl hu hk1

theorem finish_rel (hu : F.u ≤ 1 / 1024) {c : F.D} {c' pen : ℝ} (h : Rel F.u 3 c.1 c') (fwd : Bool) :
    Rel F.u 8 (F.rd ((if !fwd then F.rd (c.1 * pen) else c).1 * 1)).1 ((if !fwd then c' * pen else c') * 1) := by
  have h0 := F.u_nonneg
  cases fwd
  · have h1 := fl_mul_rel hu (a := pen) (by norm_num) (by norm_num) h
    have h2 := fl_mul_rel hu (a := 1) (by norm_num) (by norm_num) h1
    exact h2.le h0 (by norm_num)
  · have h2 := fl_mul_rel hu (a := 1) (by norm_num) (by norm_num) h
    exact h2.le h0 (by norm_num)

/-- **C109, same manoeuvres.** If the product `STEER_DELTA * step` is computed exactly (see `whole_delta`), rounding does not change
which manoeuvres are offered. -/
theorem dyn_same_step (hu : F.u ≤ 1 / 1024) (P : DynP) (so : SOpts) (ref : SNode) (i step : Nat)
    (hd : F.fl (P.steerDelta * F.fl (step : ℝ)) = P.steerDelta * step) :
    SameManoeuvre (8 * F.u) (dynAdvanceF F lib clamp P so ref i step) (dynAdvance clamp' P so ref i step) := by
  have h0 := F.u_nonneg
  have hpx : Rel F.u 1 (F.fl (P.distStep / P.resolution)) (P.distStep / P.resolution) := Rel.fl_self F _
  have hturn : Rel F.u 3 (F.fl (distPxF F P.distStep P.resolution * so.penaltyTurn)) (P.distPx * so.penaltyTurn) :=
    (fl_mul_rel hu (by norm_num) (by norm_num) hpx).le h0 (by norm_num)
  unfold dynAdvanceF dynAdvance
  rw [hd]
  simp only
  by_cases c1 : decide (ref.depth < 1) = true ∧ ref.forward ≠ decide (i < 3)
  · rw [if_pos c1, if_pos c1]; trivial
  rw [if_neg c1, if_neg c1]
  by_cases c2 : ref.custom > 0 ∧ |ref.steer| > 0
  · rw [if_pos c2, if_pos c2]; trivial
  rw [if_neg c2, if_neg c2]
  by_cases c3 : P.reversed = false ∧ decide (ref.depth < 1) = true ∧ i > 3
  · rw [if_pos c3, if_pos c3]; trivial
  rw [if_neg c3, if_neg c3]
  by_cases c4 : P.reversed = false ∧ decide (ref.depth < 1) = true ∧ i = 3
  · rw [if_pos c4, if_pos c4]
    by_cases c5 : step ≠ 0
    · rw [if_pos c5, if_pos c5]; trivial
    rw [if_neg c5, if_neg c5]
    refine ⟨rfl, rfl, rfl, rfl, ?_⟩
    have h1 : Rel F.u 1 |F.fl (-P.la / P.resolution)| |(-P.la / P.resolution)| := by
      have := Rel.fl_self F (-P.la / P.resolution)
      unfold Rel at this ⊢
      rw [abs_abs]
      exact (abs_abs_sub_abs_le _ _).trans this
    exact (fl_mul_rel hu (a := so.penaltyBackward) (by norm_num) (by norm_num) h1).le h0 (by norm_num)
  rw [if_neg c4, if_neg c4]
  cases steerSwitch P.maxSteer (truncC (P.steerDelta * (step : ℝ))) ref.steer i step with
  | none => trivial
  | some s0 =>
    simp only
    by_cases c6 : ref.forward ≠ decide (i < 3) ∧ ¬ decide (ref.depth < 1) = true
    · rw [if_pos c6, if_pos c6]
      by_cases c7 : ¬ P.allowForward = true ∨ ¬ P.allowBackward = true
      · rw [if_pos c7, if_pos c7]; trivial
      rw [if_neg c7, if_neg c7]
      by_cases c8 : ref.custom > 0
      · rw [if_pos c8, if_pos c8]; trivial
      rw [if_neg c8, if_neg c8]
      by_cases c9 : |steerClamp P.maxSteer s0| > 0
      · rw [if_pos c9, if_pos c9]; trivial
      rw [if_neg c9, if_neg c9]
      exact ⟨rfl, rfl, rfl, rfl, finish_rel hu hturn _⟩
    · rw [if_neg c6, if_neg c6]
      exact ⟨rfl, rfl, rfl, rfl, finish_rel (c := F.rd (P.distStep / P.resolution)) hu (hpx.le h0 (by norm_num)) _⟩

/-- The same for `SteeringNeighborhood`. -/
theorem steer_same_step (hu : F.u ≤ 1 / 1024) (P : SteerP) (so : SOpts) (garbage : Int) (ref : SNode) (preds : List SNode) (i step : Nat) :
    SameManoeuvre (8 * F.u) (advanceF F lib clamp P so garbage ref preds i step) (advance clamp' P so garbage ref preds i step) := by
  have h0 := F.u_nonneg
  have hpx : Rel F.u 1 (F.fl (P.distStep / P.resolution)) (P.distStep / P.resolution) := Rel.fl_self F _
  have hturn : Rel F.u 3 (F.fl (distPxF F P.distStep P.resolution * so.penaltyTurn)) (P.distPx * so.penaltyTurn) :=
    (fl_mul_rel hu (by norm_num) (by norm_num) hpx).le h0 (by norm_num)
  have hstep := fun fwd => finish_rel (c := F.rd (P.distStep / P.resolution)) (c' := P.distPx) (pen := so.penaltyBackward) hu
    (hpx.le h0 (by norm_num)) fwd
  unfold advanceF advance
  simp only
  by_cases c1 : decide (ref.depth < 1) = true ∧ ref.forward ≠ decide (i < 3)
  · rw [if_pos c1, if_pos c1]; trivial
  rw [if_neg c1, if_neg c1]
  by_cases c2 : ref.custom > 0 ∧ |ref.steer| > 0
  · rw [if_pos c2, if_pos c2]; trivial
  rw [if_neg c2, if_neg c2]
  cases steerSwitch P.maxSteer (P.steerDelta * step) ref.steer i step with
  | none => trivial
  | some s0 =>
    simp only
    by_cases c3 : P.size = 6
    · rw [if_pos c3, if_pos c3]
      by_cases c4 : ref.forward ≠ decide (i < 3)
      · rw [if_pos c4, if_pos c4]
        by_cases c5 : ref.custom > 0
        · rw [if_pos c5, if_pos c5]; trivial
        rw [if_neg c5, if_neg c5]
        by_cases c6 : |steerClamp P.maxSteer s0| > 0
        · rw [if_pos c6, if_pos c6]; trivial
        rw [if_neg c6, if_neg c6]
        by_cases c7 : straightPreds (P.straightDirSwitch - 1).toNat preds = true
        · rw [if_pos c7, if_pos c7]
          exact ⟨rfl, rfl, rfl, rfl, finish_rel hu hturn _⟩
        · rw [if_neg c7, if_neg c7]; trivial
      · rw [if_neg c4, if_neg c4]
        exact ⟨rfl, rfl, rfl, rfl, hstep _⟩
    · rw [if_neg c3, if_neg c3]
      exact ⟨rfl, rfl, rfl, rfl, hstep _⟩

/-- In `double` the product is exact for every whole `STEER_DELTA` and every number of steps of ordinary size. -/
theorem whole_delta {r : ℝ → ℤ} (hr : WholeRounding r) {d : Int} {step : Nat} (hs : step ≤ 2 ^ 53) (hd : |d * step| ≤ 2 ^ 53) :
    (doubleFmt r hr).fl ((d : ℝ) * (doubleFmt r hr).fl (step : ℝ)) = (d : ℝ) * step := by
  have h1 : binary r 53 (((step : Int) : ℝ)) = ((step : Int) : ℝ) :=
    binary_int hr (by norm_num) _ (by rw [abs_of_nonneg (by omega)]; exact_mod_cast hs)
  have h2 : binary r 53 (((d * step : Int)) : ℝ) = ((d * step : Int) : ℝ) := binary_int hr (by norm_num) _ hd
  show binary r 53 ((d : ℝ) * binary r 53 (step : ℝ)) = _
  push_cast at h1 h2
  rw [h1, h2]

/-- A concrete manoeuvre: three degrees to the right at the first step. -/
example {r : ℝ → ℤ} (hr : WholeRounding r) (lib : Lib) (clamp : ℝ → ℝ) :
    ∃ c k c' k', dynAdvanceF (doubleFmt r hr) lib clamp ⟨1, 1, 1, 60, 3, 1, false, true, false⟩ {} ⟨0, 0, 0, true, 0, 0, 0⟩ 2 1 = some (c, k) ∧
      dynAdvance clamp ⟨1, 1, 1, 60, 3, 1, false, true, false⟩ {} ⟨0, 0, 0, true, 0, 0, 0⟩ 2 1 = some (c', k') ∧ k.steer = 3 ∧ k'.steer = 3 := by
  have h := whole_delta hr (d := 3) (step := 1) (by norm_num) (by norm_num)
  push_cast at h
  have h3 : truncC (3 * 1 : ℝ) = 3 := by
    have : ((3 : Int) : ℝ) = 3 * 1 := by norm_num
    rw [← this, truncC_nonneg (by norm_num)]
    exact Int.floor_intCast 3
  unfold dynAdvanceF dynAdvance
  simp only [Nat.cast_one, h, h3]
  simp [steerSwitch, steerClamp]

end PathPlanning.Drift
