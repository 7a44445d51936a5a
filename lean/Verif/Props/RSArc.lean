import Verif.Spec.ReedsShepp
import Verif.Props.Vec
import Verif.Model.Managers
import Mathlib.Analysis.SpecialFunctions.Trigonometric.Angle
import Mathlib.Analysis.SpecialFunctions.Trigonometric.Deriv
import Mathlib.Analysis.Calculus.Deriv.Mul
import Mathlib.Analysis.Calculus.Deriv.Add

/-!
# C40: arc lengths; driving on circles
-/

noncomputable section

namespace PathPlanning.RS
open Spec

/-! ### The specification `drive` is the motion of a car -/

/-- The derivative of `drive` with respect to the driven amount: the position moves along the heading
(forward or backward), the heading changes at unit rate to the correct side. -/
theorem drive_kinematics (r : ℝ) (q : Pose) (o : Ori) (d : Dir) (t : ℝ) :
    HasDerivAt (fun t => (drive r q (.turn o d) t).theta) (oriSign o * dirSign d) t ∧
    HasDerivAt (fun t => (drive r q (.turn o d) t).x)
      (dirSign d * r * Real.cos (drive r q (.turn o d) t).theta) t ∧
    HasDerivAt (fun t => (drive r q (.turn o d) t).y)
      (dirSign d * r * Real.sin (drive r q (.turn o d) t).theta) t := by
  have hθ : HasDerivAt (fun t => q.theta + oriSign o * dirSign d * t) (oriSign o * dirSign d) t := by
    simpa using ((hasDerivAt_id t).const_mul (oriSign o * dirSign d)).const_add q.theta
  have ho : oriSign o * oriSign o = 1 := by cases o <;> norm_num [oriSign]
  refine ⟨hθ, ?_, ?_⟩
  · have h := ((hθ.sin.sub_const (Real.sin q.theta)).const_mul (oriSign o * r)).const_add q.x
    refine h.congr_deriv ?_
    simp only [drive]
    linear_combination (Real.cos (q.theta + oriSign o * dirSign d * t) * dirSign d * r) * ho
  · have h := ((hθ.cos.sub_const (Real.cos q.theta)).const_mul (oriSign o * r)).const_sub q.y
    refine h.congr_deriv ?_
    simp only [drive]
    linear_combination (Real.sin (q.theta + oriSign o * dirSign d * t) * dirSign d * r) * ho

/-! ### Angles modulo full turns -/

theorem angle_cong {a b : ℝ} (hc : Real.cos a = Real.cos b) (hs : Real.sin a = Real.sin b) :
    ∃ k : Int, a = b + k * (2 * Real.pi) := by
  have h := Real.Angle.cos_sin_inj hc hs
  obtain ⟨k, hk⟩ := Real.Angle.angle_eq_iff_two_pi_dvd_sub.1 h
  exact ⟨k, by linarith⟩

theorem clamp_cos {clamp : ℝ → ℝ} (hC : ClampSpec clamp) (t : ℝ) :
    Real.cos (clamp t) = Real.cos t := by
  obtain ⟨k, hk⟩ := hC.mod t
  rw [hk, Real.cos_add_int_mul_two_pi]

theorem clamp_sin {clamp : ℝ → ℝ} (hC : ClampSpec clamp) (t : ℝ) :
    Real.sin (clamp t) = Real.sin t := by
  obtain ⟨k, hk⟩ := hC.mod t
  rw [hk, Real.sin_add_int_mul_two_pi]

theorem angle_fromPolar_cos {a r : ℝ} (hr : 0 < r) :
    Real.cos (P2.fromPolar a r).angle = Real.cos a ∧ Real.sin (P2.fromPolar a r).angle = Real.sin a := by
  have h := fromPolar_angle_length (P2.fromPolar a r)
  have hl : (P2.fromPolar a r).length = r := by
    unfold P2.length P2.fromPolar
    have : (Real.cos a * r) ^ 2 + (Real.sin a * r) ^ 2 = r ^ 2 := by
      have := Real.sin_sq_add_cos_sq a
      linear_combination r ^ 2 * this
    simp only [this]
    exact Real.sqrt_sq hr.le
  rw [hl] at h
  have h1 := congrArg P2.x h
  have h2 := congrArg P2.y h
  simp only [P2.fromPolar] at h1 h2 ⊢
  exact ⟨mul_right_cancel₀ hr.ne' h1, mul_right_cancel₀ hr.ne' h2⟩

/-! ### Configurations -/

theorem _root_.PathPlanning.Spec.SameConfig.refl (p : Pose) : SameConfig p p := ⟨rfl, rfl, 0, by simp⟩

theorem _root_.PathPlanning.Spec.SameConfig.symm {p q : Pose} (h : SameConfig p q) : SameConfig q p := by
  obtain ⟨h1, h2, k, h3⟩ := h
  exact ⟨h1.symm, h2.symm, -k, by push_cast; linarith⟩

theorem _root_.PathPlanning.Spec.SameConfig.trans {p q r : Pose} (h : SameConfig p q) (h' : SameConfig q r) :
    SameConfig p r := by
  obtain ⟨h1, h2, k, h3⟩ := h
  obtain ⟨h1', h2', k', h3'⟩ := h'
  exact ⟨h1.trans h1', h2.trans h2', k + k', by push_cast; linarith⟩

theorem _root_.PathPlanning.Spec.SameConfig.cos {p q : Pose} (h : SameConfig p q) : Real.cos p.theta = Real.cos q.theta := by
  obtain ⟨_, _, k, h⟩ := h; rw [h, Real.cos_add_int_mul_two_pi]

theorem _root_.PathPlanning.Spec.SameConfig.sin {p q : Pose} (h : SameConfig p q) : Real.sin p.theta = Real.sin q.theta := by
  obtain ⟨_, _, k, h⟩ := h; rw [h, Real.sin_add_int_mul_two_pi]

theorem _root_.PathPlanning.Spec.SameConfig.of_trig {p q : Pose} (hx : p.x = q.x) (hy : p.y = q.y)
    (hc : Real.cos p.theta = Real.cos q.theta) (hs : Real.sin p.theta = Real.sin q.theta) :
    SameConfig p q := ⟨hx, hy, angle_cong hc hs⟩

/-- Driving does not depend on the representation of the heading. -/
theorem _root_.PathPlanning.Spec.SameConfig.drive {p q : Pose} (h : SameConfig p q) (r : ℝ) (e : Elem) (t : ℝ) :
    SameConfig (Spec.drive r p e t) (Spec.drive r q e t) := by
  have hc := h.cos
  have hs := h.sin
  obtain ⟨hx, hy, k, hk⟩ := h
  cases e with
  | straight d => exact ⟨by simp [Spec.drive, hx, hc], by simp [Spec.drive, hy, hs], k, hk⟩
  | turn o d =>
    have hh : p.theta + oriSign o * dirSign d * t =
        (q.theta + oriSign o * dirSign d * t) + k * (2 * Real.pi) := by rw [hk]; ring
    refine ⟨?_, ?_, k, hh⟩
    · simp only [Spec.drive]
      rw [hh, Real.sin_add_int_mul_two_pi, hx, hs]
    · simp only [Spec.drive]
      rw [hh, Real.cos_add_int_mul_two_pi, hy, hc]

/-- The configuration of a car on the circle of `c` at circle angle `a`. -/
def Circ.confAt (c : Circ) (a : ℝ) : Pose :=
  ⟨c.center.x + Real.cos a * c.radius, c.center.y + Real.sin a * c.radius,
    a + oriSign c.ori * (Real.pi / 2)⟩

theorem Circ.drive_confAt (c : Circ) (a t : ℝ) :
    Spec.drive c.radius (c.confAt a) (.turn c.ori c.dir) t =
      c.confAt (a + oriSign c.ori * dirSign c.dir * t) := by
  simp only [Spec.drive, Circ.confAt]
  have e : a + oriSign c.ori * (Real.pi / 2) + oriSign c.ori * dirSign c.dir * t =
      (a + oriSign c.ori * dirSign c.dir * t) + oriSign c.ori * (Real.pi / 2) := by ring
  rw [e]
  cases c.ori <;> simp only [oriSign, one_mul, neg_one_mul, neg_mul] <;>
    simp only [← sub_eq_add_neg, Real.sin_add_pi_div_two, Real.cos_add_pi_div_two,
      Real.sin_sub_pi_div_two, Real.cos_sub_pi_div_two] <;>
    · ext <;> simp only [] <;> ring

theorem Circ.confAt_congr (c : Circ) {a b : ℝ} (hc : Real.cos a = Real.cos b)
    (hs : Real.sin a = Real.sin b) : SameConfig (c.confAt a) (c.confAt b) := by
  obtain ⟨k, hk⟩ := angle_cong hc hs
  exact ⟨by simp [Circ.confAt, hc], by simp [Circ.confAt, hs], k, by
    simp only [Circ.confAt]; rw [hk]; ring⟩

/-! ### Arc lengths -/

section arc
variable {E : RSEnv} (hC : ClampSpec E.clamp)
include hC

/-- **C40.** Whatever the previous state: the arc is congruent to `end - start` modulo `2π`; its sign
is that of the turning side times the driving direction; it lies in `[0, 2π)` when positive and in
`[-2π, 0)` when negative. -/
theorem computeArc_spec (c : Circ) :
    (∃ k : Int, (c.computeArc E).arc = c.aEnd - c.aStart + k * (2 * Real.pi)) ∧
    (oriSign c.ori * dirSign c.dir = 1 →
      0 ≤ (c.computeArc E).arc ∧ (c.computeArc E).arc < 2 * Real.pi) ∧
    (oriSign c.ori * dirSign c.dir = -1 →
      -(2 * Real.pi) ≤ (c.computeArc E).arc ∧ (c.computeArc E).arc < 0) := by
  obtain ⟨k, hk⟩ := hC.mod (c.aEnd - c.aStart)
  have lo := hC.lo (c.aEnd - c.aStart)
  have hi := hC.hi (c.aEnd - c.aStart)
  have hpi := Real.pi_pos
  set a := E.clamp (c.aEnd - c.aStart) with ha
  have hpos : c.mustBePos = decide (oriSign c.ori * dirSign c.dir = 1) := by
    unfold Circ.mustBePos
    cases c.ori <;> cases c.dir <;> simp [oriSign, dirSign] <;> norm_num
  have hone : oriSign c.ori * dirSign c.dir = 1 ∨ oriSign c.ori * dirSign c.dir = -1 := by
    cases c.ori <;> cases c.dir <;> norm_num [oriSign, dirSign]
  have harc : (c.computeArc E).arc =
      if c.mustBePos && !decide (0 ≤ a) then a + 2 * Real.pi
      else if !c.mustBePos && decide (0 ≤ a) then a - 2 * Real.pi else a := rfl
  rw [harc, hpos]
  rcases hone with h1 | h1
  · rw [h1]
    by_cases h0 : 0 ≤ a
    · simp only [h0, decide_true, Bool.not_true, Bool.and_false, Bool.false_and, Bool.false_eq_true,
        if_false]
      exact ⟨⟨k, hk⟩, fun _ => ⟨trivial, by linarith⟩, fun h => by norm_num at h⟩
    · simp only [h0, decide_true, decide_false, Bool.not_false, Bool.and_self, if_true]
      push Not at h0
      exact ⟨⟨k + 1, by push_cast; linarith⟩, fun _ => ⟨by linarith, by linarith⟩,
        fun h => by norm_num at h⟩
  · rw [h1]
    have hd : decide ((-1 : ℝ) = 1) = false := by simp; norm_num
    rw [hd]
    by_cases h0 : 0 ≤ a
    · simp only [h0, decide_true, Bool.not_true, Bool.false_and, Bool.false_eq_true, if_false,
        Bool.not_false, Bool.and_self, if_true]
      exact ⟨⟨k - 1, by push_cast; linarith⟩, fun h => by norm_num at h,
        fun _ => ⟨by linarith, by linarith⟩⟩
    · simp only [h0, decide_false, Bool.false_and, Bool.false_eq_true, if_false, Bool.and_false]
      push Not at h0
      exact ⟨⟨k, hk⟩, fun h => by norm_num at h, fun _ => ⟨by linarith, h0⟩⟩

/-- **C40, finding.** Driving left-backward or right-forward between equal angles is planned as a full
turn of `-2π`, not as an empty arc. -/
theorem computeArc_full_turn (c : Circ) (he : c.aEnd = c.aStart)
    (hs : oriSign c.ori * dirSign c.dir = -1) : (c.computeArc E).arc = -(2 * Real.pi) := by
  obtain ⟨⟨k, hk⟩, _, h2⟩ := computeArc_spec hC c
  obtain ⟨h3, h4⟩ := h2 hs
  rw [he] at hk
  have hpi := Real.pi_pos
  have k1 : ((k : ℝ)) < 0 := by
    by_contra hh; push Not at hh
    have := mul_nonneg hh (by linarith : (0:ℝ) ≤ 2 * Real.pi)
    linarith
  have k2 : (-2 : ℝ) < k := by
    by_contra hh; push Not at hh
    have := mul_le_mul_of_nonneg_right hh (by linarith : (0:ℝ) ≤ 2 * Real.pi)
    linarith
  have : k = -1 := by
    have a1 : k < 0 := by exact_mod_cast k1
    have a2 : -2 < k := by exact_mod_cast k2
    omega
  rw [this] at hk
  push_cast at hk
  linarith

/-- **C40.** On the positive side equal angles give the empty arc. -/
theorem computeArc_empty (c : Circ) (he : c.aEnd = c.aStart)
    (hs : oriSign c.ori * dirSign c.dir = 1) : (c.computeArc E).arc = 0 := by
  obtain ⟨⟨k, hk⟩, h1, _⟩ := computeArc_spec hC c
  obtain ⟨h3, h4⟩ := h1 hs
  rw [he] at hk
  have hpi := Real.pi_pos
  have k1 : (k : ℝ) < 1 := by
    by_contra hh; push Not at hh
    have := mul_le_mul_of_nonneg_right hh (by linarith : (0:ℝ) ≤ 2 * Real.pi)
    linarith
  have k2 : (-1 : ℝ) < k := by
    by_contra hh; push Not at hh
    have := mul_le_mul_of_nonneg_right hh (by linarith : (0:ℝ) ≤ 2 * Real.pi)
    linarith
  have : k = 0 := by
    have a1 : k < 1 := by exact_mod_cast k1
    have a2 : -1 < k := by exact_mod_cast k2
    omega
  rw [this] at hk
  push_cast at hk
  linarith

theorem computeArc_signed (c : Circ) :
    (c.computeArc E).arc = oriSign c.ori * dirSign c.dir * |(c.computeArc E).arc| ∧
      |(c.computeArc E).arc| ≤ 2 * Real.pi := by
  obtain ⟨_, h1, h2⟩ := computeArc_spec hC c
  have hone : oriSign c.ori * dirSign c.dir = 1 ∨ oriSign c.ori * dirSign c.dir = -1 := by
    cases c.ori <;> cases c.dir <;> norm_num [oriSign, dirSign]
  rcases hone with h | h
  · rw [h, abs_of_nonneg (h1 h).1]; exact ⟨by ring, (h1 h).2.le⟩
  · rw [h, abs_of_neg (h2 h).2]; exact ⟨by ring, by linarith [(h2 h).1]⟩

/-- **C40.** Driving the stored arc from the configuration at the start angle ends in the
configuration at the end angle. -/
theorem drive_arc (c : Circ) :
    SameConfig (Spec.drive c.radius (c.confAt c.aStart) (.turn c.ori c.dir) |(c.computeArc E).arc|)
      (c.confAt c.aEnd) := by
  rw [Circ.drive_confAt, ← (computeArc_signed hC c).1]
  obtain ⟨k, hk⟩ := (computeArc_spec hC c).1
  rw [hk]
  have e : c.aStart + (c.aEnd - c.aStart + k * (2 * Real.pi)) = c.aEnd + k * (2 * Real.pi) := by ring
  rw [e]
  exact c.confAt_congr (Real.cos_add_int_mul_two_pi _ _) (Real.sin_add_int_mul_two_pi _ _)

end arc

/-- A normaliser with the required properties exists (so `ClampSpec` can be met), here the
representative in `(-π, π]`. -/
theorem clampSpec_exists : ∃ clamp, ClampSpec clamp := by
  refine ⟨fun t => toIocMod Real.two_pi_pos (-Real.pi) t, ⟨fun t => ?_, fun t => ?_, fun t => ?_⟩⟩
  · exact (toIocMod_mem_Ioc Real.two_pi_pos (-Real.pi) t).1.le
  · have := (toIocMod_mem_Ioc Real.two_pi_pos (-Real.pi) t).2; linarith
  · refine ⟨-toIocDiv Real.two_pi_pos (-Real.pi) t, ?_⟩
    have := toIocMod_add_toIocDiv_zsmul Real.two_pi_pos (-Real.pi) t
    rw [zsmul_eq_mul] at this
    push_cast; linarith

/-- Concrete case: a forward left arc from `0` to `π/2`, whatever normaliser is used, has length
`π/2`. -/
example (E : RSEnv) (hC : ClampSpec E.clamp) (c : Circ) (h1 : c.ori = .left) (h2 : c.dir = .fwd)
    (h3 : c.aStart = 0) (h4 : c.aEnd = Real.pi / 2) : (c.computeArc E).arc = Real.pi / 2 := by
  obtain ⟨⟨k, hk⟩, h, _⟩ := computeArc_spec hC c
  obtain ⟨a1, a2⟩ := h (by rw [h1, h2]; norm_num [oriSign, dirSign])
  rw [h3, h4] at hk
  have hpi := Real.pi_pos
  have : k = 0 := by
    have k1 : (k : ℝ) < 1 := by
      by_contra hh; push Not at hh
      have := mul_le_mul_of_nonneg_right hh (by linarith : (0:ℝ) ≤ 2 * Real.pi)
      linarith
    have k2 : (-1 : ℝ) < k := by
      by_contra hh; push Not at hh
      have := mul_le_mul_of_nonneg_right hh (by linarith : (0:ℝ) ≤ 2 * Real.pi)
      linarith
    have a1 : k < 1 := by exact_mod_cast k1
    have a2 : -1 < k := by exact_mod_cast k2
    omega
  rw [hk, this]; push_cast; ring

end PathPlanning.RS
