import Verif.Spec.FloatSteer
import Verif.Lemmas.ChordBound
import Verif.Lemmas.Steering
import Verif.Props.FloatAngle
import Mathlib.Analysis.Calculus.MeanValue
import Mathlib.Analysis.Real.Pi.Bounds
import Mathlib.Analysis.SpecialFunctions.Trigonometric.Bounds

/-!
# Rounding errors of one step of the steering neighbourhoods
-/

noncomputable section

namespace PathPlanning.Drift
open Spec

/-- Relative error `k u`. -/
def Rel (u k x y : ℝ) : Prop := |x - y| ≤ k * u * |y|

theorem Rel.refl (u x : ℝ) : Rel u 0 x x := by simp [Rel]

theorem Rel.le {u k j x y : ℝ} (hu : 0 ≤ u) (h : Rel u k x y) (hk : k ≤ j) : Rel u j x y := by
  unfold Rel at *
  exact h.trans (mul_le_mul_of_nonneg_right (mul_le_mul_of_nonneg_right hk hu) (abs_nonneg _))

theorem Rel.abs_le {u k x y : ℝ} (h : Rel u k x y) : |x| ≤ (1 + k * u) * |y| := by
  unfold Rel at h
  have := abs_sub_abs_le_abs_sub x y
  linarith

theorem Rel.le_abs {u k x y : ℝ} (h : Rel u k x y) : (1 - k * u) * |y| ≤ |x| := by
  unfold Rel at h
  have := abs_sub_abs_le_abs_sub y x
  rw [abs_sub_comm] at this
  linarith

theorem Rel.fl {F : Fmt} {k x y : ℝ} (hu : F.u ≤ 1 / 1024) (hk : k ≤ 1000) (h : Rel F.u k x y) :
    Rel F.u (k + 2) (F.fl x) y := by
  have h0 := F.u_nonneg
  have h1 := F.ok.err x
  have h2 := h.abs_le
  have h3 : |F.fl x - y| ≤ |F.fl x - x| + |x - y| := abs_sub_le _ _ _
  have hku : k * F.u ≤ 1 := by nlinarith
  have hy := abs_nonneg y
  have h4 : F.u * |x| ≤ F.u * (2 * |y|) := mul_le_mul_of_nonneg_left (by nlinarith) h0
  unfold Rel at *
  nlinarith

theorem Rel.fl_self (F : Fmt) (x : ℝ) : Rel F.u 1 (F.fl x) x := by
  unfold Rel
  rw [one_mul]
  exact F.ok.err x

theorem Rel.mul {u k j c x y a b : ℝ} (hu : 0 ≤ u) (hk : 0 ≤ k) (h : Rel u k x y) (h' : Rel u j a b)
    (hc : k + j + k * j * u ≤ c) : Rel u c (x * a) (y * b) := by
  have h2 := h'.abs_le
  unfold Rel at *
  have e : x * a - y * b = (x - y) * a + y * (a - b) := by ring
  rw [e]
  have h3 := abs_add_le ((x - y) * a) (y * (a - b))
  rw [abs_mul, abs_mul y] at h3
  have hy := abs_nonneg y
  have hb := abs_nonneg b
  have h4 : |x - y| * |a| ≤ (k * u * |y|) * ((1 + j * u) * |b|) :=
    mul_le_mul h h2 (abs_nonneg _) (by positivity)
  have h5 : |y| * |a - b| ≤ |y| * (j * u * |b|) := mul_le_mul_of_nonneg_left h' hy
  have h6 : (k + j + k * j * u) * (u * (|y| * |b|)) ≤ c * (u * (|y| * |b|)) :=
    mul_le_mul_of_nonneg_right hc (by positivity)
  rw [abs_mul y b]
  nlinarith

theorem Rel.div {u k j c x y a b : ℝ} (hu : 0 ≤ u) (h : Rel u k x y) (h' : Rel u j a b) (hb : b ≠ 0)
    (hj : j * u < 1) (hc : k + j ≤ c * (1 - j * u)) : Rel u c (x / a) (y / b) := by
  have h2 := h'.le_abs
  have hb' := abs_pos.2 hb
  have hj' : 0 < 1 - j * u := by linarith
  have ha' : 0 < |a| := lt_of_lt_of_le (by positivity) h2
  have ha : a ≠ 0 := abs_pos.1 ha'
  unfold Rel at *
  have e : x / a - y / b = ((x - y) * b + y * (b - a)) / (a * b) := by field_simp; ring
  rw [e, abs_div, abs_mul a b, abs_div y b]
  rw [div_le_iff₀ (by positivity)]
  have h3 := abs_add_le ((x - y) * b) (y * (b - a))
  rw [abs_mul, abs_mul y, abs_sub_comm b a] at h3
  have hy := abs_nonneg y
  have h4 : |x - y| * |b| ≤ (k * u * |y|) * |b| := mul_le_mul_of_nonneg_right h hb'.le
  have h5 : |y| * |a - b| ≤ |y| * (j * u * |b|) := mul_le_mul_of_nonneg_left h' hy
  have hc0 : 0 ≤ u * (|y| * |b|) := by positivity
  have h6 : (k + j) * (u * (|y| * |b|)) ≤ c * (1 - j * u) * (u * (|y| * |b|)) := mul_le_mul_of_nonneg_right hc hc0
  have e2 : c * u * (|y| / |b|) * (|a| * |b|) = c * u * |y| * |a| := by field_simp
  rw [e2]
  rcases le_or_gt 0 c with hcc | hcc
  · have h7 : c * u * |y| * ((1 - j * u) * |b|) ≤ c * u * |y| * |a| := mul_le_mul_of_nonneg_left h2 (by positivity)
    nlinarith
  · have hy0 : u * |y| = 0 := by
      by_contra hne
      have hpos : 0 < u * (|y| * |b|) := by
        have : 0 < u * |y| := lt_of_le_of_ne (by positivity) (Ne.symm hne)
        nlinarith
      have h8 : 0 ≤ (|x - y| * |b|) + (|y| * |a - b|) := by positivity
      have h9 : (k + j) * (u * (|y| * |b|)) < 0 := by
        refine h6.trans_lt ?_
        have : c * (1 - j * u) < 0 := mul_neg_of_neg_of_pos hcc hj'
        exact mul_neg_of_neg_of_pos this hpos
      nlinarith
    have h10 : c * u * |y| * |a| = 0 := by
      have : c * u * |y| * |a| = c * |a| * (u * |y|) := by ring
      rw [this, hy0, mul_zero]
    have h11 : (k * u * |y|) * |b| = 0 := by
      have : (k * u * |y|) * |b| = k * |b| * (u * |y|) := by ring
      rw [this, hy0, mul_zero]
    have h12 : |y| * (j * u * |b|) = 0 := by
      have : |y| * (j * u * |b|) = j * |b| * (u * |y|) := by ring
      rw [this, hy0, mul_zero]
    linarith

/-! ### The tangent -/

theorem cos_lip (a b : ℝ) : |Real.cos a - Real.cos b| ≤ |a - b| := by
  have := Real.abs_cos_sub_cos_le a b
  simpa using this

theorem sin_lip (a b : ℝ) : |Real.sin a - Real.sin b| ≤ |a - b| := by
  have := Real.abs_sin_sub_sin_le a b
  simpa using this

theorem tan_sub {a b : ℝ} (ha : Real.cos a ≠ 0) (hb : Real.cos b ≠ 0) :
    Real.tan a - Real.tan b = Real.sin (a - b) / (Real.cos a * Real.cos b) := by
  rw [Real.tan_eq_sin_div_cos, Real.tan_eq_sin_div_cos, Real.sin_sub]
  field_simp

theorem cos_ge_half {φ : ℝ} (h : |φ| ≤ Real.pi / 3) : 1 / 2 ≤ Real.cos φ := by
  rw [← Real.cos_abs, ← Real.cos_pi_div_three]
  exact Real.cos_le_cos_of_nonneg_of_le_pi (abs_nonneg _) (by linarith [Real.pi_pos]) h

theorem abs_le_tan {φ : ℝ} (h : |φ| ≤ Real.pi / 3) : |φ| ≤ |Real.tan φ| := by
  have hp := Real.pi_pos
  rcases le_total 0 φ with h0 | h0
  · rw [abs_of_nonneg h0] at h ⊢
    exact (Real.le_tan h0 (by linarith)).trans (le_abs_self _)
  · rw [abs_of_nonpos h0] at h ⊢
    have := Real.le_tan (x := -φ) (by linarith) (by linarith)
    rw [Real.tan_neg] at this
    exact this.trans (neg_le_abs _)

theorem abs_tan_le {φ : ℝ} (h : |φ| ≤ Real.pi / 3) : |Real.tan φ| ≤ 2 := by
  have h1 := cos_ge_half h
  rw [Real.tan_eq_sin_div_cos, abs_div, abs_of_pos (by linarith : 0 < Real.cos φ), div_le_iff₀ (by linarith)]
  have := Real.abs_sin_le_one φ
  linarith

theorem tan_rel {u φ b : ℝ} (hu : 0 ≤ u) (hu1 : u ≤ 1 / 1024) (hφ : |φ| ≤ Real.pi / 3) (h : Rel u 7 b φ) :
    Rel u 29 (Real.tan b) (Real.tan φ) := by
  have h1 := cos_ge_half hφ
  have h2 := Real.pi_lt_d2
  have hd : |b - φ| ≤ 7 * u * |φ| := h
  have hd' : |b - φ| ≤ 0.0075 := by nlinarith [abs_nonneg φ]
  have h3 : 0.4925 ≤ Real.cos b := by
    have := (abs_le.1 (cos_lip b φ)).1
    linarith
  unfold Rel
  rw [tan_sub (by linarith) (by linarith), abs_div, abs_of_pos (by nlinarith : 0 < Real.cos b * Real.cos φ),
    div_le_iff₀ (by nlinarith)]
  have h4 : |Real.sin (b - φ)| ≤ |b - φ| := by simpa using sin_lip (b - φ) 0
  have h5 := abs_le_tan hφ
  have h6 : 0.24625 ≤ Real.cos b * Real.cos φ := by nlinarith
  have h7 : 7 * u * |φ| ≤ 7 * u * |Real.tan φ| := mul_le_mul_of_nonneg_left h5 (by positivity)
  have h8 : 29 * u * |Real.tan φ| * 0.24625 ≤ 29 * u * |Real.tan φ| * (Real.cos b * Real.cos φ) :=
    mul_le_mul_of_nonneg_left h6 (by positivity)
  nlinarith [mul_nonneg hu (abs_nonneg (Real.tan φ))]

/-! ### Radius and turn of a step -/

/-- The steering angle in radians. -/
def ang (steer : Int) : ℝ := (steer : ℝ) / 180 * Real.pi

theorem ang_le {steer : Int} (h : |steer| ≤ 60) : |ang steer| ≤ Real.pi / 3 := by
  have hp := Real.pi_pos
  have h' : |(steer : ℝ)| ≤ 60 := by
    have : ((|steer| : Int) : ℝ) ≤ ((60 : Int) : ℝ) := by exact_mod_cast h
    simpa using this
  unfold ang
  rw [abs_mul, abs_div, abs_of_pos hp, abs_of_pos (by norm_num : (0 : ℝ) < 180)]
  nlinarith

theorem tan_ne {steer : Int} (h : |steer| ≤ 60) (h0 : steer ≠ 0) :
    1 / 58 ≤ |Real.tan (ang steer)| ∧ Real.tan (ang steer) ≠ 0 := by
  have hp := Real.pi_gt_d2
  have h1 := abs_le_tan (ang_le h)
  have h2 : 1 ≤ |(steer : ℝ)| := by
    have : (1 : Int) ≤ |steer| := Int.one_le_abs h0
    have : ((1 : Int) : ℝ) ≤ ((|steer| : Int) : ℝ) := by exact_mod_cast this
    simpa using this
  have h3 : 1 / 58 ≤ |ang steer| := by
    unfold ang
    rw [abs_mul, abs_div, abs_of_pos Real.pi_pos, abs_of_pos (by norm_num : (0 : ℝ) < 180)]
    nlinarith
  refine ⟨h3.trans h1, ?_⟩
  rw [← abs_pos]
  linarith

variable {F : Fmt} {lib : Lib}

theorem rWorldF_rel (hu : F.u ≤ 1 / 1024) (hl : LibOk lib F.u) {la : ℝ} {steer : Int} (h : |steer| ≤ 60) (h0 : steer ≠ 0) :
    Rel F.u 36 (rWorldF F lib la steer) (la / Real.tan (ang steer)) := by
  have hu0 := F.u_nonneg
  have a1 : Rel F.u 3 (F.fl (F.fl steer / 180)) ((steer : ℝ) / 180) := by
    have := ((Rel.fl_self F (steer : ℝ)).div (c := 1) hu0 (Rel.refl F.u 180) (by norm_num) (by simp) (by simp)).fl hu (by norm_num)
    exact this.le hu0 (by norm_num)
  have a2 : Rel F.u 7 (F.fl (F.fl (F.fl steer / 180) * piF F)) (ang steer) := by
    have := (a1.mul (c := 5) hu0 (by norm_num) (Rel.fl_self F Real.pi) (by linarith)).fl hu (by norm_num)
    exact this.le hu0 (by norm_num)
  set b := F.fl (F.fl (F.fl (steer : ℝ) / 180) * piF F) with hb
  have a3 := tan_rel hu0 hu (ang_le h) a2
  have a4 : Rel F.u 32 (lib.tan b) (Real.tan (ang steer)) := by
    have h1 := hl.tan b
    have h2 := a3.abs_le
    unfold Rel at a3 ⊢
    have h3 : |lib.tan b - Real.tan (ang steer)| ≤ |lib.tan b - Real.tan b| + |Real.tan b - Real.tan (ang steer)| :=
      abs_sub_le _ _ _
    have h4 : 2 * F.u * |Real.tan b| ≤ 2 * F.u * (1.5 * |Real.tan (ang steer)|) :=
      mul_le_mul_of_nonneg_left (by nlinarith [abs_nonneg (Real.tan (ang steer))]) (by positivity)
    nlinarith
  have a5 := ((Rel.refl F.u la).div (c := 34) hu0 a4 (tan_ne h h0).2 (by linarith) (by linarith)).fl hu (by norm_num)
  exact a5.le hu0 (by norm_num)

theorem dirF_eq (reversed forward : Bool) : dirF reversed forward = driveSign reversed forward := by
  cases reversed <;> cases forward <;> norm_num [dirF, driveSign]

theorem driveSign_abs (reversed forward : Bool) : |driveSign reversed forward| = 1 := by
  unfold driveSign
  split <;> simp

theorem rMapF_rel (hu : F.u ≤ 1 / 1024) (hl : LibOk lib F.u) {la res : ℝ} {steer : Int} (h : |steer| ≤ 60) (h0 : steer ≠ 0)
    (hres : res ≠ 0) :
    Rel F.u 38 (F.fl (rWorldF F lib la steer / res)) (la / Real.tan (ang steer) / res) := by
  have hu0 := F.u_nonneg
  have := ((rWorldF_rel (la := la) hu hl h h0).div (c := 36) hu0 (Rel.refl F.u res) hres (by simp) (by simp)).fl hu (by norm_num)
  exact this.le hu0 (by norm_num)

/-- Exact turn of a step. -/
def turn (la ds dir : ℝ) (steer : Int) : ℝ := ds * dir / (la / Real.tan (ang steer))

theorem dthetaF_rel (hu : F.u ≤ 1 / 1024) (hl : LibOk lib F.u) {la ds dir : ℝ} {steer : Int} (h : |steer| ≤ 60) (h0 : steer ≠ 0)
    (hla : la ≠ 0) :
    Rel F.u 41 (F.fl (F.fl (ds * dir) / rWorldF F lib la steer)) (turn la ds dir steer) := by
  have hu0 := F.u_nonneg
  have := ((Rel.fl_self F (ds * dir)).div (c := 39) hu0 (rWorldF_rel (la := la) hu hl h h0) (div_ne_zero hla (tan_ne h h0).2)
    (by linarith) (by linarith)).fl hu (by norm_num)
  exact this.le hu0 (by norm_num)

/-- The last three operations of a step: difference of two values of sine or cosine, product with the radius, addition to the
coordinate. -/
theorem coord_near (hu : F.u ≤ 1 / 1024) {x X R R' Δ s1 s0 S1 S0 ℓ : ℝ} (hR : Rel F.u 38 R' R)
    (h1 : |s1 - S1| ≤ 6 * F.u + 43 * F.u * |Δ|) (h0 : |s0 - S0| ≤ 2 * F.u) (hΔ : |S1 - S0| ≤ |Δ|) (hl : |R| * |Δ| = ℓ)
    (hx : |x| ≤ X) :
    |F.fl (x + F.fl (R' * F.fl (s1 - s0))) - (x + R * (S1 - S0))| ≤ F.u * (10 * |R| + 90 * ℓ + X) := by
  have hu0 := F.u_nonneg
  set u := F.u
  have hRa := abs_nonneg R
  have hDa := abs_nonneg Δ
  have hl0 : 0 ≤ ℓ := by rw [← hl]; positivity
  -- difference
  have a1 : |(s1 - s0) - (S1 - S0)| ≤ 8 * u + 43 * u * |Δ| := by
    have e : (s1 - s0) - (S1 - S0) = (s1 - S1) - (s0 - S0) := by ring
    have := abs_sub (s1 - S1) (s0 - S0)
    rw [e]; linarith
  have a2 : |s1 - s0| ≤ |Δ| + (8 * u + 43 * u * |Δ|) := by
    have := abs_sub_abs_le_abs_sub (s1 - s0) (S1 - S0)
    linarith
  set D := F.fl (s1 - s0) with hD
  have a3 : |D - (S1 - S0)| ≤ 9 * u + 45 * u * |Δ| := by
    have e1 := F.ok.err (s1 - s0)
    have e2 : |D - (S1 - S0)| ≤ |D - (s1 - s0)| + |(s1 - s0) - (S1 - S0)| := abs_sub_le _ _ _
    have e3 : u * |s1 - s0| ≤ u * (|Δ| + (8 * u + 43 * u * |Δ|)) := mul_le_mul_of_nonneg_left a2 hu0
    have e4 : u * u ≤ u * (1 / 1024) := mul_le_mul_of_nonneg_left hu hu0
    have e5 : u * u * |Δ| ≤ u * (1 / 1024) * |Δ| := mul_le_mul_of_nonneg_right e4 hDa
    nlinarith
  have a4 : |D| ≤ |Δ| + (9 * u + 45 * u * |Δ|) := by
    have := abs_sub_abs_le_abs_sub D (S1 - S0)
    linarith
  -- product
  have b1 : |R' * D - R * (S1 - S0)| ≤ 9.5 * u * |R| + 85 * u * ℓ := by
    have e : R' * D - R * (S1 - S0) = (R' - R) * D + R * (D - (S1 - S0)) := by ring
    have e1 := abs_add_le ((R' - R) * D) (R * (D - (S1 - S0)))
    rw [abs_mul, abs_mul R] at e1
    have e2 : |R' - R| * |D| ≤ (38 * u * |R|) * (|Δ| + (9 * u + 45 * u * |Δ|)) :=
      mul_le_mul hR a4 (abs_nonneg _) (by positivity)
    have e3 : |R| * |D - (S1 - S0)| ≤ |R| * (9 * u + 45 * u * |Δ|) := mul_le_mul_of_nonneg_left a3 hRa
    have e4 : (38 * u * |R|) * (|Δ| + (9 * u + 45 * u * |Δ|)) = 38 * u * ℓ + 342 * (u * u) * |R| + 1710 * (u * u) * ℓ := by
      rw [← hl]; ring
    have e5 : |R| * (9 * u + 45 * u * |Δ|) = 9 * u * |R| + 45 * u * ℓ := by rw [← hl]; ring
    have e6 : u * u ≤ u * (1 / 1024) := mul_le_mul_of_nonneg_left hu hu0
    have e7 : u * u * |R| ≤ u * (1 / 1024) * |R| := mul_le_mul_of_nonneg_right e6 hRa
    have e8 : u * u * ℓ ≤ u * (1 / 1024) * ℓ := mul_le_mul_of_nonneg_right e6 hl0
    have e9 : 0 ≤ u * ℓ := by positivity
    have e10 : 0 ≤ u * |R| := by positivity
    rw [e]
    linarith
  have b2 : |R * (S1 - S0)| ≤ ℓ := by
    rw [abs_mul, ← hl]; exact mul_le_mul_of_nonneg_left hΔ hRa
  have b3 : |R' * D| ≤ ℓ + (9.5 * u * |R| + 85 * u * ℓ) := by
    have := abs_sub_abs_le_abs_sub (R' * D) (R * (S1 - S0))
    linarith
  set d := F.fl (R' * D) with hd
  have e6 : u * u ≤ u * (1 / 1024) := mul_le_mul_of_nonneg_left hu hu0
  have e7 : u * u * |R| ≤ u * (1 / 1024) * |R| := mul_le_mul_of_nonneg_right e6 hRa
  have e8 : u * u * ℓ ≤ u * (1 / 1024) * ℓ := mul_le_mul_of_nonneg_right e6 hl0
  have e9 : 0 ≤ u * ℓ := by positivity
  have e10 : 0 ≤ u * |R| := by positivity
  have b4 : |d - R * (S1 - S0)| ≤ 9.6 * u * |R| + 87 * u * ℓ := by
    have e1 := F.ok.err (R' * D)
    have e2 : |d - R * (S1 - S0)| ≤ |d - R' * D| + |R' * D - R * (S1 - S0)| := abs_sub_le _ _ _
    have e3 : u * |R' * D| ≤ u * (ℓ + (9.5 * u * |R| + 85 * u * ℓ)) := mul_le_mul_of_nonneg_left b3 hu0
    have e4 : |F.fl (R' * D) - R' * D| = |d - R' * D| := rfl
    have e5 : u * (ℓ + (9.5 * u * |R| + 85 * u * ℓ)) = u * ℓ + 9.5 * (u * u * |R|) + 85 * (u * u * ℓ) := by ring
    linarith
  have b5 : |x + d| ≤ X + (ℓ + (9.6 * u * |R| + 87 * u * ℓ)) := by
    have := abs_sub_abs_le_abs_sub d (R * (S1 - S0))
    have := abs_add_le x d
    linarith
  have e1 := F.ok.err (x + d)
  have e2 : |F.fl (x + d) - (x + R * (S1 - S0))| ≤ |F.fl (x + d) - (x + d)| + |d - R * (S1 - S0)| := by
    have := abs_sub_le (F.fl (x + d)) (x + d) (x + R * (S1 - S0))
    have e : (x + d) - (x + R * (S1 - S0)) = d - R * (S1 - S0) := by ring
    rw [e] at this
    exact this
  have e3 : u * |x + d| ≤ u * (X + (ℓ + (9.6 * u * |R| + 87 * u * ℓ))) := mul_le_mul_of_nonneg_left b5 hu0
  have e5 : u * (X + (ℓ + (9.6 * u * |R| + 87 * u * ℓ))) = u * X + u * ℓ + 9.6 * (u * u * |R|) + 87 * (u * u * ℓ) := by ring
  have e11 : u * (10 * |R| + 90 * ℓ + X) = 10 * (u * |R|) + 90 * (u * ℓ) + u * X := by ring
  rw [e11]
  linarith

/-- The operations of a straight step. -/
theorem straight_near (hu : F.u ≤ 1 / 1024) {x X d d' c C ℓ : ℝ} (hd : Rel F.u 4 d' d)
    (hc : |c - C| ≤ 2 * F.u) (hC : |C| ≤ 1) (hl : |d| = ℓ) (hx : |x| ≤ X) :
    |F.fl (x + F.fl (d' * c)) - (x + d * C)| ≤ F.u * (90 * ℓ + X) := by
  have hu0 := F.u_nonneg
  set u := F.u
  have hl0 : 0 ≤ ℓ := by rw [← hl]; positivity
  have hd1 : |d' - d| ≤ 4 * u * ℓ := by rw [← hl]; exact hd
  have e6 : u * u ≤ u * (1 / 1024) := mul_le_mul_of_nonneg_left hu hu0
  have e8 : u * u * ℓ ≤ u * (1 / 1024) * ℓ := mul_le_mul_of_nonneg_right e6 hl0
  have e9 : 0 ≤ u * ℓ := by positivity
  have a1 : |c| ≤ 1 + 2 * u := by
    have := abs_sub_abs_le_abs_sub c C
    linarith
  have b1 : |d' * c - d * C| ≤ 7 * u * ℓ := by
    have e : d' * c - d * C = (d' - d) * c + d * (c - C) := by ring
    have e1 := abs_add_le ((d' - d) * c) (d * (c - C))
    rw [abs_mul, abs_mul d, hl] at e1
    have e2 : |d' - d| * |c| ≤ (4 * u * ℓ) * (1 + 2 * u) := mul_le_mul hd1 a1 (abs_nonneg _) (by positivity)
    have e3 : ℓ * |c - C| ≤ ℓ * (2 * u) := mul_le_mul_of_nonneg_left hc hl0
    have e4 : (4 * u * ℓ) * (1 + 2 * u) = 4 * (u * ℓ) + 8 * (u * u * ℓ) := by ring
    rw [e]; linarith
  have b2 : |d * C| ≤ ℓ := by
    rw [abs_mul, hl]; nlinarith
  have b3 : |d' * c| ≤ ℓ + 7 * u * ℓ := by
    have := abs_sub_abs_le_abs_sub (d' * c) (d * C)
    linarith
  set m := F.fl (d' * c) with hm
  have b4 : |m - d * C| ≤ 9 * u * ℓ := by
    have e1 := F.ok.err (d' * c)
    have e2 : |m - d * C| ≤ |m - d' * c| + |d' * c - d * C| := abs_sub_le _ _ _
    have e3 : u * |d' * c| ≤ u * (ℓ + 7 * u * ℓ) := mul_le_mul_of_nonneg_left b3 hu0
    have e4 : |F.fl (d' * c) - d' * c| = |m - d' * c| := rfl
    have e5 : u * (ℓ + 7 * u * ℓ) = u * ℓ + 7 * (u * u * ℓ) := by ring
    linarith
  have b5 : |x + m| ≤ X + (ℓ + 9 * u * ℓ) := by
    have := abs_sub_abs_le_abs_sub m (d * C)
    have := abs_add_le x m
    linarith
  have e1 := F.ok.err (x + m)
  have e2 : |F.fl (x + m) - (x + d * C)| ≤ |F.fl (x + m) - (x + m)| + |m - d * C| := by
    have := abs_sub_le (F.fl (x + m)) (x + m) (x + d * C)
    have e : (x + m) - (x + d * C) = m - d * C := by ring
    rw [e] at this
    exact this
  have e3 : u * |x + m| ≤ u * (X + (ℓ + 9 * u * ℓ)) := mul_le_mul_of_nonneg_left b5 hu0
  have e5 : u * (X + (ℓ + 9 * u * ℓ)) = u * X + u * ℓ + 9 * (u * u * ℓ) := by ring
  have e11 : u * (90 * ℓ + X) = 90 * (u * ℓ) + u * X := by ring
  rw [e11]
  linarith

/-! ### One step -/

theorem near_of_clamped {clamp : ℝ → ℝ} {e t : ℝ} (h : ClampedNear clamp e t) :
    |clamp t| ≤ Real.pi + e ∧ ∃ k : Int, |t - clamp t - k * (2 * Real.pi)| ≤ e := by
  obtain ⟨c, hn, hc⟩ := h
  refine ⟨?_, ?_⟩
  · have h1 : |c| ≤ Real.pi := abs_le.2 ⟨hn.1, hn.2.1⟩
    have := abs_sub_abs_le_abs_sub (clamp t) c
    linarith
  · obtain ⟨k, hk⟩ := hn.2.2
    refine ⟨-k, ?_⟩
    have e1 : t - clamp t - ((-k : Int) : ℝ) * (2 * Real.pi) = -(clamp t - c) := by rw [hk]; push_cast; ring
    rw [e1, abs_neg]; exact hc

theorem steerMoveF_near (hu : F.u ≤ 1 / 1024) (hl : LibOk lib F.u) {clamp : ℝ → ℝ} {ds res la X ec : ℝ} (hla : 0 < la)
    (hres : 0 < res) (hds : 0 ≤ ds) (hcl : ∀ t, |t| ≤ 5 + 3 * (ds / la) → ClampedNear clamp ec t)
    {reversed forward : Bool} {steer : Int} (hst : |steer| ≤ 60) {ref s : SNode} (hx : |ref.x| ≤ X) (hy : |ref.y| ≤ X)
    (hθ : |ref.theta| ≤ 4) (h : (s.x, s.y, s.theta) = steerMoveF F lib clamp ds res la reversed ref forward steer) :
    DrivesNear la res (posErr F.u la res ds X) (headErr F.u la ds ec)
      ⟨(steer : ℝ) / 180 * Real.pi, driveSign reversed forward, ds⟩ ref s ∧ |s.theta| ≤ Real.pi + ec := by
  have hu0 := F.u_nonneg
  set u := F.u with hudef
  set dir := driveSign reversed forward with hdir
  have hdir1 : |dir| = 1 := driveSign_abs _ _
  set ℓ := ds / res with hℓ
  have hl0 : 0 ≤ ℓ := div_nonneg hds hres.le
  have hq0 : 0 ≤ ds / la := div_nonneg hds hla.le
  have hX0 : 0 ≤ X := (abs_nonneg _).trans hx
  set z0 := steerMove id ds res la reversed ref forward steer with hz0
  let z : SNode := ⟨z0.1, z0.2.1, z0.2.2, true, 0, 0, 0⟩
  have hz : DrivesTo la res ((steer : ℝ) / 180 * Real.pi) dir ds ref z := by
    rw [abs_le] at hst
    exact steerMove_drives id (fun t => ⟨0, by simp⟩) ds res la hla.ne' reversed ref z forward steer ⟨by omega, by omega⟩ rfl
  have hdd : (if reversed = true then (if forward = true then (1 : ℝ) else -1) * (-1) else
      (if forward = true then (1 : ℝ) else -1)) = dir := by
    rw [hdir]; unfold driveSign
    cases reversed <;> cases forward <;> simp
  unfold steerMoveF at h
  simp only [dirF_eq, ← hdir] at h
  unfold steerMove at hz0
  simp only [hdd] at hz0
  unfold posErr headErr
  by_cases h0 : steer = 0
  · rw [if_pos h0] at h hz0
    simp only [Prod.mk.injEq] at h
    obtain ⟨hsx, hsy, hst'⟩ := h
    have hd : Rel u 4 (F.fl (distPxF F ds res * dir)) (ℓ * dir) := by
      have h1 : Rel u 1 (distPxF F ds res) ℓ := Rel.fl_self F _
      have h2 := (h1.mul (c := 1) hu0 (by norm_num) (Rel.refl u dir) (by simp)).fl hu (by norm_num)
      exact h2.le hu0 (by norm_num)
    have hdl : |ℓ * dir| = ℓ := by rw [abs_mul, hdir1, mul_one, abs_of_nonneg hl0]
    have kx := straight_near hu hd (hl.cos ref.theta) (Real.abs_cos_le_one _) hdl hx
    have ky := straight_near hu hd (hl.sin ref.theta) (Real.abs_sin_le_one _) hdl hy
    have hpe : u * (90 * ℓ + X) ≤ u * (600 * (la / res) + 90 * ℓ + X) := by
      apply mul_le_mul_of_nonneg_left _ hu0
      have : 0 ≤ la / res := by positivity
      linarith
    have ht : |F.fl (ref.theta + 0) - ref.theta| ≤ 4 * u := by
      rw [add_zero]
      have := F.ok.err ref.theta
      nlinarith
    have ht' : |F.fl (ref.theta + 0)| ≤ 5 + 3 * (ds / la) := by
      have := abs_sub_abs_le_abs_sub (F.fl (ref.theta + 0)) ref.theta
      linarith
    obtain ⟨n1, k, n2⟩ := near_of_clamped (hcl _ ht')
    rw [hst']
    refine ⟨⟨z, hz, ?_, ?_, k, ?_⟩, n1⟩
    · show |z0.1 - s.x| ≤ _
      rw [hz0, hsx, abs_sub_comm]; exact kx.trans hpe
    · show |z0.2.1 - s.y| ≤ _
      rw [hz0, hsy, abs_sub_comm]; exact ky.trans hpe
    · show |z0.2.2 - s.theta - _| ≤ _
      rw [hz0, hst']
      simp only [id]
      have e : ref.theta + 0 - clamp (F.fl (ref.theta + 0)) - k * (2 * Real.pi) =
          (F.fl (ref.theta + 0) - clamp (F.fl (ref.theta + 0)) - k * (2 * Real.pi)) - (F.fl (ref.theta + 0) - ref.theta) := by
        ring
      rw [e]
      have := abs_sub (F.fl (ref.theta + 0) - clamp (F.fl (ref.theta + 0)) - k * (2 * Real.pi)) (F.fl (ref.theta + 0) - ref.theta)
      have h86 : 0 ≤ u * (86 * (ds / la)) := by positivity
      nlinarith
  · rw [if_neg h0] at h hz0
    simp only [Prod.mk.injEq] at h
    obtain ⟨hsx, hsy, hst'⟩ := h
    have hang : (steer : ℝ) / 180 * Real.pi = ang steer := rfl
    simp only [hang] at hz0
    set R := la / Real.tan (ang steer) / res with hR
    set Δ := ds * dir / (la / Real.tan (ang steer)) with hΔ
    have rR := rMapF_rel (la := la) (res := res) hu hl hst h0 hres.ne'
    have rΔ : Rel u 41 _ Δ := dthetaF_rel (la := la) (ds := ds) (dir := dir) hu hl hst h0 hla.ne'
    set d' := F.fl (F.fl (ds * dir) / rWorldF F lib la steer) with hd'
    set t := F.fl (ref.theta + d') with ht
    obtain ⟨t1, t2⟩ := tan_ne hst h0
    have t3 := abs_tan_le (ang_le hst)
    have hRl : |R| * |Δ| = ℓ := by
      have e : R * Δ = ℓ * dir := by
        rw [hR, hΔ, hℓ]; field_simp
      rw [← abs_mul, e, abs_mul, hdir1, mul_one, abs_of_nonneg hl0]
    have hΔ2 : |Δ| ≤ 2 * (ds / la) := by
      have e : Δ = ds / la * (dir * Real.tan (ang steer)) := by
        rw [hΔ]; field_simp
      rw [e, abs_mul, abs_mul, hdir1, one_mul, abs_of_nonneg hq0]
      nlinarith
    have hR58 : |R| ≤ 58 * (la / res) := by
      rw [hR, abs_div, abs_div, abs_of_pos hla, abs_of_pos hres]
      rw [div_le_iff₀ hres, div_le_iff₀ (by linarith)]
      have e : 58 * (la / res) * res = 58 * la := by field_simp
      rw [e]
      nlinarith
    have hDa := abs_nonneg Δ
    have d1 : |d' - Δ| ≤ 41 * u * |Δ| := rΔ
    have ta : |t - (ref.theta + Δ)| ≤ 4 * u + 43 * u * |Δ| := by
      have e1 := F.ok.err (ref.theta + d')
      have e2 : |t - (ref.theta + Δ)| ≤ |t - (ref.theta + d')| + |d' - Δ| := by
        have := abs_sub_le t (ref.theta + d') (ref.theta + Δ)
        have e : (ref.theta + d') - (ref.theta + Δ) = d' - Δ := by ring
        rw [e] at this
        exact this
      have e3 : |ref.theta + d'| ≤ 4 + (1 + 41 * u) * |Δ| := by
        have := abs_add_le ref.theta d'
        have := Rel.abs_le rΔ
        linarith
      have e4 : u * |ref.theta + d'| ≤ u * (4 + (1 + 41 * u) * |Δ|) := mul_le_mul_of_nonneg_left e3 hu0
      have e6 : u * u ≤ u * (1 / 1024) := mul_le_mul_of_nonneg_left hu hu0
      have e7 : u * u * |Δ| ≤ u * (1 / 1024) * |Δ| := mul_le_mul_of_nonneg_right e6 hDa
      have e8 : u * (4 + (1 + 41 * u) * |Δ|) = 4 * u + u * |Δ| + 41 * (u * u * |Δ|) := by ring
      have e9 : |F.fl (ref.theta + d') - (ref.theta + d')| = |t - (ref.theta + d')| := rfl
      have e10 : 0 ≤ u * |Δ| := by positivity
      linarith
    have s1 : |lib.sin t - Real.sin (ref.theta + Δ)| ≤ 6 * u + 43 * u * |Δ| := by
      have e1 := hl.sin t
      have e2 := sin_lip t (ref.theta + Δ)
      have e3 := abs_sub_le (lib.sin t) (Real.sin t) (Real.sin (ref.theta + Δ))
      linarith
    have c1 : |-lib.cos t - -Real.cos (ref.theta + Δ)| ≤ 6 * u + 43 * u * |Δ| := by
      have e1 := hl.cos t
      have e2 := cos_lip t (ref.theta + Δ)
      have e3 := abs_sub_le (lib.cos t) (Real.cos t) (Real.cos (ref.theta + Δ))
      have e4 : -lib.cos t - -Real.cos (ref.theta + Δ) = -(lib.cos t - Real.cos (ref.theta + Δ)) := by ring
      rw [e4, abs_neg]
      linarith
    have s0 := hl.sin ref.theta
    have c0 : |-lib.cos ref.theta - -Real.cos ref.theta| ≤ 2 * u := by
      have e1 := hl.cos ref.theta
      have e4 : -lib.cos ref.theta - -Real.cos ref.theta = -(lib.cos ref.theta - Real.cos ref.theta) := by ring
      rw [e4, abs_neg]; exact e1
    have sd : |Real.sin (ref.theta + Δ) - Real.sin ref.theta| ≤ |Δ| := by
      have := sin_lip (ref.theta + Δ) ref.theta
      rwa [add_sub_cancel_left] at this
    have cd : |-Real.cos (ref.theta + Δ) - -Real.cos ref.theta| ≤ |Δ| := by
      have := cos_lip (ref.theta + Δ) ref.theta
      rw [add_sub_cancel_left] at this
      have e4 : -Real.cos (ref.theta + Δ) - -Real.cos ref.theta = -(Real.cos (ref.theta + Δ) - Real.cos ref.theta) := by ring
      rw [e4, abs_neg]; exact this
    have kx := coord_near hu rR s1 s0 sd hRl hx
    have ky := coord_near hu rR c1 c0 cd hRl hy
    rw [sub_neg_eq_add, sub_neg_eq_add] at ky
    have hpe : u * (10 * |R| + 90 * ℓ + X) ≤ u * (600 * (la / res) + 90 * ℓ + X) := by
      apply mul_le_mul_of_nonneg_left _ hu0
      have : 0 ≤ la / res := by positivity
      linarith
    have ht' : |t| ≤ 5 + 3 * (ds / la) := by
      have e1 := abs_sub_abs_le_abs_sub t (ref.theta + Δ)
      have e2 := abs_add_le ref.theta Δ
      have e3 : u * |Δ| ≤ 1 / 1024 * |Δ| := mul_le_mul_of_nonneg_right hu hDa
      clear kx ky hpe s1 s0 sd c1 c0 cd rR rΔ d1
      linarith
    obtain ⟨n1, k, n2⟩ := near_of_clamped (hcl _ ht')
    rw [hst']
    refine ⟨⟨z, hz, ?_, ?_, k, ?_⟩, n1⟩
    · show |z0.1 - s.x| ≤ _
      rw [hz0, hsx, abs_sub_comm]; exact kx.trans hpe
    · show |z0.2.1 - s.y| ≤ _
      rw [hz0, hsy, abs_sub_comm]; exact ky.trans hpe
    · show |z0.2.2 - s.theta - _| ≤ _
      rw [hz0, hst']
      simp only [id]
      have e : ref.theta + Δ - clamp t - k * (2 * Real.pi) =
          (t - clamp t - k * (2 * Real.pi)) - (t - (ref.theta + Δ)) := by
        ring
      rw [e]
      have := abs_sub (t - clamp t - k * (2 * Real.pi)) (t - (ref.theta + Δ))
      have h86 : u * |Δ| ≤ u * (2 * (ds / la)) := mul_le_mul_of_nonneg_left hΔ2 hu0
      have e5 : u * (86 * (ds / la) + 4) = 43 * (u * (2 * (ds / la))) + 4 * u := by ring
      clear kx ky hpe s1 s0 sd c1 c0 cd rR rΔ d1
      linarith

/-- The special first step backwards: straight, `-LA` metres, heading unchanged. -/
theorem backF_near (hu : F.u ≤ 1 / 1024) (hl : LibOk lib F.u) {res la X ec : ℝ} (hla : 0 < la) (hres : 0 < res) (hec : 0 ≤ ec)
    {ref s : SNode} (hx : |ref.x| ≤ X) (hy : |ref.y| ≤ X)
    (hsx : s.x = F.fl (ref.x + F.fl (F.fl ((-la) / res) * lib.cos ref.theta)))
    (hsy : s.y = F.fl (ref.y + F.fl (F.fl ((-la) / res) * lib.sin ref.theta))) (hst : s.theta = ref.theta) :
    DrivesNear la res (posErr F.u la res la X) (headErr F.u la la ec) ⟨0, -1, la⟩ ref s := by
  have hu0 := F.u_nonneg
  set u := F.u with hudef
  have hl0 : 0 ≤ la / res := by positivity
  have hd : Rel u 4 (F.fl ((-la) / res)) ((-la) / res) := (Rel.fl_self F _).le hu0 (by norm_num)
  have hdl : |(-la) / res| = la / res := by rw [neg_div, abs_neg, abs_of_nonneg hl0]
  have kx := straight_near hu hd (hl.cos ref.theta) (Real.abs_cos_le_one _) hdl hx
  have ky := straight_near hu hd (hl.sin ref.theta) (Real.abs_sin_le_one _) hdl hy
  have hpe : u * (90 * (la / res) + X) ≤ u * (600 * (la / res) + 90 * (la / res) + X) :=
    mul_le_mul_of_nonneg_left (by linarith) hu0
  refine ⟨⟨ref.x + (-la) / res * Real.cos ref.theta, ref.y + (-la) / res * Real.sin ref.theta, ref.theta, true, 0, 0, 0⟩,
    ⟨fun v => ref.x + v * ((-1) * Real.cos ref.theta / res),
      fun v => ref.y + v * ((-1) * Real.sin ref.theta / res), fun _ => ref.theta, ⟨?_, ?_, ?_⟩, by simp, by simp, rfl,
      by ring, by ring, 0, by simp⟩, ?_, ?_, 0, ?_⟩
  · intro v
    simpa using ((hasDerivAt_id v).mul_const ((-1) * Real.cos ref.theta / res)).const_add ref.x
  · intro v
    simpa using ((hasDerivAt_id v).mul_const ((-1) * Real.sin ref.theta / res)).const_add ref.y
  · intro v
    simpa using hasDerivAt_const v ref.theta
  · unfold posErr
    rw [hsx, abs_sub_comm]; exact kx.trans hpe
  · unfold posErr
    rw [hsy, abs_sub_comm]; exact ky.trans hpe
  · unfold headErr
    rw [hst]
    simp only [sub_self, Int.cast_zero, zero_mul, abs_zero]
    positivity

/-! ### Drift -/

/-- Two motions with the same command: their displacements differ by at most the length times the difference of the
headings. -/
theorem displacement {L res φ dir len : ℝ} (hres : 0 < res) (hdir : |dir| = 1) (hlen : 0 ≤ len) {a b a' b' : SNode}
    (h : DrivesTo L res φ dir len a b) (h' : DrivesTo L res φ dir len a' b') {t : ℝ} {k : Int}
    (ht : |a.theta - a'.theta - k * (2 * Real.pi)| ≤ t) :
    |(b.x - a.x) - (b'.x - a'.x)| ≤ len / res * t ∧ |(b.y - a.y) - (b'.y - a'.y)| ≤ len / res * t ∧
      ∃ j : Int, |b.theta - b'.theta - j * (2 * Real.pi)| ≤ t := by
  obtain ⟨x, y, θ, m, x0, y0, t0, x1, y1, j, t1⟩ := h
  obtain ⟨x', y', θ', m', x0', y0', t0', x1', y1', j', t1'⟩ := h'
  have hdiff : ∀ s, θ s - θ' s = a.theta - a'.theta := by
    intro s
    have e : ∀ s, HasDerivAt (fun s => θ s - θ' s) 0 s := fun s => by
      have := (m.dθ s).sub (m'.dθ s)
      rw [sub_self] at this
      exact this
    have h1 : (fun s => θ s - θ' s) s = (fun s => θ s - θ' s) 0 :=
      is_const_of_deriv_eq_zero (fun s => (e s).differentiableAt) (fun s => (e s).deriv) s 0
    simpa [t0, t0'] using h1
  have key : ∀ (G : ℝ → ℝ), (∀ u v, |G u - G v| ≤ |u - v|) → (∀ (u : ℝ) (n : Int), G (u - n * (2 * Real.pi)) = G u) → ∀ f f' : ℝ → ℝ,
      (∀ s, HasDerivAt f (dir * G (θ s) / res) s) → (∀ s, HasDerivAt f' (dir * G (θ' s) / res) s) →
      |(f len - f 0) - (f' len - f' 0)| ≤ len / res * t := by
    intro G hG hper f f' hf hf'
    have hd : ∀ s ∈ Set.Icc (0 : ℝ) len, HasDerivWithinAt (fun s => f s - f' s)
        (dir * G (θ s) / res - dir * G (θ' s) / res) (Set.Icc 0 len) s := fun s _ => ((hf s).sub (hf' s)).hasDerivWithinAt
    have hb : ∀ s ∈ Set.Icc (0 : ℝ) len, ‖dir * G (θ s) / res - dir * G (θ' s) / res‖ ≤ t / res := by
      intro s _
      have e : dir * G (θ s) / res - dir * G (θ' s) / res = dir * (G (θ s - k * (2 * Real.pi)) - G (θ' s)) / res := by
        rw [hper]; ring
      rw [e, Real.norm_eq_abs, abs_div, abs_mul, hdir, one_mul, abs_of_pos hres]
      apply div_le_div_of_nonneg_right _ hres.le
      refine (hG _ _).trans ?_
      have e2 : θ s - k * (2 * Real.pi) - θ' s = a.theta - a'.theta - k * (2 * Real.pi) := by
        rw [← hdiff s]; ring
      rw [e2]; exact ht
    have := (convex_Icc (0 : ℝ) len).norm_image_sub_le_of_norm_hasDerivWithin_le hd hb
      (Set.left_mem_Icc.2 hlen) (Set.right_mem_Icc.2 hlen)
    rw [Real.norm_eq_abs, Real.norm_eq_abs, sub_zero, abs_of_nonneg hlen] at this
    have e3 : (f len - f 0) - (f' len - f' 0) = f len - f' len - (f 0 - f' 0) := by ring
    rw [e3]
    refine this.trans (le_of_eq ?_)
    ring
  refine ⟨?_, ?_, k + j - j', ?_⟩
  · rw [← x1, ← x0, ← x1', ← x0']
    exact key Real.cos cos_lip (fun u n => Real.cos_sub_int_mul_two_pi u n) x x' m.dx m'.dx
  · rw [← y1, ← y0, ← y1', ← y0']
    exact key Real.sin sin_lip (fun u n => Real.sin_sub_int_mul_two_pi u n) y y' m.dy m'.dy
  · have e : b.theta - b'.theta - ((k + j - j' : Int) : ℝ) * (2 * Real.pi) = a.theta - a'.theta - k * (2 * Real.pi) := by
      rw [t1, t1', ← hdiff len]; push_cast; ring
    rw [e]; exact ht

/-- A list of commands and the poses computed for them. -/
inductive NearChain (L res p t D : ℝ) : SNode → List Cmd → List SNode → Prop
  | nil (a : SNode) : NearChain L res p t D a [] []
  | cons {a b : SNode} {c : Cmd} {cs : List Cmd} {ps : List SNode} : DrivesNear L res p t c a b → |c.dir| = 1 → 0 ≤ c.len →
      c.len ≤ D → NearChain L res p t D b cs ps → NearChain L res p t D a (c :: cs) (b :: ps)

theorem drift {L res p t D : ℝ} (hres : 0 < res) {q a : SNode} {cs : List Cmd} {qs ps : List SNode}
    (hc : NearChain L res p t D q cs qs) (he : Executes L res a cs ps) {p0 t0 : ℝ} (ht0 : 0 ≤ t0) (ht : 0 ≤ t) (h0 : PoseNear p0 t0 a q) :
    ps.length = qs.length ∧ ∀ i (h : i < ps.length) (h' : i < qs.length),
      PoseNear (p0 + (i + 1) * D / res * t0 + driftErr p t (D / res) (i + 1)) (t0 + (i + 1) * t) ps[i] qs[i] := by
  induction hc generalizing a ps p0 t0 with
  | nil => cases he; simp
  | @cons q q' c cs qs hn hdir hlen hD hc ih =>
    cases he with
    | @cons _ a' _ _ ps hd he =>
    obtain ⟨z, hz, zx, zy, k1, zt⟩ := hn
    obtain ⟨ax, ay, k, at'⟩ := h0
    obtain ⟨dx, dy, j, dt⟩ := displacement hres hdir hlen hd hz at'
    have hlD : c.len / res * t0 ≤ D / res * t0 :=
      mul_le_mul_of_nonneg_right (div_le_div_of_nonneg_right hD hres.le) ht0
    have h1 : PoseNear (p0 + D / res * t0 + p) (t0 + t) a' q' := by
      refine ⟨?_, ?_, j + k1, ?_⟩
      · have e : a'.x - q'.x = (a.x - q.x) + ((a'.x - a.x) - (z.x - q.x)) + (z.x - q'.x) := by ring
        rw [e]
        refine (abs_add_three _ _ _).trans ?_
        linarith
      · have e : a'.y - q'.y = (a.y - q.y) + ((a'.y - a.y) - (z.y - q.y)) + (z.y - q'.y) := by ring
        rw [e]
        refine (abs_add_three _ _ _).trans ?_
        linarith
      · have e : a'.theta - q'.theta - ((j + k1 : Int) : ℝ) * (2 * Real.pi) =
            (a'.theta - z.theta - j * (2 * Real.pi)) + (z.theta - q'.theta - k1 * (2 * Real.pi)) := by push_cast; ring
        rw [e]
        refine (abs_add_le _ _).trans ?_
        linarith
    obtain ⟨l1, l2⟩ := ih he (add_nonneg ht0 ht) h1
    refine ⟨by simp [l1], ?_⟩
    intro i h h'
    cases i with
    | zero =>
      simp only [List.getElem_cons_zero, Nat.cast_zero, zero_add, one_mul]
      have e : driftErr p t (D / res) 1 = p := by simp [driftErr]
      rw [e]
      exact h1
    | succ i =>
      simp only [List.getElem_cons_succ]
      have := l2 i (by simpa using h) (by simpa using h')
      have e1 : p0 + D / res * t0 + p + (i + 1) * D / res * (t0 + t) + driftErr p t (D / res) (i + 1) =
          p0 + (((i + 1 : ℕ) : ℝ) + 1) * D / res * t0 + driftErr p t (D / res) (i + 1 + 1) := by
        unfold driftErr; push_cast; ring
      have e2 : t0 + t + ((i : ℝ) + 1) * t = t0 + (((i + 1 : ℕ) : ℝ) + 1) * t := by push_cast; ring
      rw [e1, e2] at this
      exact this

end PathPlanning.Drift
