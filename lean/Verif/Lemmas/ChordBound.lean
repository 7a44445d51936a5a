import Verif.Spec.Steering
import Verif.Props.Statics
import Mathlib.Analysis.Convex.Deriv
import Mathlib.Analysis.SpecialFunctions.Trigonometric.Bounds
import Mathlib.Tactic.Linarith
import Mathlib.Tactic.FieldSimp

/-!
# A driven arc stays close to its chord
-/

noncomputable section

namespace PathPlanning.Clear
open Spec

/-- One side of the interpolation error: a function whose derivative does not fall faster than `M` per
unit lies at most `M d²/8` above the chord. -/
theorem interp_le {f g : ℝ → ℝ} {M d s : ℝ} (hf : ∀ s, HasDerivAt f (g s) s)
    (hg : ∀ a b, a ≤ b → -(M * (b - a)) ≤ g b - g a) (hM : 0 ≤ M) (h0 : 0 ≤ s) (h1 : s ≤ d) (hd : 0 < d) :
    f s ≤ f 0 + s / d * (f d - f 0) + M * d ^ 2 / 8 := by
  have hh : ∀ s, HasDerivAt (fun s => f s + M / 2 * s ^ 2) (g s + M * s) s := by
    intro s
    refine ((hf s).add (((hasDerivAt_id s).pow 2).const_mul (M / 2))).congr_deriv ?_
    simp; ring
  have hc : ConvexOn ℝ Set.univ (fun s => f s + M / 2 * s ^ 2) := by
    refine Monotone.convexOn_univ_of_deriv (fun s => (hh s).differentiableAt) ?_
    intro a b hab
    rw [(hh a).deriv, (hh b).deriv]
    have := hg a b hab
    linarith
  have hs0 : 0 ≤ s / d := by positivity
  have hs1 : s / d ≤ 1 := (div_le_one hd).2 h1
  have key := hc.2 (Set.mem_univ (0 : ℝ)) (Set.mem_univ d) (sub_nonneg.2 hs1) hs0 (by ring)
  simp only [smul_eq_mul, mul_zero, zero_add] at key
  have e : s / d * d = s := by field_simp
  rw [e] at key
  have e2 : s / d * (M / 2 * d ^ 2) = M / 2 * (s * d) := by field_simp
  have : M * (s * d - s ^ 2) ≤ M * (d ^ 2 / 4) :=
    mul_le_mul_of_nonneg_left (by nlinarith [sq_nonneg (2 * s - d)]) hM
  nlinarith

/-- The interpolation error. -/
theorem interp {f g : ℝ → ℝ} {M d s : ℝ} (hf : ∀ s, HasDerivAt f (g s) s)
    (hg : ∀ a b, abs (g b - g a) ≤ M * abs (b - a)) (hM : 0 ≤ M) (h0 : 0 ≤ s) (h1 : s ≤ d) :
    abs (f s - (f 0 + s / d * (f d - f 0))) ≤ M * d ^ 2 / 8 := by
  rcases eq_or_lt_of_le (h0.trans h1) with hd | hd
  · have : s = 0 := by linarith
    subst this; rw [← hd]; simp
  rw [abs_le]
  constructor
  · have := interp_le (f := fun s => -f s) (g := fun s => -g s) (fun s => (hf s).neg)
      (fun a b hab => by
        have := (abs_le.1 (hg a b)).2
        rw [abs_of_nonneg (sub_nonneg.2 hab)] at this
        linarith) hM h0 h1 hd
    linarith
  · have := interp_le hf (fun a b hab => by
        have := (abs_le.1 (hg a b)).1
        rw [abs_of_nonneg (sub_nonneg.2 hab)] at this
        linarith) hM h0 h1 hd
    linarith

/-- A motion of the bicycle model is determined by where it starts. -/
theorem motion_unique {L res φ dir : ℝ} {x y θ x' y' θ' : ℝ → ℝ} (h : BicycleMotion L res φ dir x y θ)
    (h' : BicycleMotion L res φ dir x' y' θ') (ex : x 0 = x' 0) (ey : y 0 = y' 0) (et : θ 0 = θ' 0) (s : ℝ) :
    x s = x' s ∧ y s = y' s ∧ θ s = θ' s := by
  have ht : θ = θ' := funext fun s => eq_of_deriv h.dθ h'.dθ et s
  subst ht
  exact ⟨eq_of_deriv h.dx h'.dx ex s, eq_of_deriv h.dy h'.dy ey s, rfl⟩

/-- **The driven arc and its chord**: in each coordinate they differ by at most `d² |tan φ| / (8 L)`
metres. -/
theorem motion_chord {L res φ dir : ℝ} {x y θ : ℝ → ℝ} (h : BicycleMotion L res φ dir x y θ)
    (hL : 0 < L) (hr : 0 < res) (hdir : dir = 1 ∨ dir = -1) {d s : ℝ} (h0 : 0 ≤ s) (h1 : s ≤ d) :
    abs (x s - (x 0 + s / d * (x d - x 0))) ≤ d ^ 2 * abs (Real.tan φ) / (8 * L * res) ∧
    abs (y s - (y 0 + s / d * (y d - y 0))) ≤ d ^ 2 * abs (Real.tan φ) / (8 * L * res) := by
  have hθ : ∀ s, θ s = θ 0 + dir * Real.tan φ / L * s := fun s =>
    eq_of_deriv h.dθ (g := fun s => θ 0 + dir * Real.tan φ / L * s)
      (fun s => by simpa using ((hasDerivAt_id s).const_mul (dir * Real.tan φ / L)).const_add (θ 0)) (by simp) s
  have hab : abs dir = 1 := by rcases hdir with rfl | rfl <;> simp
  have hM : 0 ≤ abs (Real.tan φ) / (L * res) := by positivity
  have hdθ : ∀ a b, abs (θ b - θ a) = abs (Real.tan φ) / L * abs (b - a) := by
    intro a b
    rw [hθ a, hθ b]
    have : θ 0 + dir * Real.tan φ / L * b - (θ 0 + dir * Real.tan φ / L * a) = dir * Real.tan φ / L * (b - a) := by ring
    rw [this, abs_mul, abs_div, abs_mul, hab, abs_of_pos hL, one_mul]
  have e : abs (Real.tan φ) / (L * res) * d ^ 2 / 8 = d ^ 2 * abs (Real.tan φ) / (8 * L * res) := by
    field_simp
  have lip : ∀ (F : ℝ → ℝ), (∀ u v, abs (F u - F v) ≤ abs (u - v)) → ∀ a b,
      abs (dir * F (θ b) / res - dir * F (θ a) / res) ≤ abs (Real.tan φ) / (L * res) * abs (b - a) := by
    intro F hF a b
    have e1 : dir * F (θ b) / res - dir * F (θ a) / res = dir * (F (θ b) - F (θ a)) / res := by ring
    rw [e1, abs_div, abs_mul, hab, one_mul, abs_of_pos hr]
    have := hF (θ b) (θ a)
    rw [hdθ] at this
    have e2 : abs (Real.tan φ) / (L * res) * abs (b - a) = (abs (Real.tan φ) / L * abs (b - a)) / res := by
      field_simp
    rw [e2]
    exact div_le_div_of_nonneg_right this hr.le
  rw [← e]
  exact ⟨interp h.dx (lip Real.cos Real.abs_cos_sub_cos_le) hM h0 h1,
    interp h.dy (lip Real.sin Real.abs_sin_sub_sin_le) hM h0 h1⟩

end PathPlanning.Clear
