import Verif.Spec.Statics
import Verif.Props.Steering3
import Verif.Props.SteerSearch2
import Mathlib.Analysis.Calculus.MeanValue

/-!
# C93: search objects share the parameters of their neighbourhood
-/

noncomputable section

namespace PathPlanning

open Spec

/-! ### What the statics contain -/

theorem run_concat (ops : List StatOp) (o : StatOp) : StatSt.run (ops ++ [o]) = (StatSt.run ops).step o := by
  simp [StatSt.run, List.foldl_append]

theorem stepNow_concat (ops : List StatOp) (o : StatOp) :
    stepNow (ops ++ [o]) = match o with | .setStep d => d | _ => stepNow ops := by
  cases o <;> simp [stepNow, List.filterMap_append]

theorem paramsNow_concat (ops : List StatOp) (o : StatOp) :
    paramsNow (ops ++ [o]) = match o with | .setParams p => p | _ => paramsNow ops := by
  cases o <;> simp [paramsNow, List.filterMap_append]

/-- The step in metres and the other parameters are those assigned last, every search object keeps its own map. -/
theorem statics_params (ops : List StatOp) :
    (StatSt.run ops).stat.distStep = stepNow ops ∧ (StatSt.run ops).stat.par = paramsNow ops ∧
      ∀ i, (StatSt.run ops).map i = mapOf i ops := by
  induction ops using List.reverseRecOn with
  | nil => exact ⟨rfl, rfl, fun _ => rfl⟩
  | append_singleton ops o ih =>
    obtain ⟨h1, h2, h3⟩ := ih
    rw [run_concat, stepNow_concat, paramsNow_concat]
    cases o with
    | setMap j m =>
      refine ⟨h1, h2, fun i => ?_⟩
      show (if i = j then some m else (StatSt.run ops).map i) = _
      by_cases hij : i = j
      · subst hij; simp [mapOf, List.filterMap_append]
      · rw [if_neg hij, h3]; simp [mapOf, List.filterMap_append, Ne.symm hij]
    | setStep d => exact ⟨rfl, h2, fun i => by simpa [mapOf, List.filterMap_append, StatSt.step] using h3 i⟩
    | setParams p => exact ⟨h1, rfl, fun i => by simpa [mapOf, List.filterMap_append, StatSt.step] using h3 i⟩
    | search j => exact ⟨h1, h2, fun i => by simpa [mapOf, List.filterMap_append, StatSt.step] using h3 i⟩

/-- **The last `setMap` of any search object decides**: the resolution all search objects use is that of its map, and the
step in cells is computed from the step in metres of that moment. -/
theorem statics_after (a b : List StatOp) (i : Nat) (m : GridMap ℝ) (hb : NoSetMap b) :
    (StatSt.run (a ++ .setMap i m :: b)).stat.resolution = m.res ∧
      (StatSt.run (a ++ .setMap i m :: b)).stat.distPx = stepNow a / m.res := by
  induction b using List.reverseRecOn with
  | nil =>
    rw [run_concat]
    refine ⟨rfl, ?_⟩
    show (StatSt.run a).stat.distStep / m.res = _
    rw [(statics_params a).1]
  | append_singleton b o ih =>
    have hb' : NoSetMap b := fun i m h => hb i m (List.mem_append_left _ h)
    have e : a ++ StatOp.setMap i m :: (b ++ [o]) = (a ++ .setMap i m :: b) ++ [o] := by simp
    rw [e, run_concat]
    obtain ⟨h1, h2⟩ := ih hb'
    cases o with
    | setMap j m' => exact absurd (by simp) (hb j m')
    | setStep d => exact ⟨h1, h2⟩
    | setParams p => exact ⟨h1, h2⟩
    | search j => exact ⟨h1, h2⟩

/-- Before the first `setMap` the two steps do not fit together: 0.4 metres at one metre per cell, but one cell. -/
theorem statics_initial : (StatSt.run []).stat.distPx ≠ (StatSt.run []).stat.distStep / (StatSt.run []).stat.resolution := by
  norm_num [StatSt.run, DynStat.initial]

/-! ### When the searches are those of one object alone -/

theorem dynAdvanceS_eq {clamp : ℝ → ℝ} {S : DynStat} (h : S.distPx = S.distStep / S.resolution) (so : SOpts) (ref : SNode)
    (i step : Nat) : dynAdvanceS clamp S so ref i step = dynAdvance clamp S.toP so ref i step := by
  unfold dynAdvanceS dynAdvance steerMoveS steerMove DynP.distPx
  rw [h]
  rfl

/-- If the step was not changed since the last `setMap`, a search is that of C70 - C73 with the resolution of the map given
last - to whatever search object. -/
theorem dynAlgoS_eq {clamp : ℝ → ℝ} {S : DynStat} (h : S.distPx = S.distStep / S.resolution) (m : GridMap ℝ) (skips : Nat)
    (b : Bres ℝ) (C : SteerCfg) :
    dynAlgoS clamp S m skips b C = dynSteerAlgo clamp S.toP S.par.distThr S.par.angThr m skips b C := by
  unfold dynAlgoS dynSteerAlgo dynMovesS dynMoves
  congr 1
  refine List.map_congr_left fun mv _ => ?_
  funext k _
  rw [dynAdvanceS_eq h]

/-- The parameters as search object with a map of resolution `res` would have them alone in the program. -/
def ownP (res : ℝ) (ops : List StatOp) : DynP where
  distStep := stepNow ops
  resolution := res
  la := (paramsNow ops).la
  maxSteer := (paramsNow ops).maxSteer
  steerDelta := (paramsNow ops).steerDelta
  steerSteps := (paramsNow ops).steerSteps
  reversed := (paramsNow ops).reversed
  allowForward := (paramsNow ops).allowForward
  allowBackward := (paramsNow ops).allowBackward

theorem toP_eq (ops : List StatOp) : (StatSt.run ops).stat.toP = ownP (StatSt.run ops).stat.resolution ops := by
  obtain ⟨h1, h2, _⟩ := statics_params ops
  unfold DynStat.toP ownP
  rw [h1, h2]

/-- **A search object is undisturbed** if the map given last - to any object - has the resolution of its own map, and
`distance_step` still has the value it had then. -/
theorem undisturbed {clamp : ℝ → ℝ} (a b : List StatOp) (i j : Nat) (m mj : GridMap ℝ) (hb : NoSetMap b)
    (_hj : mapOf j (a ++ .setMap i m :: b) = some mj) (hres : m.res = mj.res)
    (hstep : stepNow (a ++ .setMap i m :: b) = stepNow a) (skips : Nat) (br : Bres ℝ) (C : SteerCfg) :
    dynAlgoS clamp (StatSt.run (a ++ .setMap i m :: b)).stat mj skips br C =
      dynSteerAlgo clamp (ownP mj.res (a ++ .setMap i m :: b)) (paramsNow (a ++ .setMap i m :: b)).distThr
        (paramsNow (a ++ .setMap i m :: b)).angThr mj skips br C := by
  obtain ⟨h1, h2⟩ := statics_after a b i m hb
  obtain ⟨h3, h4, _⟩ := statics_params (a ++ .setMap i m :: b)
  rw [dynAlgoS_eq (by rw [h2, h1, h3, hstep]), toP_eq, h1, hres, h4]

/-! ### The effect of a map with another resolution -/

/-- Motions can be scaled: the same way in cells of another size is the motion of a vehicle with another wheel base. -/
theorem _root_.PathPlanning.Spec.DrivesTo.scale {L res φ dir ds : ℝ} {a b : SNode} (h : DrivesTo L res φ dir ds a b)
    {q : ℝ} (hq : q ≠ 0) : DrivesTo (L * q) (res * q) φ dir (ds * q) a b := by
  obtain ⟨x, y, θ, ⟨hx, hy, hθ⟩, x0, y0, t0, x1, y1, k, t1⟩ := h
  have hid : ∀ s : ℝ, HasDerivAt (fun s : ℝ => s / q) (1 / q) s := fun s => by
    simpa using (hasDerivAt_id s).div_const q
  refine ⟨fun s => x (s / q), fun s => y (s / q), fun s => θ (s / q), ⟨?_, ?_, ?_⟩, ?_, ?_, ?_, ?_, ?_, k, ?_⟩
  · intro s
    exact ((hx (s / q)).comp s (hid s)).congr_deriv (by field_simp)
  · intro s
    exact ((hy (s / q)).comp s (hid s)).congr_deriv (by field_simp)
  · intro s
    exact ((hθ (s / q)).comp s (hid s)).congr_deriv (by field_simp)
  all_goals simp only [zero_div, mul_div_assoc, div_self hq, mul_one]
  · exact x0
  · exact y0
  · exact t0
  · exact x1
  · exact y1
  · exact t1

/-- A function with the given derivative is the given function. -/
theorem eq_of_deriv {f g : ℝ → ℝ} {f' : ℝ → ℝ} (hf : ∀ s, HasDerivAt f (f' s) s) (hg : ∀ s, HasDerivAt g (f' s) s)
    (h0 : f 0 = g 0) (s : ℝ) : f s = g s := by
  have hd : ∀ s, HasDerivAt (fun s => f s - g s) 0 s := fun s => ((hf s).sub (hg s)).congr_deriv (sub_self _)
  have := is_const_of_deriv_eq_zero (f := fun s => f s - g s) (fun s => (hd s).differentiableAt) (fun s => (hd s).deriv) s 0
  simp only [h0, sub_self] at this
  linarith

/-- **What every drive of the bicycle model satisfies**: chord, change of heading and steering angle determine the wheel base. -/
theorem _root_.PathPlanning.Spec.DrivesTo.chord {L res φ dir ds : ℝ} {a b : SNode} (h : DrivesTo L res φ dir ds a b)
    (hL : L ≠ 0) (hres : res ≠ 0) (hdir : dir = 1 ∨ dir = -1) :
    (res * nodeDist a b * Real.tan φ) ^ 2 = L ^ 2 * (2 - 2 * Real.cos (b.theta - a.theta)) := by
  obtain ⟨x, y, θ, ⟨hx, hy, hθ⟩, x0, y0, t0, x1, y1, k, t1⟩ := h
  have hd2 : dir ^ 2 = 1 := by rcases hdir with h | h <;> rw [h] <;> norm_num
  have hd0 : dir ≠ 0 := by rcases hdir with h | h <;> rw [h] <;> norm_num
  set w := dir * Real.tan φ / L with hw
  have hθs : ∀ s, θ s = a.theta + w * s := by
    intro s
    refine eq_of_deriv hθ (g := fun s => a.theta + w * s) (fun s => ?_) (by simp [t0]) s
    simpa using ((hasDerivAt_id s).const_mul w).const_add a.theta
  have hcos : Real.cos (b.theta - a.theta) = Real.cos (w * ds) := by
    rw [t1, hθs]
    have : a.theta + w * ds + k * (2 * Real.pi) - a.theta = w * ds + k * (2 * Real.pi) := by ring
    rw [this, Real.cos_add_int_mul_two_pi]
  by_cases htan : Real.tan φ = 0
  · have : w = 0 := by rw [hw, htan]; simp
    rw [hcos, this, htan]; simp
  have hw0 : w ≠ 0 := div_ne_zero (mul_ne_zero hd0 htan) hL
  have hlin : ∀ s : ℝ, HasDerivAt (fun s => a.theta + w * s) w s := fun s => by
    simpa using ((hasDerivAt_id s).const_mul w).const_add a.theta
  have hxs : x ds = a.x + dir / (res * w) * (Real.sin (a.theta + w * ds) - Real.sin a.theta) := by
    refine eq_of_deriv hx (g := fun s => a.x + dir / (res * w) * (Real.sin (a.theta + w * s) - Real.sin a.theta))
      (fun s => ?_) (by simp [x0]) ds
    have := (((hlin s).sin.sub_const (Real.sin a.theta)).const_mul (dir / (res * w))).const_add a.x
    exact this.congr_deriv (by rw [hθs]; field_simp)
  have hys : y ds = a.y + dir / (res * w) * (-Real.cos (a.theta + w * ds) + Real.cos a.theta) := by
    refine eq_of_deriv hy (g := fun s => a.y + dir / (res * w) * (-Real.cos (a.theta + w * s) + Real.cos a.theta))
      (fun s => ?_) (by simp [y0]) ds
    have := ((((hlin s).cos.neg).add_const (Real.cos a.theta)).const_mul (dir / (res * w))).const_add a.y
    exact this.congr_deriv (by rw [hθs]; field_simp)
  have hsq : nodeDist a b ^ 2 = (a.x - b.x) ^ 2 + (a.y - b.y) ^ 2 := by
    unfold nodeDist; rw [Real.sq_sqrt (by positivity)]
  have e1 : nodeDist a b ^ 2 = (dir / (res * w)) ^ 2 * (2 - 2 * Real.cos (w * ds)) := by
    rw [hsq, ← x1, ← y1, hxs, hys, Real.sin_add, Real.cos_add]
    have h1 := Real.cos_sq_add_sin_sq a.theta
    have h2 := Real.cos_sq_add_sin_sq (w * ds)
    generalize Real.cos a.theta = ca at *
    generalize Real.sin a.theta = sa at *
    generalize Real.cos (w * ds) = cd at *
    generalize Real.sin (w * ds) = sd at *
    have : (sa * cd + ca * sd - sa) ^ 2 + (-(ca * cd - sa * sd) + ca) ^ 2 =
        (ca ^ 2 + sa ^ 2) * (cd ^ 2 + sd ^ 2 - 2 * cd + 1) := by ring
    calc _ = (dir / (res * w)) ^ 2 * ((sa * cd + ca * sd - sa) ^ 2 + (-(ca * cd - sa * sd) + ca) ^ 2) := by ring
      _ = _ := by rw [this, h1, h2]; ring
  rw [hcos]
  calc _ = (res * Real.tan φ) ^ 2 * nodeDist a b ^ 2 := by ring
    _ = (res * Real.tan φ) ^ 2 * ((dir / (res * w)) ^ 2 * (2 - 2 * Real.cos (w * ds))) := by rw [e1]
    _ = _ := by
      rw [hw]
      have : (res * Real.tan φ) ^ 2 * (dir / (res * (dir * Real.tan φ / L))) ^ 2 = L ^ 2 := by
        field_simp
      rw [← this]; ring

theorem driveSign_or (r f : Bool) : driveSign r f = 1 ∨ driveSign r f = -1 := by
  unfold driveSign; split_ifs <;> simp

section
variable {clamp : ℝ → ℝ} {a b : List StatOp} {i j : Nat} {m mj : GridMap ℝ}

/-- **Disturbed by another object's map**: on its own map, every step of object `j` is the motion of a vehicle whose wheel base
is scaled by the ratio of the resolutions, of a length scaled by the same ratio. -/
theorem disturbed_step (hclamp : ClampSpec clamp) (hb : NoSetMap b)
    (_hj : mapOf j (a ++ .setMap i m :: b) = some mj) (hstep : stepNow (a ++ .setMap i m :: b) = stepNow a)
    (hm : m.res ≠ 0) (hmj : mj.res ≠ 0)
    (hst : 0 ≤ (paramsNow (a ++ .setMap i m :: b)).maxSteer ∧ (paramsNow (a ++ .setMap i m :: b)).maxSteer < 90)
    (hla : (paramsNow (a ++ .setMap i m :: b)).la ≠ 0) {so : SOpts} {ref s : SNode} {n step : Nat} {c : ℝ}
    (h : dynAdvanceS clamp (StatSt.run (a ++ .setMap i m :: b)).stat so ref n step = some (c, s)) :
    DrivesTo ((paramsNow (a ++ .setMap i m :: b)).la * (mj.res / m.res)) mj.res ((s.steer : ℝ) / 180 * Real.pi)
      (driveSign (paramsNow (a ++ .setMap i m :: b)).reversed s.forward)
      ((if (paramsNow (a ++ .setMap i m :: b)).reversed = false ∧ ref.depth < 1 ∧ s.forward = false then
          (paramsNow (a ++ .setMap i m :: b)).la else stepNow a) * (mj.res / m.res)) ref s := by
  obtain ⟨h1, h2⟩ := statics_after a b i m hb
  obtain ⟨h3, h4, _⟩ := statics_params (a ++ .setMap i m :: b)
  rw [dynAdvanceS_eq (by rw [h2, h1, h3, hstep]), toP_eq, h1] at h
  have := dynAdvance_drives hclamp (P := ownP m.res (a ++ .setMap i m :: b)) hst hla h
  have := this.scale (q := mj.res / m.res) (div_ne_zero hmj hm)
  have e : (ownP m.res (a ++ .setMap i m :: b)).resolution * (mj.res / m.res) = mj.res := by
    show m.res * (mj.res / m.res) = mj.res
    field_simp
  rw [e] at this
  have e2 : (ownP m.res (a ++ .setMap i m :: b)).distStep = stepNow a := hstep
  rw [e2] at this
  exact this

/-- **Such a step cannot be driven by the vehicle itself** with the steering angle it is meant for: with the true wheel base,
the tangent of the steering angle would have to be larger by the inverse ratio. -/
theorem disturbed_angle (hclamp : ClampSpec clamp) (hb : NoSetMap b)
    (hj : mapOf j (a ++ .setMap i m :: b) = some mj) (hstep : stepNow (a ++ .setMap i m :: b) = stepNow a)
    (hm : 0 < m.res) (hmj : 0 < mj.res)
    (hst : 0 ≤ (paramsNow (a ++ .setMap i m :: b)).maxSteer ∧ (paramsNow (a ++ .setMap i m :: b)).maxSteer < 90)
    (hla : (paramsNow (a ++ .setMap i m :: b)).la ≠ 0) {so : SOpts} {ref s : SNode} {n step : Nat} {c : ℝ}
    (h : dynAdvanceS clamp (StatSt.run (a ++ .setMap i m :: b)).stat so ref n step = some (c, s))
    (hturn : Real.cos (s.theta - ref.theta) ≠ 1) {φ dir ds : ℝ} (hdir : dir = 1 ∨ dir = -1)
    (hd : DrivesTo (paramsNow (a ++ .setMap i m :: b)).la mj.res φ dir ds ref s) :
    abs (Real.tan φ) = abs (Real.tan ((s.steer : ℝ) / 180 * Real.pi)) * (m.res / mj.res) := by
  have h1 := (disturbed_step hclamp hb hj hstep hm.ne' hmj.ne' hst hla h).chord
    (mul_ne_zero hla (div_pos hmj hm).ne') hmj.ne' (driveSign_or _ _)
  have h2 := hd.chord hla hmj.ne' hdir
  set L := (paramsNow (a ++ .setMap i m :: b)).la with hL
  have hcos : 0 < 2 - 2 * Real.cos (s.theta - ref.theta) := by
    have := Real.cos_le_one (s.theta - ref.theta)
    have := lt_of_le_of_ne this hturn
    linarith
  set Q := 2 - 2 * Real.cos (s.theta - ref.theta) with hQ
  set N := nodeDist ref s with hN
  set T := Real.tan ((s.steer : ℝ) / 180 * Real.pi) with hT
  have hL2 : 0 < L ^ 2 := by positivity
  have hNz : N ≠ 0 := by
    intro hz
    rw [hz] at h2
    have : 0 < L ^ 2 * Q := mul_pos hL2 hcos
    simp at h2
    rcases h2 with h2 | h2
    · exact hla h2
    · exact hcos.ne' h2
  have e : (mj.res * N * Real.tan φ) ^ 2 = (mj.res * N * (T * (m.res / mj.res))) ^ 2 := by
    rw [h2]
    have : (mj.res * N * (T * (m.res / mj.res))) ^ 2 = (mj.res * N * T) ^ 2 * (m.res / mj.res) ^ 2 := by ring
    rw [this, h1]
    field_simp
  rw [sq_eq_sq_iff_abs_eq_abs, abs_mul, abs_mul (mj.res * N)] at e
  have hpos : abs (mj.res * N) ≠ 0 := abs_ne_zero.2 (mul_ne_zero hmj.ne' hNz)
  have := mul_left_cancel₀ hpos e
  rw [this, abs_mul, abs_of_pos (div_pos hm hmj)]

/-- ... in particular, the sharpest turns on the finer map exceed the steering limit. -/
theorem disturbed_too_sharp (hclamp : ClampSpec clamp) (hb : NoSetMap b)
    (hj : mapOf j (a ++ .setMap i m :: b) = some mj) (hstep : stepNow (a ++ .setMap i m :: b) = stepNow a)
    (hmj : 0 < mj.res) (hfine : mj.res < m.res)
    (hst : 0 ≤ (paramsNow (a ++ .setMap i m :: b)).maxSteer ∧ (paramsNow (a ++ .setMap i m :: b)).maxSteer < 90)
    (hla : (paramsNow (a ++ .setMap i m :: b)).la ≠ 0) {so : SOpts} {ref s : SNode} {n step : Nat} {c : ℝ}
    (h : dynAdvanceS clamp (StatSt.run (a ++ .setMap i m :: b)).stat so ref n step = some (c, s))
    (hturn : Real.cos (s.theta - ref.theta) ≠ 1)
    (hmax : abs s.steer = (paramsNow (a ++ .setMap i m :: b)).maxSteer) {φ dir ds : ℝ} (hdir : dir = 1 ∨ dir = -1)
    (hφ : abs φ ≤ ((paramsNow (a ++ .setMap i m :: b)).maxSteer : ℝ) / 180 * Real.pi) :
    ¬ DrivesTo (paramsNow (a ++ .setMap i m :: b)).la mj.res φ dir ds ref s := by
  intro hd
  have hm : 0 < m.res := hmj.trans hfine
  have e := disturbed_angle hclamp hb hj hstep hm hmj hst hla h hturn hdir hd
  set M := (paramsNow (a ++ .setMap i m :: b)).maxSteer with hM
  have hMr : ((s.steer : ℝ) / 180 * Real.pi) = (M : ℝ) / 180 * Real.pi ∨
      ((s.steer : ℝ) / 180 * Real.pi) = -((M : ℝ) / 180 * Real.pi) := by
    rcases abs_choice s.steer with h | h
    · left; rw [← hmax, h]
    · right; rw [← hmax, h]; push_cast; ring
  have hMlt : (M : ℝ) / 180 * Real.pi < Real.pi / 2 := by
    have : (M : ℝ) < 90 := by exact_mod_cast hst.2
    have := Real.pi_pos
    nlinarith
  have hM0 : 0 ≤ (M : ℝ) / 180 * Real.pi := by
    have : (0 : ℝ) ≤ M := by exact_mod_cast hst.1
    have := Real.pi_pos
    positivity
  have habs : ∀ x : ℝ, abs x < Real.pi / 2 → abs (Real.tan x) = Real.tan (abs x) := by
    intro x hx
    rcases abs_cases x with ⟨h1, h2⟩ | ⟨h1, h2⟩
    · rw [h1]; exact abs_of_nonneg (Real.tan_nonneg_of_nonneg_of_le_pi_div_two h2 (by rw [h1] at hx; exact hx.le))
    · rw [h1, Real.tan_neg]
      refine abs_of_nonpos (Real.tan_nonpos_of_nonpos_of_neg_pi_div_two_le h2.le ?_)
      rw [h1] at hx; linarith
  have hT : abs (Real.tan ((s.steer : ℝ) / 180 * Real.pi)) = Real.tan ((M : ℝ) / 180 * Real.pi) := by
    have : abs ((s.steer : ℝ) / 180 * Real.pi) = (M : ℝ) / 180 * Real.pi := by
      rcases hMr with h | h <;> rw [h]
      · exact abs_of_nonneg hM0
      · rw [abs_neg]; exact abs_of_nonneg hM0
    rw [habs _ (by rw [this]; exact hMlt), this]
  have hle : abs (Real.tan φ) ≤ Real.tan ((M : ℝ) / 180 * Real.pi) := by
    rw [habs _ (hφ.trans_lt hMlt)]
    rcases hφ.eq_or_lt with h | h
    · rw [h]
    · refine (Real.tan_lt_tan_of_lt_of_lt_pi_div_two ?_ hMlt h).le
      have := abs_nonneg φ; have := Real.pi_pos; linarith
  rw [e, hT] at hle
  have hTz : Real.tan ((M : ℝ) / 180 * Real.pi) ≠ 0 := by
    intro hz
    have h1 := (disturbed_step hclamp hb hj hstep hm.ne' hmj.ne' hst hla h).chord
      (mul_ne_zero hla (div_pos hmj hm).ne') hmj.ne' (driveSign_or _ _)
    have hz' : Real.tan ((s.steer : ℝ) / 180 * Real.pi) = 0 := abs_eq_zero.1 (hT.trans hz)
    rw [hz'] at h1
    simp only [mul_zero, ne_eq, OfNat.ofNat_ne_zero, not_false_eq_true, zero_pow] at h1
    have hq : (paramsNow (a ++ .setMap i m :: b)).la * (mj.res / m.res) ≠ 0 := mul_ne_zero hla (div_pos hmj hm).ne'
    have := (mul_eq_zero.1 h1.symm).resolve_left (pow_ne_zero 2 hq)
    exact hturn (by linarith)
  have hT0 : 0 < Real.tan ((M : ℝ) / 180 * Real.pi) :=
    lt_of_le_of_ne (Real.tan_nonneg_of_nonneg_of_le_pi_div_two hM0 hMlt.le) (Ne.symm hTz)
  have : 1 < m.res / mj.res := (one_lt_div hmj).2 hfine
  nlinarith

/-- The paths (without heuristic) are such motions step by step, and end within a tolerance that is scaled, too. -/
theorem disturbed_path (hclamp : ClampSpec clamp) (hb : NoSetMap b)
    (_hj : mapOf j (a ++ .setMap i m :: b) = some mj) (hstep : stepNow (a ++ .setMap i m :: b) = stepNow a)
    (hm : 0 < m.res) (hmj : 0 < mj.res) (hd : 0 ≤ stepNow a)
    (hst : 0 ≤ (paramsNow (a ++ .setMap i m :: b)).maxSteer ∧ (paramsNow (a ++ .setMap i m :: b)).maxSteer < 90)
    (hla : (paramsNow (a ++ .setMap i m :: b)).la ≠ 0)
    (hmap : SteerMapOk mj (ownP m.res (a ++ .setMap i m :: b)).stepLen)
    {skips : Nat} {br : Bres ℝ} {C : SteerCfg} {O : OpenList (PadCell mj.width mj.height) ℝ}
    {cfg : SCfg (PadCell mj.width mj.height) ℝ} {start goal : Pose}
    (L : Lawful O) (M : MinFirst O) (ht : TopOk cfg.top) (hheur : ∀ k g, C.heur k g = 0) (hhg : cfg.heurGoal = none)
    (h1 : IntPose start) (h2 : IntPose goal) {fuel : Nat} {q : List SNode}
    (h : padFindPath clamp (dynAlgoS clamp (StatSt.run (a ++ .setMap i m :: b)).stat mj skips br C) O cfg start goal fuel =
      some (.ok q)) :
    (∀ x y, [x, y] <:+: q →
      DrivesTo ((paramsNow (a ++ .setMap i m :: b)).la * (mj.res / m.res)) mj.res ((y.steer : ℝ) / 180 * Real.pi)
        (driveSign (paramsNow (a ++ .setMap i m :: b)).reversed y.forward)
        ((if (paramsNow (a ++ .setMap i m :: b)).reversed = false ∧ x.depth < 1 ∧ y.forward = false then
          (paramsNow (a ++ .setMap i m :: b)).la else stepNow a) * (mj.res / m.res)) x y) ∧
    ∀ kl, q.getLast? = some kl → ∃ kg,
      GoalPose clamp (DynAdv clamp (ownP m.res (a ++ .setMap i m :: b)) C.so) mj skips start goal kg ∧
      nodeDist kg kl * mj.res < (paramsNow (a ++ .setMap i m :: b)).distThr * (mj.res / m.res) := by
  obtain ⟨s1, s2⟩ := statics_after a b i m hb
  obtain ⟨s3, s4, _⟩ := statics_params (a ++ .setMap i m :: b)
  rw [dynAlgoS_eq (by rw [s2, s1, s3, hstep]), toP_eq, s1] at h
  obtain ⟨t1, t2⟩ := dyn_exact hclamp (P := ownP m.res (a ++ .setMap i m :: b)) (by show 0 ≤ stepNow _; rw [hstep]; exact hd)
    hm hmap hst hla L M ht hheur hhg h1 h2 h
  constructor
  · intro x y hxy
    have := (t1 x y hxy).2.2.scale (q := mj.res / m.res) (div_pos hmj hm).ne'
    have e : (ownP m.res (a ++ .setMap i m :: b)).resolution * (mj.res / m.res) = mj.res := by
      show m.res * (mj.res / m.res) = mj.res
      field_simp
    have e2 : (ownP m.res (a ++ .setMap i m :: b)).distStep = stepNow a := hstep
    rw [e, e2] at this
    exact this
  · intro kl hkl
    obtain ⟨kg, e1, _, e3⟩ := t2 kl hkl
    refine ⟨kg, e1, ?_⟩
    rw [s4] at e3
    have e3' : nodeDist kg kl * m.res < (paramsNow (a ++ .setMap i m :: b)).distThr := e3
    have hq := div_pos hmj hm
    calc nodeDist kg kl * mj.res = nodeDist kg kl * m.res * (mj.res / m.res) := by field_simp
      _ < _ := mul_lt_mul_of_pos_right e3' hq

end

/-! ### The effect of a new step length without `setMap` -/

section
variable {clamp : ℝ → ℝ} {a b : List StatOp} {i : Nat} {m : GridMap ℝ}

/-- **Assigning `distance_step` after `setMap` takes effect in curves only**: a step straight on keeps the old length, a step
in a curve has the new one, and the cost of both is that of the old one. -/
theorem stale_step (hclamp : ClampSpec clamp) (hb : NoSetMap b) (hm : 0 < m.res)
    (hst : 0 ≤ (paramsNow (a ++ .setMap i m :: b)).maxSteer ∧ (paramsNow (a ++ .setMap i m :: b)).maxSteer < 90)
    (hla : (paramsNow (a ++ .setMap i m :: b)).la ≠ 0) {so : SOpts} {ref s : SNode} {n step : Nat} {c : ℝ}
    (hdepth : 1 ≤ ref.depth) (hkeep : s.forward = ref.forward) (hf : s.forward = true)
    (h : dynAdvanceS clamp (StatSt.run (a ++ .setMap i m :: b)).stat so ref n step = some (c, s)) :
    c * m.res = stepNow a ∧
    DrivesTo (paramsNow (a ++ .setMap i m :: b)).la m.res ((s.steer : ℝ) / 180 * Real.pi)
      (driveSign (paramsNow (a ++ .setMap i m :: b)).reversed s.forward)
      (if s.steer = 0 then stepNow a else stepNow (a ++ .setMap i m :: b)) ref s := by
  obtain ⟨s1, s2⟩ := statics_after a b i m hb
  obtain ⟨s3, s4, _⟩ := statics_params (a ++ .setMap i m :: b)
  set S := (StatSt.run (a ++ .setMap i m :: b)).stat with hS
  rw [← s4] at hst hla ⊢
  rw [← s3]
  have hsteer : abs s.steer ≤ S.par.maxSteer ∧ c = S.distPx ∧
      (s.x, s.y, s.theta) = steerMoveS clamp S.distStep S.distPx S.resolution S.par.la S.par.reversed ref s.forward s.steer := by
    unfold dynAdvanceS at h
    simp only [] at h
    have hd : decide (ref.depth < 1) = false := by simpa using hdepth
    rw [hd] at h
    by_cases h2 : ref.custom > 0 ∧ |ref.steer| > 0
    · simp [h2] at h
    simp only [Bool.false_eq_true, false_and, if_false, h2, and_false, not_false_eq_true, and_true] at h
    cases hsw : steerSwitch S.par.maxSteer (truncC (S.par.steerDelta * (step : ℝ))) ref.steer n step with
    | none => rw [hsw] at h; simp at h
    | some s0 =>
      rw [hsw] at h
      simp only [] at h
      by_cases hne : ref.forward ≠ decide (n < 3)
      · rw [if_pos hne] at h
        exfalso
        split_ifs at h
        all_goals simp only [Option.some.injEq, Prod.mk.injEq] at h
        all_goals
          apply hne
          rw [← hkeep, ← h.2]
      · rw [if_neg hne] at h
        simp only [Option.some.injEq, Prod.mk.injEq] at h
        obtain ⟨e1, e2⟩ := h
        have hfn : decide (n < 3) = true := by rw [← hf, ← e2]
        rw [← e2]
        refine ⟨?_, ?_, rfl⟩
        · rw [abs_le]; exact steerClamp_bound _ _ hst.1
        · rw [← e1, hfn]; simp
  obtain ⟨g1, g2, g3⟩ := hsteer
  refine ⟨by rw [g2, s2]; field_simp, ?_⟩
  rw [abs_le] at g1
  by_cases h0 : s.steer = 0
  · rw [if_pos h0]
    have g3' : (s.x, s.y, s.theta) = steerMove clamp (stepNow a) m.res S.par.la S.par.reversed ref s.forward s.steer := by
      rw [g3]; unfold steerMoveS steerMove
      simp only [h0, if_true, s2]
    exact steerMove_drives clamp hclamp.mod _ _ _ hla _ _ _ _ _ ⟨by omega, by omega⟩ g3'
  · rw [if_neg h0]
    have g3' : (s.x, s.y, s.theta) = steerMove clamp S.distStep m.res S.par.la S.par.reversed ref s.forward s.steer := by
      rw [g3]; unfold steerMoveS steerMove
      simp only [h0, if_false, s1]
    exact steerMove_drives clamp hclamp.mod _ _ _ hla _ _ _ _ _ ⟨by omega, by omega⟩ g3'

end

/-! ### `SteeringNeighborhood` and `NonHolonomicNeighborhood` -/

/-- One template instance: the resolution is that of the map given last to any search object, and the step in cells always
fits to it. -/
theorem nh_statics (distStep : ℝ) (ops : List (Nat × ℝ)) (i : Nat) (res : ℝ) :
    NHStat.run distStep (ops ++ [(i, res)]) = ⟨res, distStep / res⟩ := by
  simp [NHStat.run, List.foldl_append, NHStat.setResolution]

/-- So with maps of different resolutions, the steps of the object that was given its map earlier are scaled. -/
theorem nh_disturbed_step {clamp : ℝ → ℝ} (hclamp : ClampSpec clamp) {P : SteerP} {so : SOpts} {g : Int} {ref : SNode}
    {preds : List SNode} {n step : Nat} {c : ℝ} {s : SNode} (hm : 0 ≤ P.maxSteer ∧ P.maxSteer < 90) (hla : P.la ≠ 0)
    (ops : List (Nat × ℝ)) (i : Nat) (res own : ℝ) (hres : res ≠ 0) (hown : own ≠ 0)
    (h : advance clamp ((NHStat.run P.distStep (ops ++ [(i, res)])).toP P) so g ref preds n step = some (c, s)) :
    DrivesTo (P.la * (own / res)) own ((s.steer : ℝ) / 180 * Real.pi) (driveSign P.reversed s.forward)
      (P.distStep * (own / res)) ref s := by
  rw [nh_statics] at h
  have := (advance_drives hclamp (P := NHStat.toP ⟨res, P.distStep / res⟩ P) hm hla h).scale (q := own / res)
    (div_ne_zero hown hres)
  have e : (NHStat.toP ⟨res, P.distStep / res⟩ P).resolution * (own / res) = own := by
    show res * (own / res) = own
    field_simp
  rw [e] at this
  exact this

end PathPlanning
