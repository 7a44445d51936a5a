import Verif.Spec.Steering
import Mathlib.Tactic.Ring
import Mathlib.Tactic.FieldSimp
import Mathlib.Tactic.Linarith
import Mathlib.Tactic.Positivity

/-! Lemmas about the steering neighbourhood. -/

noncomputable section

namespace PathPlanning

theorem steerClamp_bound (m s : Int) (hm : 0 ≤ m) : -m ≤ steerClamp m s ∧ steerClamp m s ≤ m := by
  unfold steerClamp; split_ifs <;> omega

theorem steerClamp_id (m s : Int) (h1 : -m ≤ s) (h2 : s ≤ m) : steerClamp m s = s := by
  unfold steerClamp; split_ifs <;> omega

/-- What a successful `advance` tells. -/
theorem advance_inv {clamp : ℝ → ℝ} {P : SteerP} {so : SOpts} {g : Int} {ref : SNode} {preds : List SNode}
    {i step : Nat} {c : ℝ} {s : SNode} (h : advance clamp P so g ref preds i step = some (c, s)) :
    s.forward = decide (i < 3) ∧ (ref.depth < 1 → s.forward = ref.forward) ∧ (0 < ref.custom → ref.steer = 0) ∧
    (∃ s0, steerSwitch P.maxSteer (P.steerDelta * step) ref.steer i step = some s0 ∧
      s.steer = steerClamp P.maxSteer s0) ∧
    (s.x, s.y, s.theta) = steerMove clamp P.distStep P.resolution P.la P.reversed ref s.forward s.steer ∧
    s.depth = ref.depth + 1 ∧
    (P.size = 6 → s.forward ≠ ref.forward → ref.custom ≤ 0 ∧ s.steer = 0 ∧
      straightPreds (P.straightDirSwitch - 1).toNat preds = true ∧ s.custom = toI8 (P.straightDirSwitch - 1)) ∧
    (P.size = 6 → s.forward = ref.forward → s.custom = if ref.custom > 0 then ref.custom - 1 else 0) ∧
    (P.size ≠ 6 → s.custom = g) ∧
    c = P.distPx * (if P.size = 6 ∧ s.forward ≠ ref.forward then so.penaltyTurn else 1) *
      (if s.forward then 1 else so.penaltyBackward) := by
  unfold advance at h
  simp only [] at h
  by_cases h1 : (decide (ref.depth < 1) : Bool) = true ∧ ref.forward ≠ decide (i < 3)
  · rw [if_pos h1] at h; exact absurd h (by simp)
  rw [if_neg h1] at h
  by_cases h2 : ref.custom > 0 ∧ |ref.steer| > 0
  · rw [if_pos h2] at h; exact absurd h (by simp)
  rw [if_neg h2] at h
  have hc : 0 < ref.custom → ref.steer = 0 := by
    intro hp
    by_contra hne
    exact h2 ⟨hp, abs_pos.2 hne⟩
  have hi : ref.depth < 1 → decide (i < 3) = ref.forward := by
    intro hd; by_contra hne; exact h1 ⟨by simpa using hd, fun e => hne e.symm⟩
  cases hs0 : steerSwitch P.maxSteer (P.steerDelta * step) ref.steer i step with
  | none => rw [hs0] at h; exact absurd h (by simp)
  | some s0 =>
  rw [hs0] at h
  simp only [] at h
  by_cases h3 : P.size = 6
  · rw [if_pos h3] at h
    by_cases h4 : ref.forward ≠ decide (i < 3)
    · rw [if_pos h4] at h
      by_cases h5 : ref.custom > 0
      · rw [if_pos h5] at h; exact absurd h (by simp)
      rw [if_neg h5] at h
      by_cases h6 : |steerClamp P.maxSteer s0| > 0
      · rw [if_pos h6] at h; exact absurd h (by simp)
      rw [if_neg h6] at h
      by_cases h7 : straightPreds (P.straightDirSwitch - 1).toNat preds = true
      · rw [if_pos h7] at h
        simp only [Option.some.injEq, Prod.mk.injEq] at h
        obtain ⟨rfl, rfl⟩ := h
        refine ⟨rfl, hi, hc, ⟨s0, rfl, rfl⟩, rfl, rfl, ?_, ?_, ?_, ?_⟩
        · intro _ _
          exact ⟨not_lt.1 h5, abs_nonpos_iff.1 (not_lt.1 h6), h7, rfl⟩
        · intro _ e; exact absurd e.symm h4
        · intro e; exact absurd h3 e
        · rw [if_pos (show P.size = 6 ∧ decide (i < 3) ≠ ref.forward from ⟨h3, fun e => h4 e.symm⟩)]
          by_cases hf : i < 3 <;> simp [hf]
      · rw [if_neg h7] at h; exact absurd h (by simp)
    · rw [if_neg h4] at h
      push Not at h4
      simp only [Option.some.injEq, Prod.mk.injEq] at h
      obtain ⟨rfl, rfl⟩ := h
      refine ⟨rfl, hi, hc, ⟨s0, rfl, rfl⟩, rfl, rfl, ?_, ?_, ?_, ?_⟩
      · intro _ e; exact absurd h4.symm e
      · intro _ _; rfl
      · intro e; exact absurd h3 e
      · rw [if_neg (show ¬ (P.size = 6 ∧ decide (i < 3) ≠ ref.forward) from fun e => e.2 h4.symm)]
        by_cases hf : i < 3 <;> simp [hf]
  · rw [if_neg h3] at h
    simp only [Option.some.injEq, Prod.mk.injEq] at h
    obtain ⟨rfl, rfl⟩ := h
    refine ⟨rfl, hi, hc, ⟨s0, rfl, rfl⟩, rfl, rfl, ?_, ?_, ?_, ?_⟩
    · intro e; exact absurd e h3
    · intro e; exact absurd e h3
    · intro _; rfl
    · rw [if_neg (show ¬ (P.size = 6 ∧ decide (i < 3) ≠ ref.forward) from fun e => h3 e.1)]
      by_cases hf : i < 3 <;> simp [hf]

/-- When `advance` succeeds. -/
theorem advance_isSome (clamp : ℝ → ℝ) (P : SteerP) (so : SOpts) (g : Int) (ref : SNode) (preds : List SNode)
    (i step : Nat) (s0 : Int) (h0 : steerSwitch P.maxSteer (P.steerDelta * step) ref.steer i step = some s0)
    (hi : ref.depth < 1 → decide (i < 3) = ref.forward) (hc : 0 < ref.custom → ref.steer = 0)
    (hs : P.size = 6 → decide (i < 3) ≠ ref.forward → ref.custom ≤ 0 ∧ steerClamp P.maxSteer s0 = 0 ∧
      straightPreds (P.straightDirSwitch - 1).toNat preds = true) :
    ∃ c s, advance clamp P so g ref preds i step = some (c, s) := by
  unfold advance
  simp only []
  have h1 : ¬ ((decide (ref.depth < 1) : Bool) = true ∧ ref.forward ≠ decide (i < 3)) := by
    rintro ⟨a, b⟩; exact b (hi (by simpa using a)).symm
  have h2 : ¬ (ref.custom > 0 ∧ |ref.steer| > 0) := by
    rintro ⟨a, b⟩; rw [hc a] at b; simp at b
  rw [if_neg h1, if_neg h2, h0]
  simp only []
  by_cases h3 : P.size = 6
  · rw [if_pos h3]
    by_cases h4 : ref.forward ≠ decide (i < 3)
    · obtain ⟨a, b, d⟩ := hs h3 (fun e => h4 e.symm)
      rw [if_pos h4, if_neg (not_lt.2 a), b, if_neg (by simp), if_pos d]
      exact ⟨_, _, rfl⟩
    · rw [if_neg h4]; exact ⟨_, _, rfl⟩
  · rw [if_neg h3]; exact ⟨_, _, rfl⟩

/-- What a successful `dynAdvance` tells: either the initial straight backward segment, or a normal step. -/
theorem dynAdvance_inv {clamp : ℝ → ℝ} {P : DynP} {so : SOpts} {ref : SNode}
    {i step : Nat} {c : ℝ} {s : SNode} (h : dynAdvance clamp P so ref i step = some (c, s)) :
    s.forward = decide (i < 3) ∧ (ref.depth < 1 → s.forward = ref.forward) ∧ (0 < ref.custom → ref.steer = 0) ∧
    s.depth = ref.depth + 1 ∧
    ((P.reversed = false ∧ ref.depth < 1 ∧ i = 3 ∧ step = 0 ∧
        s.x = ref.x + (-P.la) / P.resolution * Real.cos ref.theta ∧
        s.y = ref.y + (-P.la) / P.resolution * Real.sin ref.theta ∧ s.theta = ref.theta ∧ s.steer = 0 ∧
        s.custom = 0 ∧ c = |(-P.la) / P.resolution| * so.penaltyBackward) ∨
      (¬ (P.reversed = false ∧ ref.depth < 1 ∧ 3 ≤ i) ∧
        (∃ s0, steerSwitch P.maxSteer (truncC (P.steerDelta * (step : ℝ))) ref.steer i step = some s0 ∧
          s.steer = steerClamp P.maxSteer s0) ∧
        (s.x, s.y, s.theta) = steerMove clamp P.distStep P.resolution P.la P.reversed ref s.forward s.steer ∧
        (s.forward ≠ ref.forward → P.allowForward = true ∧ P.allowBackward = true ∧ ref.custom ≤ 0 ∧ s.steer = 0 ∧
          s.custom = 0) ∧
        (s.forward = ref.forward → s.custom = if ref.custom > 0 then ref.custom - 1 else 0) ∧
        c = P.distPx * (if s.forward ≠ ref.forward then so.penaltyTurn else 1) *
          (if s.forward then 1 else so.penaltyBackward))) := by
  unfold dynAdvance at h
  simp only [] at h
  by_cases h1 : (decide (ref.depth < 1) : Bool) = true ∧ ref.forward ≠ decide (i < 3)
  · rw [if_pos h1] at h; exact absurd h (by simp)
  rw [if_neg h1] at h
  by_cases h2 : ref.custom > 0 ∧ |ref.steer| > 0
  · rw [if_pos h2] at h; exact absurd h (by simp)
  rw [if_neg h2] at h
  have hc : 0 < ref.custom → ref.steer = 0 := by
    intro hp
    by_contra hne
    exact h2 ⟨hp, abs_pos.2 hne⟩
  have hi : ref.depth < 1 → decide (i < 3) = ref.forward := by
    intro hd; by_contra hne; exact h1 ⟨by simpa using hd, fun e => hne e.symm⟩
  by_cases h3 : P.reversed = false ∧ (decide (ref.depth < 1) : Bool) = true ∧ i > 3
  · rw [if_pos h3] at h; exact absurd h (by simp)
  rw [if_neg h3] at h
  by_cases h4 : P.reversed = false ∧ (decide (ref.depth < 1) : Bool) = true ∧ i = 3
  · rw [if_pos h4] at h
    obtain ⟨h4a, h4b, h4c⟩ := h4
    by_cases h5 : step ≠ 0
    · rw [if_pos h5] at h; exact absurd h (by simp)
    rw [if_neg h5] at h
    simp only [Option.some.injEq, Prod.mk.injEq] at h
    obtain ⟨rfl, rfl⟩ := h
    have : decide (i < 3) = false := by rw [h4c]; rfl
    rw [this] at hi ⊢
    exact ⟨rfl, hi, hc, rfl, Or.inl ⟨h4a, by simpa using h4b, h4c, by simpa using h5, rfl, rfl, rfl, rfl, rfl, rfl⟩⟩
  rw [if_neg h4] at h
  have h34 : ¬ (P.reversed = false ∧ ref.depth < 1 ∧ 3 ≤ i) := by
    rintro ⟨a, b, d⟩
    rcases Nat.lt_or_ge 3 i with e | e
    · exact h3 ⟨a, by simpa using b, e⟩
    · exact h4 ⟨a, by simpa using b, by omega⟩
  cases hs0 : steerSwitch P.maxSteer (truncC (P.steerDelta * (step : ℝ))) ref.steer i step with
  | none => rw [hs0] at h; exact absurd h (by simp)
  | some s0 =>
  rw [hs0] at h
  simp only [] at h
  by_cases h5 : ref.forward ≠ decide (i < 3) ∧ ¬ (decide (ref.depth < 1) : Bool) = true
  · rw [if_pos h5] at h
    by_cases h6 : ¬ P.allowForward = true ∨ ¬ P.allowBackward = true
    · rw [if_pos h6] at h; exact absurd h (by simp)
    rw [if_neg h6] at h
    push Not at h6
    by_cases h7 : ref.custom > 0
    · rw [if_pos h7] at h; exact absurd h (by simp)
    rw [if_neg h7] at h
    by_cases h8 : |steerClamp P.maxSteer s0| > 0
    · rw [if_pos h8] at h; exact absurd h (by simp)
    rw [if_neg h8] at h
    simp only [Option.some.injEq, Prod.mk.injEq] at h
    obtain ⟨rfl, rfl⟩ := h
    refine ⟨rfl, hi, hc, rfl, Or.inr ⟨h34, ⟨s0, rfl, rfl⟩, rfl, ?_, ?_, ?_⟩⟩
    · intro _
      exact ⟨h6.1, h6.2, not_lt.1 h7, abs_nonpos_iff.1 (not_lt.1 h8), rfl⟩
    · intro e; exact absurd e.symm h5.1
    · rw [if_pos (show decide (i < 3) ≠ ref.forward from fun e => h5.1 e.symm)]
      by_cases hf : i < 3 <;> simp [hf]
  · rw [if_neg h5] at h
    have h6 : decide (i < 3) = ref.forward := by
      by_contra hne
      apply h5
      refine ⟨fun e => hne e.symm, fun hd => hne (hi (by simpa using hd))⟩
    simp only [Option.some.injEq, Prod.mk.injEq] at h
    obtain ⟨rfl, rfl⟩ := h
    refine ⟨rfl, hi, hc, rfl, Or.inr ⟨h34, ⟨s0, rfl, rfl⟩, rfl, ?_, ?_, ?_⟩⟩
    · intro e; exact absurd h6 e
    · intro _; rfl
    · rw [if_neg (show ¬ (decide (i < 3) ≠ ref.forward) from fun e => e h6)]
      by_cases hf : i < 3 <;> simp [hf]

/-! ### Motion -/

open Spec in
/-- One step of the code is a motion of the bicycle model. -/
theorem steerMove_drives (clamp : ℝ → ℝ) (hclamp : ∀ t, ∃ k : Int, clamp t = t + k * (2 * Real.pi))
    (distStep resolution la : ℝ) (hla : la ≠ 0) (reversed : Bool) (ref s : SNode) (forward : Bool) (steer : Int)
    (hst : -90 < steer ∧ steer < 90)
    (h : (s.x, s.y, s.theta) = steerMove clamp distStep resolution la reversed ref forward steer) :
    DrivesTo la resolution ((steer : ℝ) / 180 * Real.pi) (driveSign reversed forward) distStep ref s := by
  set dir := driveSign reversed forward with hdir
  have hd : (if reversed = true then (if forward = true then (1 : ℝ) else -1) * (-1) else
      (if forward = true then (1 : ℝ) else -1)) = dir := by
    rw [hdir]; unfold driveSign
    cases reversed <;> cases forward <;> simp
  have hd2 : dir * dir = 1 := by
    rw [hdir]; unfold driveSign; split_ifs <;> norm_num
  unfold steerMove at h
  simp only [hd] at h
  by_cases h0 : steer = 0
  · rw [if_pos h0] at h
    simp only [Prod.mk.injEq] at h
    obtain ⟨hx, hy, ht⟩ := h
    refine ⟨fun u => ref.x + u * (dir * Real.cos ref.theta / resolution),
      fun u => ref.y + u * (dir * Real.sin ref.theta / resolution), fun _ => ref.theta, ⟨?_, ?_, ?_⟩, ?_⟩
    · intro u
      simpa using ((hasDerivAt_id u).mul_const (dir * Real.cos ref.theta / resolution)).const_add ref.x
    · intro u
      simpa using ((hasDerivAt_id u).mul_const (dir * Real.sin ref.theta / resolution)).const_add ref.y
    · intro u
      rw [h0]; simpa using hasDerivAt_const u ref.theta
    · obtain ⟨k, hk⟩ := hclamp (ref.theta + 0)
      refine ⟨by simp, by simp, rfl, ?_, ?_, k, ?_⟩
      · rw [hx]; ring
      · rw [hy]; ring
      · rw [ht, hk]; ring
  · rw [if_neg h0] at h
    simp only [Prod.mk.injEq] at h
    obtain ⟨hx, hy, ht⟩ := h
    set φ := (steer : ℝ) / 180 * Real.pi with hφ
    have hpi := Real.pi_pos
    have htan : Real.tan φ ≠ 0 := by
      have hcos : 0 < Real.cos φ := by
        apply Real.cos_pos_of_mem_Ioo
        have h1 : (-90 : ℝ) < steer := by exact_mod_cast hst.1
        have h2 : (steer : ℝ) < 90 := by exact_mod_cast hst.2
        constructor <;> rw [hφ] <;> nlinarith
      intro ht0
      rw [Real.tan_eq_sin_div_cos, div_eq_zero_iff] at ht0
      have hs : Real.sin φ = 0 := ht0.resolve_right hcos.ne'
      rw [Real.sin_eq_zero_iff_of_lt_of_lt] at hs
      · have : (steer : ℝ) = 0 := by
          rw [hφ] at hs
          rcases mul_eq_zero.1 hs with e | e
          · linarith
          · exact absurd e hpi.ne'
        exact h0 (by exact_mod_cast this)
      · have h1 : (-90 : ℝ) < steer := by exact_mod_cast hst.1
        rw [hφ]; nlinarith
      · have h2 : (steer : ℝ) < 90 := by exact_mod_cast hst.2
        rw [hφ]; nlinarith
    set κ := Real.tan φ / la with hκ
    have hκ0 : κ ≠ 0 := div_ne_zero htan hla
    have hr : la / Real.tan φ = 1 / κ := by rw [hκ]; field_simp
    rw [hr] at hx hy ht
    have hdθ : ∀ u, HasDerivAt (fun u => ref.theta + dir * κ * u) (dir * κ) u := by
      intro u
      simpa using ((hasDerivAt_id u).const_mul (dir * κ)).const_add ref.theta
    refine ⟨fun u => ref.x + 1 / κ / resolution * (Real.sin (ref.theta + dir * κ * u) - Real.sin ref.theta),
      fun u => ref.y + 1 / κ / resolution * (-Real.cos (ref.theta + dir * κ * u) + Real.cos ref.theta),
      fun u => ref.theta + dir * κ * u, ⟨?_, ?_, ?_⟩, ?_⟩
    · intro u
      have := ((((hdθ u).sin).sub_const (Real.sin ref.theta)).const_mul (1 / κ / resolution)).const_add ref.x
      have e : 1 / κ / resolution * (Real.cos (ref.theta + dir * κ * u) * (dir * κ)) =
          (κ * (1 / κ)) * (dir * Real.cos (ref.theta + dir * κ * u) / resolution) := by ring
      rw [e, mul_one_div_cancel hκ0, one_mul] at this
      exact this
    · intro u
      have := ((((hdθ u).cos).neg.add_const (Real.cos ref.theta)).const_mul (1 / κ / resolution)).const_add ref.y
      have e : 1 / κ / resolution * (-(-Real.sin (ref.theta + dir * κ * u) * (dir * κ))) =
          (κ * (1 / κ)) * (dir * Real.sin (ref.theta + dir * κ * u) / resolution) := by ring
      rw [e, mul_one_div_cancel hκ0, one_mul] at this
      exact this
    · intro u
      have := hdθ u
      rw [hκ] at this
      convert this using 1
      ring
    · have e : distStep * dir / (1 / κ) = dir * κ * distStep := by field_simp
      rw [e] at hx hy ht
      obtain ⟨k, hk⟩ := hclamp (ref.theta + dir * κ * distStep)
      refine ⟨by simp, by simp, by simp, ?_, ?_, k, ?_⟩
      · rw [hx]
      · rw [hy]
      · rw [ht, hk]

end PathPlanning
