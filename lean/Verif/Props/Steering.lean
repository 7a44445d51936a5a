import Verif.Lemmas.Steering
import Verif.Model.Managers
import Mathlib.Analysis.SpecialFunctions.Trigonometric.Bounds

/-!
# C52: the kinematic neighbourhoods respect the steering model
-/

noncomputable section

namespace PathPlanning

open Spec

/-! ### One step of `SteeringNeighborhood` -/

/-- The steering angle of every successor is within the limit. -/
theorem advance_steer_bounded {clamp : ℝ → ℝ} {P : SteerP} {so : SOpts} {g : Int} {ref : SNode} {preds : List SNode}
    {i step : Nat} {c : ℝ} {s : SNode} (hm : 0 ≤ P.maxSteer)
    (h : advance clamp P so g ref preds i step = some (c, s)) : |s.steer| ≤ P.maxSteer := by
  obtain ⟨_, _, _, ⟨s0, _, hs⟩, _⟩ := advance_inv h
  rw [hs, abs_le]
  exact steerClamp_bound _ _ hm

theorem steerSwitch_cases {m d ref : Int} {i step : Nat} {s0 : Int} (h : steerSwitch m d ref i step = some s0) :
    (step = 0 ∧ s0 = ref) ∨ (0 < step ∧ -m < ref ∧ (i = 1 ∨ i = 4) ∧ s0 = ref - d) ∨
      (0 < step ∧ ref < m ∧ (i = 2 ∨ i = 5) ∧ s0 = ref + d) := by
  unfold steerSwitch at h
  split_ifs at h with a b c a' b' c' d' <;> simp only [Option.some.injEq] at h
  · exact Or.inr (Or.inl ⟨Nat.pos_of_ne_zero b, not_le.1 c, a, h.symm⟩)
  · exact Or.inr (Or.inr ⟨Nat.pos_of_ne_zero b', not_le.1 c', a', h.symm⟩)
  · exact Or.inl ⟨by omega, h.symm⟩

/-- The steering angle changes by at most `steerDelta` degrees per step number: it can not jump. -/
theorem advance_steer_rate {clamp : ℝ → ℝ} {P : SteerP} {so : SOpts} {g : Int} {ref : SNode} {preds : List SNode}
    {i step : Nat} {c : ℝ} {s : SNode} (hd : 0 ≤ P.steerDelta) (hr : |ref.steer| ≤ P.maxSteer)
    (h : advance clamp P so g ref preds i step = some (c, s)) :
    |s.steer - ref.steer| ≤ P.steerDelta * step := by
  obtain ⟨_, _, _, ⟨s0, h0, hs⟩, _⟩ := advance_inv h
  have hp : 0 ≤ P.steerDelta * (step : Int) := mul_nonneg hd (by positivity)
  generalize P.steerDelta * (step : Int) = D at *
  rw [abs_le] at hr ⊢
  rw [hs]
  unfold steerClamp
  rcases steerSwitch_cases h0 with ⟨_, rfl⟩ | ⟨_, _, _, rfl⟩ | ⟨_, _, _, rfl⟩ <;> split_ifs <;> constructor <;> omega

/-- **Direction changes.**  The driving direction changes only on a straight step, never at the start node, never while
the vehicle is committed to straight driving, and only if the `straight_dir_switch - 1` nodes before the reference were
straight too. -/
theorem advance_switch {clamp : ℝ → ℝ} {P : SteerP} {so : SOpts} {g : Int} {ref : SNode} {preds : List SNode}
    {i step : Nat} {c : ℝ} {s : SNode} (h6 : P.size = 6)
    (h : advance clamp P so g ref preds i step = some (c, s)) (hsw : s.forward ≠ ref.forward) :
    s.steer = 0 ∧ 1 ≤ ref.depth ∧ ref.custom ≤ 0 ∧
      ∀ j, j < (P.straightDirSwitch - 1).toNat → ∃ t, preds[j]? = some t ∧ t.steer = 0 := by
  obtain ⟨_, hi, _, _, _, _, hs, _⟩ := advance_inv h
  obtain ⟨a, b, d, _⟩ := hs h6 hsw
  refine ⟨b, ?_, a, ?_⟩
  · by_contra hd
    exact hsw (hi (by omega))
  · generalize (P.straightDirSwitch - 1).toNat = n at d
    clear h hs hi hsw
    induction n generalizing preds with
    | zero => intro j hj; omega
    | succ n ih =>
      cases preds with
      | nil => simp [straightPreds] at d
      | cons t ts =>
        unfold straightPreds at d
        split_ifs at d with ht
        intro j hj
        cases j with
        | zero => exact ⟨t, rfl, by simpa using ht⟩
        | succ j => simpa using ih d j (by omega)

/-- With forward moves only (`moves = FORWARD`) every step drives forward. -/
theorem advance_forward_only {clamp : ℝ → ℝ} {P : SteerP} {so : SOpts} {g : Int} {ref : SNode} {preds : List SNode}
    {i step : Nat} {c : ℝ} {s : SNode} (hi : i < 3)
    (h : advance clamp P so g ref preds i step = some (c, s)) : s.forward = true := by
  rw [(advance_inv h).1]; simpa using hi

/-- The cost of a step: step length in cells, times the turn penalty if the direction changes, times the backward
penalty if it is driven backwards. -/
theorem advance_cost {clamp : ℝ → ℝ} {P : SteerP} {so : SOpts} {g : Int} {ref : SNode} {preds : List SNode}
    {i step : Nat} {c : ℝ} {s : SNode} (h6 : P.size = 6)
    (h : advance clamp P so g ref preds i step = some (c, s)) :
    c = P.distStep / P.resolution * (if s.forward = ref.forward then 1 else so.penaltyTurn) *
      (if s.forward then 1 else so.penaltyBackward) := by
  obtain ⟨_, _, _, _, _, _, _, _, _, hc⟩ := advance_inv h
  rw [hc]
  unfold SteerP.distPx
  by_cases e : s.forward = ref.forward <;> simp [e, h6]

/-- The cost is positive, so that it is never mistaken for the failure value. -/
theorem advance_cost_pos {clamp : ℝ → ℝ} {P : SteerP} {so : SOpts} {g : Int} {ref : SNode} {preds : List SNode}
    {i step : Nat} {c : ℝ} {s : SNode} (hd : 0 < P.distStep) (hr : 0 < P.resolution)
    (hb : 0 < so.penaltyBackward) (ht : 0 < so.penaltyTurn)
    (h : advance clamp P so g ref preds i step = some (c, s)) : 0 < c := by
  obtain ⟨_, _, _, _, _, _, _, _, _, hc⟩ := advance_inv h
  rw [hc]
  have : 0 < P.distPx := div_pos hd hr
  split_ifs <;> positivity

/-- **Kinematics.**  Every step is a motion of the bicycle model of the configured length with the successor's steering
angle, in the direction it claims. -/
theorem advance_drives {clamp : ℝ → ℝ} (hclamp : ClampSpec clamp) {P : SteerP} {so : SOpts} {g : Int} {ref : SNode}
    {preds : List SNode} {i step : Nat} {c : ℝ} {s : SNode} (hm : 0 ≤ P.maxSteer ∧ P.maxSteer < 90) (hla : P.la ≠ 0)
    (h : advance clamp P so g ref preds i step = some (c, s)) :
    DrivesTo P.la P.resolution ((s.steer : ℝ) / 180 * Real.pi) (driveSign P.reversed s.forward) P.distStep ref s := by
  have hb := advance_steer_bounded hm.1 h
  obtain ⟨_, _, _, _, hmv, _⟩ := advance_inv h
  rw [abs_le] at hb
  exact steerMove_drives clamp hclamp.mod _ _ _ hla _ _ _ _ _ ⟨by omega, by omega⟩ hmv

/-- The chord of a step is not longer than the step. -/
theorem steerMove_chord (clamp : ℝ → ℝ) (distStep resolution la : ℝ) (hd : 0 ≤ distStep) (hr : 0 < resolution)
    (reversed : Bool) (ref s : SNode) (forward : Bool) (steer : Int)
    (h : (s.x, s.y, s.theta) = steerMove clamp distStep resolution la reversed ref forward steer) :
    nodeDist ref s ≤ distStep / resolution := by
  have hq : 0 ≤ distStep / resolution := div_nonneg hd hr.le
  unfold nodeDist
  apply Real.sqrt_le_iff.2
  refine ⟨hq, ?_⟩
  unfold steerMove at h
  simp only [] at h
  set dir : ℝ := (if reversed = true then (if forward = true then (1 : ℝ) else -1) * (-1) else
      (if forward = true then (1 : ℝ) else -1)) with hdir
  have hd2 : dir ^ 2 = 1 := by
    rw [hdir]; cases reversed <;> cases forward <;> norm_num
  split_ifs at h with h0
  · simp only [Prod.mk.injEq] at h
    obtain ⟨hx, hy, _⟩ := h
    rw [hx, hy]
    have := Real.cos_sq_add_sin_sq ref.theta
    have e : (ref.x - (ref.x + distStep / resolution * dir * Real.cos ref.theta)) ^ 2 +
        (ref.y - (ref.y + distStep / resolution * dir * Real.sin ref.theta)) ^ 2 =
        (distStep / resolution) ^ 2 * dir ^ 2 * (Real.cos ref.theta ^ 2 + Real.sin ref.theta ^ 2) := by ring
    rw [e, this, hd2]; linarith
  · simp only [Prod.mk.injEq] at h
    obtain ⟨hx, hy, _⟩ := h
    rw [hx, hy]
    set r := la / Real.tan ((steer : ℝ) / 180 * Real.pi) with hrr
    set a := ref.theta with ha
    set d := distStep * dir / r with hdd
    have e : (ref.x - (ref.x + r / resolution * (Real.sin (a + d) - Real.sin a))) ^ 2 +
        (ref.y - (ref.y + r / resolution * (-Real.cos (a + d) + Real.cos a))) ^ 2 =
        (r / resolution) ^ 2 * (2 - 2 * Real.cos d) := by
      have h1 := Real.cos_sq_add_sin_sq a
      have h2 := Real.cos_sq_add_sin_sq d
      rw [Real.sin_add, Real.cos_add]
      generalize Real.cos a = ca at *
      generalize Real.sin a = sa at *
      generalize Real.cos d = cd at *
      generalize Real.sin d = sd at *
      have : (sa * cd + ca * sd - sa) ^ 2 + (-(ca * cd - sa * sd) + ca) ^ 2 =
          (ca ^ 2 + sa ^ 2) * (cd ^ 2 + sd ^ 2 - 2 * cd + 1) := by ring
      calc _ = (r / resolution) ^ 2 * ((sa * cd + ca * sd - sa) ^ 2 + (-(ca * cd - sa * sd) + ca) ^ 2) := by ring
        _ = _ := by rw [this, h1, h2]; ring
    rw [e]
    have hcos := Real.one_sub_sq_div_two_le_cos (x := d)
    have hb : (2 - 2 * Real.cos d) ≤ d ^ 2 := by linarith
    calc (r / resolution) ^ 2 * (2 - 2 * Real.cos d) ≤ (r / resolution) ^ 2 * d ^ 2 :=
          mul_le_mul_of_nonneg_left hb (by positivity)
      _ ≤ (distStep / resolution) ^ 2 := by
        by_cases hr0 : r = 0
        · rw [hr0]; simp; positivity
        · have : (r / resolution) ^ 2 * d ^ 2 = (distStep / resolution) ^ 2 * dir ^ 2 := by
            rw [hdd]; field_simp
          rw [this, hd2]; linarith

/-- The Euclidean distance never overestimates the cost of a step (penalties at least 1): the straight-line heuristic is
consistent for this neighbourhood. -/
theorem advance_dist_le_cost {clamp : ℝ → ℝ} {P : SteerP} {so : SOpts} {g : Int} {ref : SNode} {preds : List SNode}
    {i step : Nat} {c : ℝ} {s : SNode} (hd : 0 ≤ P.distStep) (hr : 0 < P.resolution)
    (hb : 1 ≤ so.penaltyBackward) (ht : 1 ≤ so.penaltyTurn)
    (h : advance clamp P so g ref preds i step = some (c, s)) : nodeDist ref s ≤ c := by
  obtain ⟨_, _, _, _, hmv, _, _, _, _, hc⟩ := advance_inv h
  have h1 := steerMove_chord clamp _ _ _ hd hr _ _ _ _ _ hmv
  have h2 : 0 ≤ P.distPx := div_nonneg hd hr.le
  have h3 : P.distStep / P.resolution = P.distPx := rfl
  rw [h3] at h1
  refine h1.trans ?_
  rw [hc]
  have key : ∀ a b : ℝ, 1 ≤ a → 1 ≤ b → P.distPx ≤ P.distPx * a * b := by
    intro a b ha hb
    have : P.distPx ≤ P.distPx * a := le_mul_of_one_le_right h2 ha
    exact this.trans (le_mul_of_one_le_right (h2.trans this) hb)
  apply key <;> split_ifs <;> first | assumption | exact le_refl _

/-- No dead ends: a node that is not committed to driving straight (or is straight) always has the successor that keeps
its direction and steering angle. -/
theorem advance_keep (clamp : ℝ → ℝ) (P : SteerP) (so : SOpts) (g : Int) (ref : SNode) (preds : List SNode)
    (hc : 0 < ref.custom → ref.steer = 0) (hs : |ref.steer| ≤ P.maxSteer) :
    ∃ c s, advance clamp P so g ref preds (if ref.forward then 0 else 3) 0 = some (c, s) ∧
      s.steer = ref.steer ∧ s.forward = ref.forward := by
  have hf : decide ((if ref.forward = true then 0 else 3) < 3) = ref.forward := by
    cases ref.forward <;> rfl
  have h0 : steerSwitch P.maxSteer (P.steerDelta * (0 : Nat)) ref.steer (if ref.forward then 0 else 3) 0 =
      some ref.steer := by
    cases ref.forward <;> rfl
  obtain ⟨c, s, h⟩ := advance_isSome clamp P so g ref preds (if ref.forward then 0 else 3) 0 ref.steer h0
    (fun _ => hf) hc (fun _ e => absurd hf e)
  refine ⟨c, s, h, ?_, ?_⟩
  · obtain ⟨_, _, _, ⟨s0, a, b⟩, _⟩ := advance_inv h
    rw [h0] at a
    simp only [Option.some.injEq] at a
    rw [b, ← a]
    rw [abs_le] at hs
    exact steerClamp_id _ _ hs.1 hs.2
  · rw [(advance_inv h).1, hf]

/-- Finding: a committed node (`custom > 0`) with turned wheels has no successor at all. -/
theorem advance_dead_end (clamp : ℝ → ℝ) (P : SteerP) (so : SOpts) (g : Int) (ref : SNode) (preds : List SNode)
    (hc : 0 < ref.custom) (hs : ref.steer ≠ 0) (i step : Nat) :
    advance clamp P so g ref preds i step = none := by
  cases h : advance clamp P so g ref preds i step with
  | none => rfl
  | some r => exact absurd ((advance_inv (c := r.1) (s := r.2) h).2.2.1 hc) hs

/-! ### Sequences of steps -/

/-- A sequence of nodes, newest first, each a successor of the next one; the last one is a start node. -/
inductive Trace (clamp : ℝ → ℝ) (P : SteerP) (so : SOpts) : List SNode → Prop
  | start (s : SNode) (hd : s.depth = 0) (hc : s.custom = 0) (hs : |s.steer| ≤ P.maxSteer) : Trace clamp P so [s]
  | step {s r : SNode} {rest : List SNode} (ht : Trace clamp P so (r :: rest)) (g : Int) (i k : Nat) (c : ℝ)
      (hi : i < P.size) (hk : k ≤ P.steerSteps) (h : advance clamp P so g r rest i k = some (c, s)) :
      Trace clamp P so (s :: r :: rest)

/-- Along every sequence of steps the steering angle stays within the limit. -/
theorem trace_steer_bounded {clamp : ℝ → ℝ} {P : SteerP} {so : SOpts} (hm : 0 ≤ P.maxSteer) {l : List SNode}
    (h : Trace clamp P so l) : ∀ s ∈ l, |s.steer| ≤ P.maxSteer := by
  induction h with
  | start s hd hc hs => simpa using hs
  | step ht g i k c hi hk h ih =>
    intro s hs
    rcases List.mem_cons.1 hs with rfl | hs
    · exact advance_steer_bounded hm h
    · exact ih s hs

/-- Along every sequence of steps the steering angle changes by at most `steerDelta * steerSteps` per step. -/
theorem trace_steer_rate {clamp : ℝ → ℝ} {P : SteerP} {so : SOpts} (hm : 0 ≤ P.maxSteer) (hd : 0 ≤ P.steerDelta)
    {l : List SNode} (h : Trace clamp P so l) :
    l.IsChain (fun s r => |s.steer - r.steer| ≤ P.steerDelta * P.steerSteps) := by
  induction h with
  | start s hd hc hs => exact List.isChain_singleton _
  | @step s r rest ht g i k c hi hk h ih =>
    refine List.isChain_cons_cons.2 ⟨?_, ih⟩
    refine (advance_steer_rate hd (trace_steer_bounded hm ht r (by simp)) h).trans ?_
    exact mul_le_mul_of_nonneg_left (by exact_mod_cast hk) hd

/-- Along every sequence of steps each step is a motion of the bicycle model. -/
theorem trace_drives {clamp : ℝ → ℝ} (hclamp : ClampSpec clamp) {P : SteerP} {so : SOpts}
    (hm : 0 ≤ P.maxSteer ∧ P.maxSteer < 90) (hla : P.la ≠ 0) {l : List SNode} (h : Trace clamp P so l) :
    l.IsChain (fun s r => DrivesTo P.la P.resolution ((s.steer : ℝ) / 180 * Real.pi)
      (driveSign P.reversed s.forward) P.distStep r s) := by
  induction h with
  | start s hd hc hs => exact List.isChain_singleton _
  | @step s r rest ht g i k c hi hk h ih =>
    exact List.isChain_cons_cons.2 ⟨advance_drives hclamp hm hla h, ih⟩

/-- A direction change inside a sequence is a straight step, preceded (after the turning node itself) by
`straight_dir_switch - 1` straight nodes. -/
theorem trace_switch_before {clamp : ℝ → ℝ} {P : SteerP} {so : SOpts} (h6 : P.size = 6) {pre rest : List SNode}
    {s r : SNode} (h : Trace clamp P so (pre ++ s :: r :: rest)) (hsw : s.forward ≠ r.forward) :
    s.steer = 0 ∧ ∀ j, j < (P.straightDirSwitch - 1).toNat → ∃ t, rest[j]? = some t ∧ t.steer = 0 := by
  induction pre with
  | nil =>
    cases h with
    | step ht g i k c hi hk h =>
      obtain ⟨a, _, _, b⟩ := advance_switch h6 h hsw
      exact ⟨a, b⟩
  | cons p ps ih =>
    apply ih
    cases hps : ps ++ s :: r :: rest with
    | nil => simp at hps
    | cons q qs =>
      rw [List.cons_append, hps] at h
      cases h with
      | step ht g i k c hi hk h => exact ht

theorem Trace.tail {clamp : ℝ → ℝ} {P : SteerP} {so : SOpts} {s r : SNode} {l : List SNode}
    (h : Trace clamp P so (s :: r :: l)) : Trace clamp P so (r :: l) := by
  cases h with
  | step ht g i k c hi hk h => exact ht

theorem toI8_id (z : Int) (h : 0 ≤ z) (h2 : z < 128) : toI8 z = z := by
  unfold toI8; omega

/-- **After a direction change** from `r` to `s`, the next `straight_dir_switch - 1` nodes keep the new direction, and
all of them but the newest are straight. -/
theorem trace_switch_after {clamp : ℝ → ℝ} {P : SteerP} {so : SOpts} (h6 : P.size = 6)
    (hk1 : 1 ≤ P.straightDirSwitch) (hk : P.straightDirSwitch ≤ 128) {w s r : SNode} {mid rest : List SNode}
    (h : Trace clamp P so (w :: (mid ++ s :: r :: rest))) (hsw : s.forward ≠ r.forward)
    (hlen : (mid.length : Int) < P.straightDirSwitch - 1) :
    w.forward = s.forward ∧ ∀ t ∈ mid, t.steer = 0 ∧ t.forward = s.forward := by
  -- the newest node of `mid ++ [s]` has the remaining commitment
  have key : ∀ (mid : List SNode), (mid.length : Int) < P.straightDirSwitch - 1 →
      ∀ q l, mid ++ s :: r :: rest = q :: l → Trace clamp P so (q :: l) →
      q.custom = P.straightDirSwitch - 1 - mid.length ∧ q.forward = s.forward ∧
      ∀ t ∈ mid.tail, t.steer = 0 ∧ t.forward = s.forward := by
    intro mid
    induction mid with
    | nil =>
      intro hl q l e ht
      simp only [List.nil_append, List.cons.injEq] at e
      obtain ⟨rfl, rfl⟩ := e
      cases ht with
      | step ht g i k c hi hk' h =>
        obtain ⟨_, _, _, _, _, _, hs, _⟩ := advance_inv h
        obtain ⟨_, _, _, d⟩ := hs h6 hsw
        refine ⟨?_, rfl, by simp⟩
        rw [d, toI8_id _ (by omega) (by omega)]; simp
    | cons m ms ih =>
      intro hl q l e ht
      simp only [List.length_cons, Nat.cast_add, Nat.cast_one] at hl
      simp only [List.cons_append, List.cons.injEq] at e
      obtain ⟨rfl, rfl⟩ := e
      cases hq : ms ++ s :: r :: rest with
      | nil => simp at hq
      | cons q' l' =>
        rw [hq] at ht
        obtain ⟨a, b, d⟩ := ih (by omega) q' l' hq ht.tail
        cases ht with
        | step ht g i k c hi hk' h =>
          obtain ⟨_, _, h3, _, _, _, hs, hn, _⟩ := advance_inv h
          have hpos : 0 < q'.custom := by rw [a]; omega
          have hfw : m.forward = q'.forward := by
            by_contra hne
            have := (hs h6 hne).1
            omega
          refine ⟨?_, hfw.trans b, ?_⟩
          · rw [hn h6 hfw, if_pos hpos, a]; simp; omega
          · intro t htm
            simp only [List.tail_cons] at htm
            cases ms with
            | nil => simp at htm
            | cons m' ms' =>
              simp only [List.cons_append, List.cons.injEq] at hq
              rcases List.mem_cons.1 htm with rfl | htm
              · exact ⟨by rw [hq.1]; exact h3 hpos, by rw [hq.1]; exact b⟩
              · exact d t (by simpa using htm)
  cases hq : mid ++ s :: r :: rest with
  | nil => simp at hq
  | cons q l =>
    rw [hq] at h
    obtain ⟨a, b, d⟩ := key mid hlen q l hq h.tail
    cases h with
    | step ht g i k c hi hk' h =>
      obtain ⟨_, _, h3, _, _, _, hs, hn, _⟩ := advance_inv h
      have hpos : 0 < q.custom := by rw [a]; omega
      have hfw : w.forward = q.forward := by
        by_contra hne
        have := (hs h6 hne).1
        omega
      refine ⟨hfw.trans b, ?_⟩
      intro t htm
      cases mid with
      | nil => simp at htm
      | cons m ms =>
        simp only [List.cons_append, List.cons.injEq] at hq
        rcases List.mem_cons.1 htm with rfl | htm
        · exact ⟨by rw [hq.1]; exact h3 hpos, by rw [hq.1]; exact b⟩
        · exact d t (by simpa using htm)

end PathPlanning
