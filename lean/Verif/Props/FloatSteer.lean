import Verif.Lemmas.FloatSteer
import Verif.Props.SteerSearch
import Verif.Props.Steering3
import Verif.Props.KinSearch
import Verif.Props.GridRound2

/-!
# C109: paths of the steering searches survive rounding

In floating point arithmetic the poses of a path are not exactly where the vehicle gets when it executes the steering
commands stored in them.  The theorems bound the difference: for one step, for a whole path, and for `double`.
-/

noncomputable section

namespace PathPlanning.Drift
open Spec

variable {F : Fmt} {lib : Lib} {clamp : ℝ → ℝ}

theorem steerClamp_abs {M s : Int} (hM : 0 ≤ M) : |steerClamp M s| ≤ M := by
  unfold steerClamp
  rw [abs_le]
  split_ifs <;> constructor <;> omega

/-- Costs `advance` can return, before the multiplication with the resolution. -/
def stepCostsF (F : Fmt) (ds res la : ℝ) (so : SOpts) : List F.D :=
  let a := F.rd (ds / res)
  let b := F.rd (distPxF F ds res * so.penaltyTurn)
  [F.rd (a.1 * 1), F.rd (b.1 * 1), F.rd ((F.rd (a.1 * so.penaltyBackward)).1 * 1),
    F.rd ((F.rd (b.1 * so.penaltyBackward)).1 * 1), F.rd (|F.fl ((-la) / res)| * so.penaltyBackward)]

/-- What a successful `advanceF` tells. -/
theorem advanceF_inv {P : SteerP} {so : SOpts} {g : Int} {ref : SNode} {preds : List SNode}
    {i step : Nat} {c : F.D} {s : SNode} (hm : 0 ≤ P.maxSteer) (h : advanceF F lib clamp P so g ref preds i step = some (c, s)) :
    |s.steer| ≤ P.maxSteer ∧
    (s.x, s.y, s.theta) = steerMoveF F lib clamp P.distStep P.resolution P.la P.reversed ref s.forward s.steer ∧
    s.depth = ref.depth + 1 ∧ c ∈ stepCostsF F P.distStep P.resolution P.la so := by
  unfold advanceF at h
  simp only [] at h
  by_cases h1 : (decide (ref.depth < 1) : Bool) = true ∧ ref.forward ≠ decide (i < 3)
  · rw [if_pos h1] at h; exact absurd h (by simp)
  rw [if_neg h1] at h
  by_cases h2 : ref.custom > 0 ∧ |ref.steer| > 0
  · rw [if_pos h2] at h; exact absurd h (by simp)
  rw [if_neg h2] at h
  cases hs0 : steerSwitch P.maxSteer (P.steerDelta * step) ref.steer i step with
  | none => rw [hs0] at h; exact absurd h (by simp)
  | some s0 =>
  rw [hs0] at h
  simp only [] at h
  have key : ∀ (cu : Int) (co : F.D), (co = F.rd (P.distStep / P.resolution) ∨
      co = F.rd (distPxF F P.distStep P.resolution * so.penaltyTurn)) →
      some (F.rd ((if (!decide (i < 3)) = true then F.rd (co.1 * so.penaltyBackward) else co).1 * 1),
        ({ x := (steerMoveF F lib clamp P.distStep P.resolution P.la P.reversed ref (decide (i < 3)) (steerClamp P.maxSteer s0)).1,
           y := (steerMoveF F lib clamp P.distStep P.resolution P.la P.reversed ref (decide (i < 3)) (steerClamp P.maxSteer s0)).2.1,
           theta := (steerMoveF F lib clamp P.distStep P.resolution P.la P.reversed ref (decide (i < 3)) (steerClamp P.maxSteer s0)).2.2,
           forward := decide (i < 3), steer := steerClamp P.maxSteer s0, custom := cu, depth := ref.depth + 1 } : SNode)) =
        some (c, s) →
      |s.steer| ≤ P.maxSteer ∧
      (s.x, s.y, s.theta) = steerMoveF F lib clamp P.distStep P.resolution P.la P.reversed ref s.forward s.steer ∧
      s.depth = ref.depth + 1 ∧ c ∈ stepCostsF F P.distStep P.resolution P.la so := by
    intro cu co hco e
    simp only [Option.some.injEq, Prod.mk.injEq] at e
    obtain ⟨rfl, rfl⟩ := e
    refine ⟨steerClamp_abs hm, rfl, rfl, ?_⟩
    by_cases hf : i < 3 <;> rcases hco with rfl | rfl <;> simp [hf, stepCostsF]
  by_cases h3 : P.size = 6
  · rw [if_pos h3] at h
    by_cases h4 : ref.forward ≠ decide (i < 3)
    · rw [if_pos h4] at h
      by_cases h5 : ref.custom > 0
      · rw [if_pos h5] at h; exact absurd h (by simp)
      rw [if_neg h5] at h
      by_cases h6 : |steerClamp P.maxSteer s0| > 0
      · rw [if_pos h6] at h; exact absurd h (by simp)
      rw [if_neg h6] at h
      by_cases h7 : straightPreds (P.straightDirSwitch - 1).toNat preds = true
      · rw [if_pos h7] at h
        exact key _ _ (Or.inr rfl) h
      · rw [if_neg h7] at h; exact absurd h (by simp)
    · rw [if_neg h4] at h
      exact key _ _ (Or.inl rfl) h
  · rw [if_neg h3] at h
    exact key _ _ (Or.inl rfl) h

/-- What a successful `dynAdvanceF` tells: the initial straight backward segment, or a normal step. -/
theorem dynAdvanceF_inv {P : DynP} {so : SOpts} {ref : SNode}
    {i step : Nat} {c : F.D} {s : SNode} (hm : 0 ≤ P.maxSteer) (h : dynAdvanceF F lib clamp P so ref i step = some (c, s)) :
    |s.steer| ≤ P.maxSteer ∧ s.depth = ref.depth + 1 ∧ c ∈ stepCostsF F P.distStep P.resolution P.la so ∧
    ((P.reversed = false ∧ ref.depth < 1 ∧ s.forward = false ∧
        s.x = F.fl (ref.x + F.fl (F.fl ((-P.la) / P.resolution) * lib.cos ref.theta)) ∧
        s.y = F.fl (ref.y + F.fl (F.fl ((-P.la) / P.resolution) * lib.sin ref.theta)) ∧ s.theta = ref.theta ∧ s.steer = 0) ∨
      (¬ (P.reversed = false ∧ ref.depth < 1 ∧ s.forward = false) ∧
        (s.x, s.y, s.theta) = steerMoveF F lib clamp P.distStep P.resolution P.la P.reversed ref s.forward s.steer)) := by
  unfold dynAdvanceF at h
  simp only [] at h
  by_cases h1 : (decide (ref.depth < 1) : Bool) = true ∧ ref.forward ≠ decide (i < 3)
  · rw [if_pos h1] at h; exact absurd h (by simp)
  rw [if_neg h1] at h
  by_cases h2 : ref.custom > 0 ∧ |ref.steer| > 0
  · rw [if_pos h2] at h; exact absurd h (by simp)
  rw [if_neg h2] at h
  by_cases h3 : P.reversed = false ∧ (decide (ref.depth < 1) : Bool) = true ∧ i > 3
  · rw [if_pos h3] at h; exact absurd h (by simp)
  rw [if_neg h3] at h
  by_cases h4 : P.reversed = false ∧ (decide (ref.depth < 1) : Bool) = true ∧ i = 3
  · rw [if_pos h4] at h
    obtain ⟨h4a, h4b, h4c⟩ := h4
    by_cases h5 : step ≠ 0
    · rw [if_pos h5] at h; exact absurd h (by simp)
    rw [if_neg h5] at h
    simp only [Option.some.injEq, Prod.mk.injEq] at h
    obtain ⟨rfl, rfl⟩ := h
    exact ⟨by simpa using hm, rfl, by simp [stepCostsF], Or.inl ⟨h4a, by simpa using h4b, rfl, rfl, rfl, rfl, rfl⟩⟩
  rw [if_neg h4] at h
  have h34 : ¬ (P.reversed = false ∧ ref.depth < 1 ∧ 3 ≤ i) := by
    rintro ⟨a, b, d⟩
    rcases Nat.lt_or_ge 3 i with e | e
    · exact h3 ⟨a, by simpa using b, e⟩
    · exact h4 ⟨a, by simpa using b, by omega⟩
  have h34' : ¬ (P.reversed = false ∧ ref.depth < 1 ∧ decide (i < 3) = false) := by
    rintro ⟨a, b, d⟩
    exact h34 ⟨a, b, by simpa using d⟩
  cases hs0 : steerSwitch P.maxSteer (truncC (F.fl (P.steerDelta * F.fl (step : ℝ)))) ref.steer i step with
  | none => rw [hs0] at h; exact absurd h (by simp)
  | some s0 =>
  rw [hs0] at h
  simp only [] at h
  have key : ∀ (cu : Int) (co : F.D), (co = F.rd (P.distStep / P.resolution) ∨
      co = F.rd (distPxF F P.distStep P.resolution * so.penaltyTurn)) →
      some (F.rd ((if (!decide (i < 3)) = true then F.rd (co.1 * so.penaltyBackward) else co).1 * 1),
        ({ x := (steerMoveF F lib clamp P.distStep P.resolution P.la P.reversed ref (decide (i < 3)) (steerClamp P.maxSteer s0)).1,
           y := (steerMoveF F lib clamp P.distStep P.resolution P.la P.reversed ref (decide (i < 3)) (steerClamp P.maxSteer s0)).2.1,
           theta := (steerMoveF F lib clamp P.distStep P.resolution P.la P.reversed ref (decide (i < 3)) (steerClamp P.maxSteer s0)).2.2,
           forward := decide (i < 3), steer := steerClamp P.maxSteer s0, custom := cu, depth := ref.depth + 1 } : SNode)) =
        some (c, s) →
      |s.steer| ≤ P.maxSteer ∧ s.depth = ref.depth + 1 ∧ c ∈ stepCostsF F P.distStep P.resolution P.la so ∧
      ((P.reversed = false ∧ ref.depth < 1 ∧ s.forward = false ∧
        s.x = F.fl (ref.x + F.fl (F.fl ((-P.la) / P.resolution) * lib.cos ref.theta)) ∧
        s.y = F.fl (ref.y + F.fl (F.fl ((-P.la) / P.resolution) * lib.sin ref.theta)) ∧ s.theta = ref.theta ∧ s.steer = 0) ∨
      (¬ (P.reversed = false ∧ ref.depth < 1 ∧ s.forward = false) ∧
        (s.x, s.y, s.theta) = steerMoveF F lib clamp P.distStep P.resolution P.la P.reversed ref s.forward s.steer)) := by
    intro cu co hco e
    simp only [Option.some.injEq, Prod.mk.injEq] at e
    obtain ⟨rfl, rfl⟩ := e
    refine ⟨steerClamp_abs hm, rfl, ?_, Or.inr ⟨h34', rfl⟩⟩
    by_cases hf : i < 3 <;> rcases hco with rfl | rfl <;> simp [hf, stepCostsF]
  by_cases h5 : ref.forward ≠ decide (i < 3) ∧ ¬ (decide (ref.depth < 1) : Bool) = true
  · rw [if_pos h5] at h
    by_cases h6 : ¬ P.allowForward = true ∨ ¬ P.allowBackward = true
    · rw [if_pos h6] at h; exact absurd h (by simp)
    rw [if_neg h6] at h
    by_cases h7 : ref.custom > 0
    · rw [if_pos h7] at h; exact absurd h (by simp)
    rw [if_neg h7] at h
    by_cases h8 : |steerClamp P.maxSteer s0| > 0
    · rw [if_pos h8] at h; exact absurd h (by simp)
    rw [if_neg h8] at h
    exact key _ _ (Or.inr rfl) h
  · rw [if_neg h5] at h
    exact key _ _ (Or.inl rfl) h

theorem scaledF_some {res : ℝ} {r : Option (F.D × SNode)} {c : F.D} {s : SNode} (h : scaledF F res r = some (c, s)) :
    ∃ c0, r = some (c0, s) ∧ 0 ≤ c0.1 ∧ c = F.rd (c0.1 * res) := by
  unfold scaledF at h
  match r with
  | none => exact absurd h (by simp)
  | some (c0, s0) =>
    simp only [] at h
    split_ifs at h with h0
    simp only [Option.some.injEq, Prod.mk.injEq] at h
    obtain ⟨rfl, rfl⟩ := h
    exact ⟨c0, rfl, not_lt.1 h0, rfl⟩

/-- Length of the step that leads to `s` from `ref`. -/
def dynLen (P : DynP) (ref s : SNode) : ℝ :=
  if P.reversed = false ∧ ref.depth < 1 ∧ s.forward = false then P.la else P.distStep

section step
variable (hu : F.u ≤ 1 / 1024) (hl : LibOk lib F.u) {ec : ℝ} (hec : 0 ≤ ec)
include hu hl hec

/-- **C109, one step** of `DynamicSteeringNeighborhood`: the computed pose is where the vehicle gets with the steering angle and
direction stored in it, up to `posErr` cells and `headErr` radians. -/
theorem dyn_step_near {P : DynP} {so : SOpts} {ref : SNode} {i step : Nat} {c : F.D} {s : SNode} {X : ℝ}
    (hm : 0 ≤ P.maxSteer ∧ P.maxSteer ≤ 60) (hla : 0 < P.la) (hres : 0 < P.resolution) (hds : 0 ≤ P.distStep)
    (hcl : ∀ t, |t| ≤ 5 + 3 * (P.distStep / P.la) → ClampedNear clamp ec t)
    (hx : |ref.x| ≤ X) (hy : |ref.y| ≤ X) (hθ : |ref.theta| ≤ 4)
    (h : dynAdvanceF F lib clamp P so ref i step = some (c, s)) :
    DrivesNear P.la P.resolution (posErr F.u P.la P.resolution (dynLen P ref s) X) (headErr F.u P.la (dynLen P ref s) ec)
      (cmdFor P.reversed (dynLen P ref s) s) ref s ∧ (|s.theta| ≤ Real.pi + ec ∨ s.theta = ref.theta) := by
  obtain ⟨hs, _, _, h' | ⟨hn, hmv⟩⟩ := dynAdvanceF_inv hm.1 h
  · obtain ⟨a, b, d, ex, ey, et, es⟩ := h'
    unfold dynLen cmdFor
    rw [if_pos ⟨a, b, d⟩]
    refine ⟨?_, Or.inr et⟩
    have := backF_near hu hl hla hres hec hx hy ex ey et
    rw [es, a, d]
    simpa [driveSign] using this
  · unfold dynLen cmdFor
    rw [if_neg hn]
    obtain ⟨k1, k2⟩ := steerMoveF_near hu hl hla hres hds hcl (by omega) hx hy hθ hmv
    exact ⟨k1, Or.inl k2⟩

/-- **C109, one step** of `SteeringNeighborhood`. -/
theorem steer_step_near {P : SteerP} {so : SOpts} {g : Int} {ref : SNode} {preds : List SNode} {i step : Nat} {c : F.D}
    {s : SNode} {X : ℝ}
    (hm : 0 ≤ P.maxSteer ∧ P.maxSteer ≤ 60) (hla : 0 < P.la) (hres : 0 < P.resolution) (hds : 0 ≤ P.distStep)
    (hcl : ∀ t, |t| ≤ 5 + 3 * (P.distStep / P.la) → ClampedNear clamp ec t)
    (hx : |ref.x| ≤ X) (hy : |ref.y| ≤ X) (hθ : |ref.theta| ≤ 4)
    (h : advanceF F lib clamp P so g ref preds i step = some (c, s)) :
    DrivesNear P.la P.resolution (posErr F.u P.la P.resolution P.distStep X) (headErr F.u P.la P.distStep ec)
      (cmdFor P.reversed P.distStep s) ref s ∧ |s.theta| ≤ Real.pi + ec := by
  obtain ⟨hs, hmv, _, _⟩ := advanceF_inv hm.1 h
  have := hec
  exact steerMoveF_near hu hl hla hres hds hcl (by omega) hx hy hθ hmv

end step

/-! ### Costs: rounded sums still order paths -/

theorem padF_costOk {w h : Nat} {S : FSteerCfg F} {moves : List (SNode → List SNode → Option (F.D × SNode))} {pd : Nat}
    {res : ℝ} {cs : List F.D} (hres : 0 ≤ res)
    (hmv : ∀ mv ∈ moves, ∀ k ps c k', mv k ps = some (c, k') → ∃ c0 ∈ cs, 0 ≤ c0.1 ∧ c = F.rd (c0.1 * res)) :
    ∃ cs', KCostOk (padAlgoF F clamp w h S moves pd) cs' := by
  classical
  refine ⟨(cs.filter fun c => 0 ≤ c.1).map fun c => F.rd (c.1 * res), ?_, ?_, ?_⟩
  · intro mv h1 k ps c k' e
    obtain ⟨c0, h2, h3, rfl⟩ := hmv mv h1 k ps c k' e
    exact List.mem_map.2 ⟨c0, List.mem_filter.2 ⟨h2, by simpa using h3⟩, rfl⟩
  · intro c hc a
    obtain ⟨c0, h0, rfl⟩ := List.mem_map.1 hc
    have h1 : 0 ≤ c0.1 := by simpa using (List.mem_filter.1 h0).2
    have h2 : 0 ≤ F.fl (c0.1 * res) := by
      rw [← F.fl_zero]; exact F.ok.mono (mul_nonneg h1 hres)
    show a.1 ≤ F.fl (a.1 + F.fl (c0.1 * res))
    calc a.1 = F.fl a.1 := a.2.symm
      _ ≤ _ := F.ok.mono (by linarith)
  · intro a b c hab
    show F.fl (a.1 + c.1) ≤ F.fl (b.1 + c.1)
    have : a.1 ≤ b.1 := hab
    exact F.ok.mono (by linarith)

theorem dynF_costOk {P : DynP} {w h : Nat} {res : ℝ} {S : FSteerCfg F} (hm : 0 ≤ P.maxSteer) (hres : 0 ≤ res) :
    ∃ cs, KCostOk (dynSteerAlgoF F lib clamp P w h res S) cs := by
  refine padF_costOk (cs := stepCostsF F P.distStep P.resolution P.la S.so) hres ?_
  intro mv hmv k ps c k' e
  obtain ⟨m, _, rfl⟩ := List.mem_map.1 hmv
  obtain ⟨c0, e0, h0, rfl⟩ := scaledF_some e
  exact ⟨c0, (dynAdvanceF_inv hm e0).2.2.1, h0, rfl⟩

theorem steerF_costOk {P : SteerP} {garbage : Nat × Nat → Int} {w h : Nat} {res : ℝ} {S : FSteerCfg F} (hm : 0 ≤ P.maxSteer)
    (hres : 0 ≤ res) : ∃ cs, KCostOk (steerAlgoF F lib clamp P garbage w h res S) cs := by
  refine padF_costOk (cs := stepCostsF F P.distStep P.resolution P.la S.so) hres ?_
  intro mv hmv k ps c k' e
  obtain ⟨m, _, rfl⟩ := List.mem_map.1 hmv
  obtain ⟨c0, e0, h0, rfl⟩ := scaledF_some e
  exact ⟨c0, (advanceF_inv hm e0).2.2.2, h0, rfl⟩

theorem zero_addF (a : F.D) : a + (0 : F.D) = a := by
  apply Subtype.ext
  show F.fl (a.1 + 0) = a.1
  rw [add_zero]; exact a.2

/-! ### Paths -/

theorem NearChain.snoc {L res p t D : ℝ} {q k k' : SNode} {c : Cmd} {cs : List Cmd} {qs : List SNode}
    (h : NearChain L res p t D q cs qs) (hk : (q :: qs).getLast? = some k) (hn : DrivesNear L res p t c k k')
    (h1 : |c.dir| = 1) (h2 : 0 ≤ c.len) (h3 : c.len ≤ D) : NearChain L res p t D q (cs ++ [c]) (qs ++ [k']) := by
  induction h with
  | nil a =>
    simp only [List.getLast?_singleton, Option.some.injEq] at hk
    subst hk
    exact .cons hn h1 h2 h3 (.nil _)
  | @cons a b c0 cs ps d1 d2 d3 d4 h ih =>
    refine .cons d1 d2 d3 d4 (ih ?_)
    rw [List.getLast?_cons_cons] at hk
    exact hk

theorem _root_.PathPlanning.Spec.DrivesNear.weaken {L res p t p' t' : ℝ} {c : Cmd} {a b : SNode} (h : DrivesNear L res p t c a b) (hp : p ≤ p') (ht : t ≤ t') :
    DrivesNear L res p' t' c a b := by
  obtain ⟨z, h1, h2, h3, k, h4⟩ := h
  exact ⟨z, h1, h2.trans hp, h3.trans hp, k, h4.trans ht⟩

theorem posErr_mono {u L res X d D : ℝ} (hu : 0 ≤ u) (hres : 0 < res) (h : d ≤ D) : posErr u L res d X ≤ posErr u L res D X := by
  unfold posErr
  have : d / res ≤ D / res := div_le_div_of_nonneg_right h hres.le
  exact mul_le_mul_of_nonneg_left (by linarith) hu

theorem headErr_mono {u L e d D : ℝ} (hu : 0 ≤ u) (hL : 0 < L) (h : d ≤ D) : headErr u L d e ≤ headErr u L D e := by
  unfold headErr
  have : d / L ≤ D / L := div_le_div_of_nonneg_right h hL.le
  have := mul_le_mul_of_nonneg_left (show 86 * (d / L) + 4 ≤ 86 * (D / L) + 4 by linarith) hu
  linarith

theorem commands_append (r : Bool) (f : SNode → ℝ) (l : ℝ) {qs : List SNode} (hne : qs ≠ []) (k : SNode) :
    commands r f l (qs ++ [k]) = commands r f l qs ++ [cmdFor r l k] := by
  cases qs with
  | nil => exact absurd rfl hne
  | cons q qs => simp [commands]

theorem commands_length (r : Bool) (f : SNode → ℝ) (l : ℝ) (qs : List SNode) : (commands r f l qs).length = qs.length := by
  cases qs <;> simp [commands]

/-- Every list of commands can be driven. -/
theorem exec_exists {L res : ℝ} (cs : List Cmd) : ∀ a : SNode, ∃ ps, Executes L res a cs ps := by
  induction cs with
  | nil => exact fun a => ⟨[], .nil a⟩
  | cons c cs ih =>
    intro a
    obtain ⟨b, hb⟩ : ∃ b, DrivesTo L res c.φ c.dir c.len a b := by
      set k := c.dir * Real.tan c.φ / L with hk
      by_cases h0 : k = 0
      · refine ⟨⟨a.x + c.len * (c.dir * Real.cos a.theta / res), a.y + c.len * (c.dir * Real.sin a.theta / res), a.theta, true, 0, 0, 0⟩,
          fun s => a.x + s * (c.dir * Real.cos a.theta / res), fun s => a.y + s * (c.dir * Real.sin a.theta / res), fun _ => a.theta,
          ⟨?_, ?_, ?_⟩, by simp, by simp, rfl, rfl, rfl, 0, by simp⟩
        · intro s
          simpa using ((hasDerivAt_id s).mul_const (c.dir * Real.cos a.theta / res)).const_add a.x
        · intro s
          simpa using ((hasDerivAt_id s).mul_const (c.dir * Real.sin a.theta / res)).const_add a.y
        · intro s
          rw [← hk, h0]; exact hasDerivAt_const s a.theta
      · have hθ : ∀ s, HasDerivAt (fun s => a.theta + s * k) k s := by
          intro s
          simpa using ((hasDerivAt_id s).mul_const k).const_add a.theta
        refine ⟨⟨a.x + c.dir / (k * res) * (Real.sin (a.theta + c.len * k) - Real.sin a.theta),
            a.y + c.dir / (k * res) * (Real.cos a.theta - Real.cos (a.theta + c.len * k)), a.theta + c.len * k, true, 0, 0, 0⟩,
          fun s => a.x + c.dir / (k * res) * (Real.sin (a.theta + s * k) - Real.sin a.theta),
          fun s => a.y + c.dir / (k * res) * (Real.cos a.theta - Real.cos (a.theta + s * k)), fun s => a.theta + s * k,
          ⟨?_, ?_, ?_⟩, by simp, by simp, by simp, rfl, rfl, 0, by simp⟩
        · intro s
          have h1 := (((hθ s).sin.sub_const (Real.sin a.theta)).const_mul (c.dir / (k * res))).const_add a.x
          refine h1.congr_deriv ?_
          by_cases hr : res = 0
          · simp [hr]
          · field_simp
        · intro s
          have h1 := (((hθ s).cos.const_sub (Real.cos a.theta)).const_mul (c.dir / (k * res))).const_add a.y
          refine h1.congr_deriv ?_
          by_cases hr : res = 0
          · simp [hr]
          · field_simp
        · intro s
          exact hθ s
    obtain ⟨ps, hp⟩ := ih b
    exact ⟨b :: ps, .cons hb hp⟩

/-- Assumptions on the arithmetic: unit roundoff at most 1/1024, accurate library functions, and a normalisation of angles with
error at most `e` for the angles that occur. -/
structure ArithOk (F : Fmt) (lib : Lib) (clamp : ℝ → ℝ) (e B : ℝ) : Prop where
  u : F.u ≤ 1 / 1024
  lib : LibOk lib F.u
  e0 : 0 ≤ e
  e1 : e ≤ 1 / 2
  clamp : ∀ t, |t| ≤ B → ClampedNear clamp e t

/-- What the path theorem needs of a neighbourhood: a step leads near the pose that belongs to its command. -/
theorem chain_of_drive {N : Type} {A : KAlgo N SNode F.D} {L res p t D X : ℝ} {r : Bool} {f l : SNode → ℝ}
    (hstep : ∀ mv ∈ A.moves, ∀ k ps c k', mv k ps = some (c, k') → |k.x| ≤ X → |k.y| ≤ X → |k.theta| ≤ 4 →
      DrivesNear L res p t (cmdFor r (if k.depth < 1 then f k' else l k') k') k k' ∧ |k'.theta| ≤ 4 ∧ k'.depth = k.depth + 1)
    (hf : ∀ k, 0 ≤ f k ∧ f k ≤ D) (hl : ∀ k, 0 ≤ l k ∧ l k ≤ D) (hlc : ∀ k k', l k = l k')
    {path : List SNode} {d : F.D} (hd : Drive A path d) : ∀ q qs, path = q :: qs → q.depth = 0 → |q.theta| ≤ 4 →
      (∀ k ∈ path, |k.x| ≤ X ∧ |k.y| ≤ X) →
      NearChain L res p t D q (commands r f (l q) qs) qs ∧
      ∀ k, path.getLast? = some k → k.depth = (qs.length : Int) ∧ |k.theta| ≤ 4 := by
  induction hd with
  | start k =>
    intro q qs e h0 h1 _
    simp only [List.cons.injEq] at e
    obtain ⟨rfl, rfl⟩ := e
    refine ⟨.nil _, ?_⟩
    intro k' hk'
    simp only [List.getLast?_singleton, Option.some.injEq] at hk'
    subst hk'
    exact ⟨by simpa using h0, h1⟩
  | @step l0 k c k' d mv hd hmv he hus ih =>
    intro q qs e h0 h1 hX
    have hlen : l0 ++ [k] ≠ [] := by simp
    obtain ⟨q2, qs2, e2⟩ := List.exists_cons_of_ne_nil hlen
    have eq1 : q2 = q ∧ qs2 ++ [k'] = qs := by
      rw [e2, List.cons_append] at e
      simpa using e
    obtain ⟨rfl, rfl⟩ := eq1
    obtain ⟨i1, i2⟩ := ih q2 qs2 e2 h0 h1 (fun a ha => hX a (by simp only [List.mem_append] at ha ⊢; tauto))
    obtain ⟨kd, kt⟩ := i2 k (by simp)
    obtain ⟨kx, ky⟩ := hX k (by simp)
    obtain ⟨s1, s2, s3⟩ := hstep mv hmv k _ c k' he kx ky kt
    have hlast : (q2 :: qs2).getLast? = some k := by rw [← e2]; simp
    refine ⟨?_, ?_⟩
    · cases qs2 with
      | nil =>
        have : k.depth < 1 := by rw [kd]; simp
        rw [if_pos this] at s1
        exact .cons (by
          simp only [List.getLast?_singleton, Option.some.injEq] at hlast
          rw [hlast]; exact s1) (driveSign_abs _ _) (hf k').1 (hf k').2 (.nil _)
      | cons y ys =>
        have : ¬ k.depth < 1 := by rw [kd]; simp
        rw [if_neg this, hlc k' q2] at s1
        rw [commands_append _ _ _ (by simp)]
        exact i1.snoc hlast s1 (driveSign_abs _ _) (hl _).1 (hl _).2
    · intro a ha
      simp only [List.getLast?_append, List.getLast?_singleton, Option.some_or, Option.some.injEq] at ha
      subst ha
      refine ⟨?_, s2⟩
      rw [s3, kd]; simp

variable {w h : Nat} {res e X : ℝ}

theorem dyn_chain {P : DynP} {S : FSteerCfg F} (ok : ArithOk F lib clamp e (5 + 3 * (P.distStep / P.la)))
    (hm : 0 ≤ P.maxSteer ∧ P.maxSteer ≤ 60) (hla : 0 < P.la) (hres : 0 < P.resolution) (hds : 0 ≤ P.distStep)
    {q : SNode} {qs : List SNode} {d : F.D} (hd : Drive (dynSteerAlgoF F lib clamp P w h res S) (q :: qs) d)
    (h0 : q.depth = 0) (h1 : |q.theta| ≤ 4) (hX : ∀ k ∈ q :: qs, |k.x| ≤ X ∧ |k.y| ≤ X) :
    NearChain P.la P.resolution (posErr F.u P.la P.resolution (maxLen P) X) (headErr F.u P.la (maxLen P) e) (maxLen P) q
      (commands P.reversed (firstLen P) P.distStep qs) qs := by
  have hp := Real.pi_lt_d2
  have hu0 := F.u_nonneg
  refine (chain_of_drive (f := firstLen P) (l := fun _ => P.distStep) (X := X) (r := P.reversed) ?_ ?_ ?_ (fun _ _ => rfl) hd q qs rfl h0 h1 hX).1
  · intro mv hmv k ps c k' he kx ky kt
    obtain ⟨m, _, rfl⟩ := List.mem_map.1 hmv
    obtain ⟨c0, e0, _, rfl⟩ := scaledF_some he
    obtain ⟨s1, s2⟩ := dyn_step_near ok.u ok.lib ok.e0 hm hla hres hds ok.clamp kx ky kt e0
    have hlen : dynLen P k k' = if k.depth < 1 then firstLen P k' else P.distStep := by
      unfold dynLen firstLen
      by_cases a : P.reversed = false <;> by_cases b : k.depth < 1 <;> by_cases d : k'.forward = false <;> simp [a, b, d]
    have hle : dynLen P k k' ≤ maxLen P := by
      unfold dynLen maxLen; split_ifs <;> simp
    refine ⟨?_, ?_, (dynAdvanceF_inv hm.1 e0).2.1⟩
    · rw [← hlen]
      exact s1.weaken (posErr_mono hu0 hres hle) (headErr_mono hu0 hla hle)
    · rcases s2 with s2 | s2
      · have := ok.e1; linarith
      · rw [s2]; exact kt
  · intro k
    unfold firstLen maxLen
    split_ifs
    · exact ⟨hla.le, le_max_right _ _⟩
    · exact ⟨hds, le_max_left _ _⟩
  · intro k
    exact ⟨hds, le_max_left _ _⟩

theorem steer_chain {P : SteerP} {garbage : Nat × Nat → Int} {S : FSteerCfg F} (ok : ArithOk F lib clamp e (5 + 3 * (P.distStep / P.la)))
    (hm : 0 ≤ P.maxSteer ∧ P.maxSteer ≤ 60) (hla : 0 < P.la) (hres : 0 < P.resolution) (hds : 0 ≤ P.distStep)
    {q : SNode} {qs : List SNode} {d : F.D} (hd : Drive (steerAlgoF F lib clamp P garbage w h res S) (q :: qs) d)
    (h0 : q.depth = 0) (h1 : |q.theta| ≤ 4) (hX : ∀ k ∈ q :: qs, |k.x| ≤ X ∧ |k.y| ≤ X) :
    NearChain P.la P.resolution (posErr F.u P.la P.resolution P.distStep X) (headErr F.u P.la P.distStep e) P.distStep q
      (qs.map (cmdFor P.reversed P.distStep)) qs := by
  have hp := Real.pi_lt_d2
  have := (chain_of_drive (f := fun _ => P.distStep) (l := fun _ => P.distStep) (X := X) (r := P.reversed)
    (L := P.la) (res := P.resolution) (p := posErr F.u P.la P.resolution P.distStep X) (t := headErr F.u P.la P.distStep e)
    (D := P.distStep) ?_ (fun _ => ⟨hds, le_rfl⟩) (fun _ => ⟨hds, le_rfl⟩) (fun _ _ => rfl) hd q qs rfl h0 h1 hX).1
  · cases qs with
    | nil => exact this
    | cons y ys => exact this
  · intro mv hmv k ps c k' he kx ky kt
    obtain ⟨m, _, rfl⟩ := List.mem_map.1 hmv
    obtain ⟨c0, e0, _, rfl⟩ := scaledF_some he
    obtain ⟨s1, s2⟩ := steer_step_near ok.u ok.lib ok.e0 hm hla hres hds ok.clamp kx ky kt e0
    refine ⟨?_, ?_, (advanceF_inv hm.1 e0).2.2.1⟩
    · rw [ite_self]; exact s1
    · have := ok.e1; linarith

theorem drift_zero {L res' p t D : ℝ} (hres : 0 < res') {q a : SNode} {cs : List Cmd} {qs ps : List SNode}
    (hc : NearChain L res' p t D q cs qs) (he : Executes L res' a cs ps) (ht : 0 ≤ t) (h0 : PoseNear 0 0 a q) :
    ps.length = qs.length ∧ ∀ i (h : i < ps.length) (h' : i < qs.length),
      PoseNear (driftErr p t (D / res') (i + 1)) ((i + 1) * t) ps[i] qs[i] := by
  obtain ⟨h1, h2⟩ := drift hres hc he le_rfl ht h0
  refine ⟨h1, fun i h h' => ?_⟩
  have := h2 i h h'
  simpa using this

theorem headErr_nonneg {u L d e' : ℝ} (hu : 0 ≤ u) (hL : 0 < L) (hd : 0 ≤ d) (he : 0 ≤ e') : 0 ≤ headErr u L d e' := by
  unfold headErr; positivity

/-- **C109** for drives with `DynamicSteeringNeighborhood`: a vehicle that starts at the first pose and executes the commands stored
in the poses is, after each step, within `driftErr` cells of the computed pose, and its heading within `n` times `headErr`. -/
theorem dyn_drift {P : DynP} {S : FSteerCfg F} (ok : ArithOk F lib clamp e (5 + 3 * (P.distStep / P.la)))
    (hm : 0 ≤ P.maxSteer ∧ P.maxSteer ≤ 60) (hla : 0 < P.la) (hres : 0 < P.resolution) (hds : 0 ≤ P.distStep)
    {q : SNode} {qs : List SNode} {d : F.D} (hd : Drive (dynSteerAlgoF F lib clamp P w h res S) (q :: qs) d)
    (h0 : q.depth = 0) (h1 : |q.theta| ≤ 4) (hX : ∀ k ∈ q :: qs, |k.x| ≤ X ∧ |k.y| ≤ X) :
    (∃ ps, Executes P.la P.resolution q (commands P.reversed (firstLen P) P.distStep qs) ps) ∧
    ∀ a ps, PoseNear 0 0 a q →
      Executes P.la P.resolution a (commands P.reversed (firstLen P) P.distStep qs) ps →
      ps.length = qs.length ∧ ∀ i (h : i < ps.length) (h' : i < qs.length),
        PoseNear (driftErr (posErr F.u P.la P.resolution (maxLen P) X) (headErr F.u P.la (maxLen P) e) (maxLen P / P.resolution) (i + 1))
          ((i + 1) * headErr F.u P.la (maxLen P) e) ps[i] qs[i] := by
  have hc := dyn_chain ok hm hla hres hds hd h0 h1 hX
  refine ⟨exec_exists _ _, fun a ps ha he => ?_⟩
  exact drift_zero hres hc he (headErr_nonneg F.u_nonneg hla (hla.le.trans (le_max_right _ _)) ok.e0) ha

/-- **C109** for drives with `SteeringNeighborhood`. -/
theorem steer_drift {P : SteerP} {garbage : Nat × Nat → Int} {S : FSteerCfg F} (ok : ArithOk F lib clamp e (5 + 3 * (P.distStep / P.la)))
    (hm : 0 ≤ P.maxSteer ∧ P.maxSteer ≤ 60) (hla : 0 < P.la) (hres : 0 < P.resolution) (hds : 0 ≤ P.distStep)
    {q : SNode} {qs : List SNode} {d : F.D} (hd : Drive (steerAlgoF F lib clamp P garbage w h res S) (q :: qs) d)
    (h0 : q.depth = 0) (h1 : |q.theta| ≤ 4) (hX : ∀ k ∈ q :: qs, |k.x| ≤ X ∧ |k.y| ≤ X) :
    (∃ ps, Executes P.la P.resolution q (qs.map (cmdFor P.reversed P.distStep)) ps) ∧
    ∀ a ps, PoseNear 0 0 a q → Executes P.la P.resolution a (qs.map (cmdFor P.reversed P.distStep)) ps →
      ps.length = qs.length ∧ ∀ i (h : i < ps.length) (h' : i < qs.length),
        PoseNear (driftErr (posErr F.u P.la P.resolution P.distStep X) (headErr F.u P.la P.distStep e) (P.distStep / P.resolution) (i + 1))
          ((i + 1) * headErr F.u P.la P.distStep e) ps[i] qs[i] := by
  have hc := steer_chain ok hm hla hres hds hd h0 h1 hX
  refine ⟨exec_exists _ _, fun a ps ha he => ?_⟩
  exact drift_zero hres hc he (headErr_nonneg F.u_nonneg hla hds ok.e0) ha

/-! ### Searches -/

variable {P : OpenList (PadCell w h) F.D} {cfg : SCfg (PadCell w h) F.D} {kin0 : PadCell w h → SNode}

theorem drive_inside {N : Type} {A : KAlgo N SNode F.D} (hus : ∀ k k', A.usable k k' = .ok true → |k'.x| ≤ X ∧ |k'.y| ≤ X)
    {path : List SNode} {d : F.D} (hd : Drive A path d) (h0 : ∀ k, path.head? = some k → |k.x| ≤ X ∧ |k.y| ≤ X) :
    ∀ k ∈ path, |k.x| ≤ X ∧ |k.y| ≤ X := by
  induction hd with
  | start k => intro k' hk'; simp only [List.mem_singleton] at hk'; subst hk'; exact h0 _ rfl
  | @step l0 k c k' d mv hd hmv he hu' ih =>
    intro a ha
    rw [List.mem_append] at ha
    rcases ha with ha | ha
    · refine ih (fun b hb => h0 b ?_) a ha
      cases l0 <;> simpa using hb
    · simp only [List.mem_singleton] at ha
      subst ha
      exact hus _ _ hu'

/-- **C109**: a path found by a search without heuristic with `DynamicSteeringNeighborhood`, all of whose computations are
rounded, can be driven: the vehicle that executes the stored commands stays within `driftErr` cells of the path. -/
theorem dyn_search_drift {Q : DynP} {S : FSteerCfg F} (ok : ArithOk F lib clamp e (5 + 3 * (Q.distStep / Q.la)))
    (hm : 0 ≤ Q.maxSteer ∧ Q.maxSteer ≤ 60) (hla : 0 < Q.la) (hres : 0 < Q.resolution) (hds : 0 ≤ Q.distStep) (hr : 0 ≤ res)
    (L : Lawful P) (M : MinFirst P) (ht : TopOk cfg.top) (hheur : ∀ k g, S.heur k g = 0) (hhg : cfg.heurGoal = none)
    (hus : ∀ k k', S.usable k k' = .ok true → |k'.x| ≤ X ∧ |k'.y| ≤ X)
    (hst : ∀ s ∈ cfg.start, (kin0 s).depth = 0 ∧ |(kin0 s).theta| ≤ 4 ∧ |(kin0 s).x| ≤ X ∧ |(kin0 s).y| ≤ X)
    {fuel : Nat} {path : List SNode} (hf : kFindPath (dynSteerAlgoF F lib clamp Q w h res S) P cfg kin0 fuel = some (.ok path))
    (hne : path ≠ []) :
    ∃ s ∈ cfg.start, ∃ qs, path = kin0 s :: qs ∧
      (∃ ps, Executes Q.la Q.resolution (kin0 s)
        (commands Q.reversed (firstLen Q) Q.distStep qs) ps) ∧
      ∀ ps, Executes Q.la Q.resolution (kin0 s)
        (commands Q.reversed (firstLen Q) Q.distStep qs) ps →
        ps.length = qs.length ∧ ∀ i (h : i < ps.length) (h' : i < qs.length),
          PoseNear (driftErr (posErr F.u Q.la Q.resolution (maxLen Q) X) (headErr F.u Q.la (maxLen Q) e) (maxLen Q / Q.resolution) (i + 1))
            ((i + 1) * headErr F.u Q.la (maxLen Q) e) ps[i] qs[i] := by
  obtain ⟨cs, hcs⟩ := dynF_costOk (F := F) (lib := lib) (clamp := clamp) (P := Q) (w := w) (h := h) (res := res) (S := S) hm.1 hr
  obtain ⟨⟨d, hd⟩, ⟨s, hs, hh⟩, _⟩ := kin_exact_without_heuristic hcs L M ht hheur hhg zero_addF hf hne
  obtain ⟨q, qs, rfl⟩ := List.exists_cons_of_ne_nil hne
  simp only [List.head?_cons, Option.some.injEq] at hh
  subst hh
  obtain ⟨s1, s2, s3, s4⟩ := hst s hs
  have hX := drive_inside (X := X) hus hd (fun k hk => by
    simp only [List.head?_cons, Option.some.injEq] at hk; subst hk; exact ⟨s3, s4⟩)
  obtain ⟨r1, r2⟩ := dyn_drift ok hm hla hres hds hd s1 s2 hX
  exact ⟨s, hs, qs, rfl, r1, fun ps => r2 _ ps ⟨by simp, by simp, 0, by simp⟩⟩

/-- **C109** for `SteeringNeighborhood`. -/
theorem steer_search_drift {Q : SteerP} {garbage : Nat × Nat → Int} {S : FSteerCfg F}
    (ok : ArithOk F lib clamp e (5 + 3 * (Q.distStep / Q.la)))
    (hm : 0 ≤ Q.maxSteer ∧ Q.maxSteer ≤ 60) (hla : 0 < Q.la) (hres : 0 < Q.resolution) (hds : 0 ≤ Q.distStep) (hr : 0 ≤ res)
    (L : Lawful P) (M : MinFirst P) (ht : TopOk cfg.top) (hheur : ∀ k g, S.heur k g = 0) (hhg : cfg.heurGoal = none)
    (hus : ∀ k k', S.usable k k' = .ok true → |k'.x| ≤ X ∧ |k'.y| ≤ X)
    (hst : ∀ s ∈ cfg.start, (kin0 s).depth = 0 ∧ |(kin0 s).theta| ≤ 4 ∧ |(kin0 s).x| ≤ X ∧ |(kin0 s).y| ≤ X)
    {fuel : Nat} {path : List SNode} (hf : kFindPath (steerAlgoF F lib clamp Q garbage w h res S) P cfg kin0 fuel = some (.ok path))
    (hne : path ≠ []) :
    ∃ s ∈ cfg.start, ∃ qs, path = kin0 s :: qs ∧
      (∃ ps, Executes Q.la Q.resolution (kin0 s) (qs.map (cmdFor Q.reversed Q.distStep)) ps) ∧
      ∀ ps, Executes Q.la Q.resolution (kin0 s) (qs.map (cmdFor Q.reversed Q.distStep)) ps →
        ps.length = qs.length ∧ ∀ i (h : i < ps.length) (h' : i < qs.length),
          PoseNear (driftErr (posErr F.u Q.la Q.resolution Q.distStep X) (headErr F.u Q.la Q.distStep e) (Q.distStep / Q.resolution) (i + 1))
            ((i + 1) * headErr F.u Q.la Q.distStep e) ps[i] qs[i] := by
  obtain ⟨cs, hcs⟩ := steerF_costOk (F := F) (lib := lib) (clamp := clamp) (P := Q) (garbage := garbage) (w := w) (h := h) (res := res)
    (S := S) hm.1 hr
  obtain ⟨⟨d, hd⟩, ⟨s, hs, hh⟩, _⟩ := kin_exact_without_heuristic hcs L M ht hheur hhg zero_addF hf hne
  obtain ⟨q, qs, rfl⟩ := List.exists_cons_of_ne_nil hne
  simp only [List.head?_cons, Option.some.injEq] at hh
  subst hh
  obtain ⟨s1, s2, s3, s4⟩ := hst s hs
  have hX := drive_inside (X := X) hus hd (fun k hk => by
    simp only [List.head?_cons, Option.some.injEq] at hk; subst hk; exact ⟨s3, s4⟩)
  obtain ⟨r1, r2⟩ := steer_drift ok hm hla hres hds hd s1 s2 hX
  exact ⟨s, hs, qs, rfl, r1, fun ps => r2 _ ps ⟨by simp, by simp, 0, by simp⟩⟩

end PathPlanning.Drift
