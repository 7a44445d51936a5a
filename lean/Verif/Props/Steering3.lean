import Verif.Props.Steering2

/-!
# C52, C65, C66: `DynamicSteeringNeighborhood`, `NonHolonomicNeighborhood`, goal tests
-/

noncomputable section

namespace PathPlanning

open Spec

/-! ### `DynamicSteeringNeighborhood` -/

theorem dynAdvance_steer_bounded {clamp : ℝ → ℝ} {P : DynP} {so : SOpts} {ref : SNode} {i step : Nat} {c : ℝ} {s : SNode}
    (hm : 0 ≤ P.maxSteer) (h : dynAdvance clamp P so ref i step = some (c, s)) : |s.steer| ≤ P.maxSteer := by
  obtain ⟨_, _, _, _, h' | h'⟩ := dynAdvance_inv h
  · rw [h'.2.2.2.2.2.2.2.1]; simpa using hm
  · obtain ⟨_, ⟨s0, _, hs⟩, _⟩ := h'
    rw [hs, abs_le]; exact steerClamp_bound _ _ hm

/-- The driving direction changes only on a straight step, not at the start node, not while committed, and only if both
directions are allowed. -/
theorem dynAdvance_switch {clamp : ℝ → ℝ} {P : DynP} {so : SOpts} {ref : SNode} {i step : Nat} {c : ℝ} {s : SNode}
    (h : dynAdvance clamp P so ref i step = some (c, s)) (hsw : s.forward ≠ ref.forward) :
    s.steer = 0 ∧ 1 ≤ ref.depth ∧ ref.custom ≤ 0 ∧ P.allowForward = true ∧ P.allowBackward = true := by
  obtain ⟨_, hi, _, _, h' | h'⟩ := dynAdvance_inv h
  · exact absurd (hi h'.2.1) hsw
  · obtain ⟨_, _, _, h4, _⟩ := h'
    obtain ⟨a, b, d, e, _⟩ := h4 hsw
    refine ⟨e, ?_, d, a, b⟩
    by_contra hd
    exact hsw (hi (by omega))

theorem dynAdvance_cost_pos {clamp : ℝ → ℝ} {P : DynP} {so : SOpts} {ref : SNode} {i step : Nat} {c : ℝ} {s : SNode}
    (hd : 0 < P.distStep) (hr : 0 < P.resolution) (hla : P.la ≠ 0) (hb : 0 < so.penaltyBackward) (ht : 0 < so.penaltyTurn)
    (h : dynAdvance clamp P so ref i step = some (c, s)) : 0 < c := by
  obtain ⟨_, _, _, _, h' | h'⟩ := dynAdvance_inv h
  · rw [h'.2.2.2.2.2.2.2.2.2]
    have : -P.la / P.resolution ≠ 0 := div_ne_zero (neg_ne_zero.2 hla) hr.ne'
    have := abs_pos.2 this
    positivity
  · obtain ⟨_, _, _, _, _, hc⟩ := h'
    rw [hc]
    have : 0 < P.distPx := div_pos hd hr
    split_ifs <;> positivity

/-- Every step is a motion of the bicycle model: of the configured length with the successor's steering angle, except
for the first backward step of a search that is not reversed, which drives straight back by the wheel base. -/
theorem dynAdvance_drives {clamp : ℝ → ℝ} (hclamp : ClampSpec clamp) {P : DynP} {so : SOpts} {ref : SNode} {i step : Nat}
    {c : ℝ} {s : SNode} (hm : 0 ≤ P.maxSteer ∧ P.maxSteer < 90) (hla : P.la ≠ 0)
    (h : dynAdvance clamp P so ref i step = some (c, s)) :
    DrivesTo P.la P.resolution ((s.steer : ℝ) / 180 * Real.pi) (driveSign P.reversed s.forward)
      (if P.reversed = false ∧ ref.depth < 1 ∧ s.forward = false then P.la else P.distStep) ref s := by
  have hb := dynAdvance_steer_bounded hm.1 h
  obtain ⟨hf, _, _, _, h' | h'⟩ := dynAdvance_inv h
  · obtain ⟨a, b, d, _, hx, hy, ht, hs, _⟩ := h'
    have hff : s.forward = false := by rw [hf, d]; rfl
    rw [if_pos ⟨a, b, hff⟩, hs, a, hff]
    have e : driveSign false false = -1 := rfl
    refine ⟨fun u => ref.x + u * ((-1) * Real.cos ref.theta / P.resolution),
      fun u => ref.y + u * ((-1) * Real.sin ref.theta / P.resolution), fun _ => ref.theta, ⟨?_, ?_, ?_⟩, ?_⟩
    · intro u
      rw [e]
      simpa using ((hasDerivAt_id u).mul_const ((-1) * Real.cos ref.theta / P.resolution)).const_add ref.x
    · intro u
      rw [e]
      simpa using ((hasDerivAt_id u).mul_const ((-1) * Real.sin ref.theta / P.resolution)).const_add ref.y
    · intro u
      simpa using hasDerivAt_const u ref.theta
    · refine ⟨by simp, by simp, rfl, ?_, ?_, 0, ?_⟩
      · rw [hx]; ring
      · rw [hy]; ring
      · rw [ht]; simp
  · obtain ⟨h34, _, hmv, _⟩ := h'
    rw [abs_le] at hb
    have hn : ¬ (P.reversed = false ∧ ref.depth < 1 ∧ s.forward = false) := by
      rintro ⟨a, b, d⟩
      apply h34 ⟨a, b, ?_⟩
      rw [hf] at d; simpa using d
    rw [if_neg hn]
    exact steerMove_drives clamp hclamp.mod _ _ _ hla _ _ _ _ _ ⟨by omega, by omega⟩ hmv

/-- The Euclidean distance never overestimates the cost of a step. -/
theorem dynAdvance_dist_le_cost {clamp : ℝ → ℝ} {P : DynP} {so : SOpts} {ref : SNode} {i step : Nat} {c : ℝ} {s : SNode}
    (hd : 0 ≤ P.distStep) (hr : 0 < P.resolution) (hb : 1 ≤ so.penaltyBackward) (ht : 1 ≤ so.penaltyTurn)
    (h : dynAdvance clamp P so ref i step = some (c, s)) : nodeDist ref s ≤ c := by
  obtain ⟨_, _, _, _, h' | h'⟩ := dynAdvance_inv h
  · obtain ⟨_, _, _, _, hx, hy, _, _, _, hc⟩ := h'
    have h1 : nodeDist ref s = |(-P.la) / P.resolution| := by
      unfold nodeDist
      rw [hx, hy, ← Real.sqrt_sq_eq_abs]
      congr 1
      have := Real.cos_sq_add_sin_sq ref.theta
      generalize (-P.la) / P.resolution = q
      calc _ = q ^ 2 * (Real.cos ref.theta ^ 2 + Real.sin ref.theta ^ 2) := by ring
        _ = _ := by rw [this]; ring
    rw [h1, hc]
    exact le_mul_of_one_le_right (abs_nonneg _) hb
  · obtain ⟨_, _, hmv, _, _, hc⟩ := h'
    have h1 := steerMove_chord clamp _ _ _ hd hr _ _ _ _ _ hmv
    have h2 : 0 ≤ P.distPx := div_nonneg hd hr.le
    have h3 : P.distStep / P.resolution = P.distPx := rfl
    rw [h3] at h1
    refine h1.trans ?_
    rw [hc]
    have key : ∀ a b : ℝ, 1 ≤ a → 1 ≤ b → P.distPx ≤ P.distPx * a * b := by
      intro a b ha hb
      have : P.distPx ≤ P.distPx * a := le_mul_of_one_le_right h2 ha
      exact this.trans (le_mul_of_one_le_right (h2.trans this) hb)
    apply key <;> split_ifs <;> first | assumption | exact le_refl _

section store
variable {N A : Type} [DecidableEq N]

/-- A search with `DynamicSteeringNeighborhood`. -/
def dynExpandAll (clamp : ℝ → ℝ) (P : DynP) (so : SOpts) (map : SMap N)
    (proc : A → N → N → ℝ → A × Bool) (refs : List N) (a : A × SStore N) : A × SStore N :=
  refs.foldl (fun a ref => dynIterateFree clamp P so map proc ref a) a

/-- **In every state of every search** every node is unlabelled or has a steering angle within the limit and an allowed
driving direction. -/
theorem dynExpandAll_ok (clamp : ℝ → ℝ) (P : DynP) (hm : 0 ≤ P.maxSteer) (so : SOpts) (map : SMap N)
    (proc : A → N → N → ℝ → A × Bool) (refs : List N) (a : A × SStore N) (h0 : ∀ n, a.2.prev n = none) (n : N)
    (hn : (dynExpandAll clamp P so map proc refs a).2.prev n ≠ none) :
    |((dynExpandAll clamp P so map proc refs a).2.node n).steer| ≤ P.maxSteer ∧
      (((dynExpandAll clamp P so map proc refs a).2.node n).forward = true → P.allowForward = true) ∧
      (((dynExpandAll clamp P so map proc refs a).2.node n).forward = false → P.allowBackward = true) := by
  let Q : SStore N → Prop := fun st => ∀ n, st.prev n ≠ none → |(st.node n).steer| ≤ P.maxSteer ∧
    ((st.node n).forward = true → P.allowForward = true) ∧ ((st.node n).forward = false → P.allowBackward = true)
  have : Q (dynExpandAll clamp P so map proc refs a).2 := by
    unfold dynExpandAll
    apply foldl_inv _ (fun b : A × SStore N => Q b.2)
    · intro n hn; exact absurd (h0 n) hn
    intro b ref _ hb
    unfold dynIterateFree
    apply foldl_inv _ (fun b : A × SStore N => Q b.2) _ _ hb
    intro b m hm' hb
    apply tryNeighbor_ind map proc ref _ Q _ hb
    intro c s n hres _ k hk
    obtain ⟨m1, m2, _⟩ := moveList_mem hm'
    unfold SStore.relabel at hk ⊢
    simp only [] at hk ⊢
    by_cases hkn : k = n
    · rw [if_pos hkn]
      have hf := (dynAdvance_inv hres).1
      refine ⟨dynAdvance_steer_bounded hm hres, ?_, ?_⟩
      · intro e
        rw [hf] at e
        have e : m.1 < 3 := by simpa using e
        by_contra hne
        rw [if_neg hne] at m1; omega
      · intro e
        rw [hf] at e
        have e : 3 ≤ m.1 := by simpa using e
        by_contra hne
        rw [if_neg hne] at m2; omega
    · rw [if_neg hkn]
      rw [if_neg hkn] at hk
      exact hb k hk
  exact this n hn

/-- Finding: with forward driving forbidden, a start node whose `forward` flag is set (as it is after node
initialisation) has no successors: the search can not begin. -/
theorem dyn_backward_only_stuck (clamp : ℝ → ℝ) (P : DynP) (hf : P.allowForward = false) (so : SOpts) (map : SMap N)
    (proc : A → N → N → ℝ → A × Bool) (ref : N) (a : A × SStore N) (hd : (a.2.node ref).depth = 0)
    (hfw : (a.2.node ref).forward = true) : dynIterateFree clamp P so map proc ref a = a := by
  unfold dynIterateFree
  apply foldl_inv _ (fun b => b = a) _ _ rfl
  intro b m hm hb
  subst hb
  obtain ⟨m1, _, _⟩ := moveList_mem hm
  rw [hf] at m1
  have m1 : 3 ≤ m.1 := by simpa using m1
  cases hres : dynAdvance clamp P so (b.2.node ref) m.1 m.2 with
  | none => rfl
  | some r =>
    obtain ⟨x, y, _⟩ := dynAdvance_inv (c := r.1) (s := r.2) hres
    have := y (by omega)
    rw [x, hfw] at this
    have : m.1 < 3 := by simpa using this
    omega

end store

/-- The only first step of a backward search (not reversed) is the straight one, back by the wheel base. -/
theorem dyn_first_backward_step {clamp : ℝ → ℝ} {P : DynP} {so : SOpts} {ref : SNode} {i step : Nat} {c : ℝ} {s : SNode}
    (hr : P.reversed = false) (hd : ref.depth = 0) (hfw : ref.forward = false)
    (h : dynAdvance clamp P so ref i step = some (c, s)) :
    i = 3 ∧ step = 0 ∧ s.steer = 0 ∧ s.theta = ref.theta ∧
      s.x = ref.x - P.la / P.resolution * Real.cos ref.theta ∧
      s.y = ref.y - P.la / P.resolution * Real.sin ref.theta := by
  obtain ⟨hf, hi, _, _, h' | h'⟩ := dynAdvance_inv h
  · obtain ⟨_, _, a, b, hx, hy, ht, hs, _⟩ := h'
    exact ⟨a, b, hs, ht, by rw [hx]; ring, by rw [hy]; ring⟩
  · exfalso
    apply h'.1
    refine ⟨hr, by omega, ?_⟩
    have := hi (by omega)
    rw [hf, hfw] at this
    simpa using this

/-- The default configuration allows a first step: straight on. -/
theorem dyn_default_step (clamp : ℝ → ℝ) (so : SOpts) :
    ∃ c s, dynAdvance clamp ⟨0.4, 0.05, 1.2, 60, 15, 2, false, true, false⟩ so ⟨10, 10, 0, true, 0, 0, 0⟩ 0 0 =
      some (c, s) := by
  unfold dynAdvance
  simp [steerSwitch, steerClamp]

/-- ... and a turn to the left with two steering steps. -/
theorem dyn_default_left (clamp : ℝ → ℝ) (so : SOpts) :
    ∃ c s, dynAdvance clamp ⟨0.4, 0.05, 1.2, 60, 15, 2, false, true, false⟩ so ⟨10, 10, 0, true, 0, 0, 0⟩ 2 2 =
      some (c, s) ∧ s.steer = 30 := by
  have e : truncC ((15 : ℝ) * ((2 : Nat) : ℝ)) = 30 := by
    have : (15 : ℝ) * ((2 : Nat) : ℝ) = ((30 : Int) : ℝ) := by norm_num
    rw [this]; unfold truncC
    rw [if_pos (by norm_num), Int.floor_intCast]
  unfold dynAdvance
  simp only [e]
  simp [steerSwitch, steerClamp]

/-! ### Goal tests -/

/-- The deviation computed by `atan2(sin d, cos d)` is `d` up to full turns. -/
theorem wrapAngle_spec (d thr : ℝ) :
    |atan2 (Real.sin d) (Real.cos d)| ≤ thr ↔ ∃ k : Int, |d + k * (2 * Real.pi)| ≤ thr := by
  have hpi := Real.pi_pos
  have he : (⟨Real.cos d, Real.sin d⟩ : ℂ) = Complex.cos d + Complex.sin d * Complex.I := by
    apply Complex.ext
    · simp [← Complex.ofReal_cos, ← Complex.ofReal_sin]
    · simp [← Complex.ofReal_cos, ← Complex.ofReal_sin]
  unfold atan2
  rw [he]
  have hmod : ∃ k : Int, Complex.arg (Complex.cos d + Complex.sin d * Complex.I) = d + k * (2 * Real.pi) := by
    rw [Complex.arg_cos_add_sin_mul_I_eq_toIocMod]
    refine ⟨-toIocDiv Real.two_pi_pos (-Real.pi) d, ?_⟩
    rw [← self_sub_toIocDiv_zsmul]; simp only [zsmul_eq_mul]; push_cast; ring
  constructor
  · intro h
    obtain ⟨k, hk⟩ := hmod
    exact ⟨k, by rw [← hk]; exact h⟩
  · rintro ⟨k, hk⟩
    by_cases hthr : thr < Real.pi
    · obtain ⟨j, hj⟩ := hmod
      have h1 := Complex.neg_pi_lt_arg (Complex.cos d + Complex.sin d * Complex.I)
      have h2 := Complex.arg_le_pi (Complex.cos d + Complex.sin d * Complex.I)
      rw [hj] at h1 h2
      rw [hj]
      have hk' := abs_le.1 hk
      have h3 : ((j - k : Int) : ℝ) * (2 * Real.pi) < 2 * Real.pi := by push_cast; nlinarith
      have h4 : -(2 * Real.pi) < ((j - k : Int) : ℝ) * (2 * Real.pi) := by push_cast; nlinarith
      have h5 : ((j - k : Int) : ℝ) < 1 := by nlinarith
      have h6 : (-1 : ℝ) < ((j - k : Int) : ℝ) := by nlinarith
      have h5' : j - k < 1 := by exact_mod_cast h5
      have h6' : -1 < j - k := by exact_mod_cast h6
      have : j = k := by omega
      rw [this]; exact hk
    · exact (Complex.abs_arg_le_pi _).trans (not_lt.1 hthr)

/-- **Goal test of the dynamic neighbourhood**: accepts exactly the nodes whose heading deviates from the goal heading by
at most the threshold (modulo full turns) and whose distance in metres is below the threshold. -/
theorem dynIsGoal_iff (res distThr angThr : ℝ) (goal ref : SNode) :
    dynIsGoal res distThr angThr goal ref = true ↔
      (∃ k : Int, |goal.theta - ref.theta + k * (2 * Real.pi)| ≤ angThr) ∧ nodeDist goal ref * res < distThr := by
  rw [← wrapAngle_spec]
  unfold dynIsGoal nodeDist
  simp only []
  split_ifs with h
  · constructor
    · intro e; exact absurd e (by simp)
    · intro e; exact absurd e.1 (not_le.2 h)
  · simp [not_lt.1 h]

/-- `segDistance` is the distance to a point of the segment. -/
theorem segDistance_attained (p r g : P2) : ∃ t : ℝ, 0 ≤ t ∧ t ≤ 1 ∧
    segDistance p r g = Real.sqrt ((g.x - (p.x + t * (r.x - p.x))) ^ 2 + (g.y - (p.y + t * (r.y - p.y))) ^ 2) := by
  unfold segDistance
  simp only []
  split_ifs with h
  · exact ⟨0, le_refl _, by norm_num, by simp⟩
  · exact ⟨_, le_max_left _ _, max_le (by norm_num) (min_le_left _ _), rfl⟩

/-- ... and, for segments longer than a centimetre, the smallest one. -/
theorem segDistance_minimal (p r g : P2) (hl : 0.0001 < (p.x - r.x) ^ 2 + (p.y - r.y) ^ 2) (u : ℝ) (h0 : 0 ≤ u)
    (h1 : u ≤ 1) : segDistance p r g ≤
    Real.sqrt ((g.x - (p.x + u * (r.x - p.x))) ^ 2 + (g.y - (p.y + u * (r.y - p.y))) ^ 2) := by
  unfold segDistance
  simp only []
  rw [if_neg (not_le.2 hl)]
  apply Real.sqrt_le_sqrt
  set L := (p.x - r.x) ^ 2 + (p.y - r.y) ^ 2 with hL
  have hLp : 0 < L := by norm_num at hl; linarith
  set q := (g.x - p.x) * (r.x - p.x) + (g.y - p.y) * (r.y - p.y) with hq
  set t0 := q / L with ht0
  have hqt : q = t0 * L := by rw [ht0]; field_simp
  set t := max 0 (min 1 t0) with ht
  have e : ∀ v : ℝ, (g.x - (p.x + v * (r.x - p.x))) ^ 2 + (g.y - (p.y + v * (r.y - p.y))) ^ 2 =
      (g.x - p.x) ^ 2 + (g.y - p.y) ^ 2 - 2 * v * q + v ^ 2 * L := by
    intro v; rw [hq, hL]; ring
  rw [e t, e u, hqt]
  have key : (t - t0) ^ 2 ≤ (u - t0) ^ 2 := by
    rcases le_total t0 0 with c | c
    · have : t = 0 := by rw [ht, min_eq_right (by linarith), max_eq_left c]
      rw [this]; nlinarith
    · rcases le_total t0 1 with c' | c'
      · have : t = t0 := by rw [ht, min_eq_right c', max_eq_right c]
        rw [this]; nlinarith [sq_nonneg (u - t0)]
      · have : t = 1 := by rw [ht, min_eq_left c', max_eq_right (by norm_num)]
        rw [this]; nlinarith
  nlinarith

/-- The goal position used by the static neighbourhood: for a reversed search arriving backwards, the goal moved back by
the wheel base. -/
def effGoal (P : SteerP) (goal ref : SNode) : P2 :=
  if P.reversed = true ∧ ref.forward = false then
    ⟨goal.x - P.la / P.resolution * Real.cos goal.theta, goal.y - P.la / P.resolution * Real.sin goal.theta⟩
  else ⟨goal.x, goal.y⟩

/-- **Goal test of the static neighbourhood, soundness**: an accepted node has the goal heading up to 22.5 degrees and
the goal lies within 10 cm of a point of the last segment driven (5 cm of the node itself if it has no predecessor). -/
theorem steerIsGoal_sound (P : SteerP) (hr : 0 ≤ P.resolution) (distance : Int) (goal ref : SNode) (prev : Option SNode)
    (h : steerIsGoal P distance goal ref prev = true) :
    (∃ k : Int, |goal.theta - ref.theta + k * (2 * Real.pi)| ≤ Real.pi / 8) ∧
    ∃ t : ℝ, 0 ≤ t ∧ t ≤ 1 ∧ Real.sqrt (((effGoal P goal ref).x - ((prev.getD ref).x + t * (ref.x - (prev.getD ref).x))) ^ 2
      + ((effGoal P goal ref).y - ((prev.getD ref).y + t * (ref.y - (prev.getD ref).y))) ^ 2) * P.resolution < 0.1 := by
  unfold steerIsGoal at h
  simp only [] at h
  have egx : (if P.reversed = true ∧ ref.forward = false then goal.x + -Real.cos goal.theta * P.la / P.resolution
      else goal.x) = (effGoal P goal ref).x := by
    unfold effGoal; split_ifs <;> simp; ring
  have egy : (if P.reversed = true ∧ ref.forward = false then goal.y + -Real.sin goal.theta * P.la / P.resolution
      else goal.y) = (effGoal P goal ref).y := by
    unfold effGoal; split_ifs <;> simp; ring
  rw [egx, egy] at h
  set gx := (effGoal P goal ref).x
  set gy := (effGoal P goal ref).y
  by_cases ha : |atan2 (Real.sin (goal.theta - ref.theta)) (Real.cos (goal.theta - ref.theta))| > Real.pi / 8
  · rw [if_pos ha] at h; exact absurd h (by simp)
  rw [if_neg ha] at h
  refine ⟨(wrapAngle_spec _ _).1 (not_lt.1 ha), ?_⟩
  split_ifs at h with h1 h2 h3
  · refine ⟨1, by norm_num, le_refl _, ?_⟩
    have e1 : (prev.getD ref).x + 1 * (ref.x - (prev.getD ref).x) = ref.x := by ring
    have e2 : (prev.getD ref).y + 1 * (ref.y - (prev.getD ref).y) = ref.y := by ring
    rw [e1, e2]
    norm_num at h3 ⊢
    linarith
  · cases prev with
    | none => exact absurd h (by simp)
    | some p =>
      simp only [decide_eq_true_eq] at h
      obtain ⟨t, t0, t1, ht⟩ := segDistance_attained ⟨p.x * P.resolution, p.y * P.resolution⟩
        ⟨ref.x * P.resolution, ref.y * P.resolution⟩ ⟨gx * P.resolution, gy * P.resolution⟩
      refine ⟨t, t0, t1, ?_⟩
      rw [ht] at h
      simp only [Option.getD_some]
      have e : (gx * P.resolution - (p.x * P.resolution + t * (ref.x * P.resolution - p.x * P.resolution))) ^ 2 +
          (gy * P.resolution - (p.y * P.resolution + t * (ref.y * P.resolution - p.y * P.resolution))) ^ 2 =
          ((gx - (p.x + t * (ref.x - p.x))) ^ 2 + (gy - (p.y + t * (ref.y - p.y))) ^ 2) * P.resolution ^ 2 := by ring
      rw [e, Real.sqrt_mul (by positivity), Real.sqrt_sq hr] at h
      exact h

/-- **Completeness near the goal**: a node with the right heading within 5 cm of the goal is accepted (unless a reversed
search is still committed to straight driving), provided the acceptance box of `4 * distance` cells is at least 5 cm. -/
theorem steerIsGoal_near (P : SteerP) (hr : 0 < P.resolution) (distance : Int) (goal ref : SNode) (prev : Option SNode)
    (hbox : (0.05 : ℝ) ≤ 4 * distance * P.resolution)
    (hang : ∃ k : Int, |goal.theta - ref.theta + k * (2 * Real.pi)| ≤ Real.pi / 8)
    (hc : P.reversed = true → ref.custom ≤ 0)
    (hd : Real.sqrt (((effGoal P goal ref).x - ref.x) ^ 2 + ((effGoal P goal ref).y - ref.y) ^ 2) * P.resolution < 0.05) :
    steerIsGoal P distance goal ref prev = true := by
  unfold steerIsGoal
  simp only []
  have egx : (if P.reversed = true ∧ ref.forward = false then goal.x + -Real.cos goal.theta * P.la / P.resolution
      else goal.x) = (effGoal P goal ref).x := by
    unfold effGoal; split_ifs <;> simp; ring
  have egy : (if P.reversed = true ∧ ref.forward = false then goal.y + -Real.sin goal.theta * P.la / P.resolution
      else goal.y) = (effGoal P goal ref).y := by
    unfold effGoal; split_ifs <;> simp; ring
  rw [egx, egy, if_neg (not_lt.2 ((wrapAngle_spec _ _).2 hang)), if_neg (fun e => absurd (hc e.1) (not_le.2 e.2))]
  set dx := (effGoal P goal ref).x - ref.x
  set dy := (effGoal P goal ref).y - ref.y
  have hx : |dx| ≤ Real.sqrt (dx ^ 2 + dy ^ 2) := Real.abs_le_sqrt (by nlinarith [sq_nonneg dy])
  have hy : |dy| ≤ Real.sqrt (dx ^ 2 + dy ^ 2) := Real.abs_le_sqrt (by nlinarith [sq_nonneg dx])
  have hs : Real.sqrt (dx ^ 2 + dy ^ 2) < 4 * (distance : ℝ) := by
    by_contra hne
    have := mul_le_mul_of_nonneg_right (not_lt.1 hne) hr.le
    linarith
  rw [if_neg, if_pos hd]
  push_cast
  rintro (e | e) <;> linarith

/-! ### `NonHolonomicNeighborhood` -/

/-- Inversion of `nhAdvance`. -/
theorem nhAdvance_inv {clamp : ℝ → ℝ} {distPx : ℝ} {sa : Int} {rev : Bool} {sds : Int} {rot : ℝ} {ini : Bool}
    {ref : SNode} {preds : List SNode} {i : Nat} {c : ℝ} {s : SNode}
    (h : nhAdvance clamp distPx sa rev sds rot ini ref preds i = some (c, s)) :
    let t := clamp (ref.theta + nhTurn i * ((sa : ℝ) / 10 * Real.pi / 180) + rot)
    (ini = true → i = 0 ∨ i = 3) ∧ (0 < ref.custom → i % 3 = 0) ∧
    s.forward = decide (i < 3 ∨ (6 ≤ i ∧ i ≤ 7)) ∧
    s.x = ref.x + driveSign rev s.forward * Real.cos t * distPx ∧
    s.y = ref.y + driveSign rev s.forward * Real.sin t * distPx ∧
    s.theta = clamp (t - rot) ∧
    (s.forward ≠ ref.forward → ini = false → ref.custom ≤ 0 ∧ (i = 0 ∨ i = 3) ∧
      sameHeading ref.theta (sds - 1).toNat preds ∧ s.custom = toI8 (sds - 1)) ∧
    (s.forward = ref.forward ∨ ini = true → s.custom = if ref.custom > 0 then ref.custom - 1 else 0) ∧
    c = distPx * (if s.forward then 1 else 1.5) * (if s.forward ≠ ref.forward ∧ ini = false then 4 else 1) := by
  unfold nhAdvance at h
  simp only [] at h
  have hdir : ∀ f : Bool, (if rev = true then (if f = true then (1 : ℝ) else -1) * (-1) else
      (if f = true then (1 : ℝ) else -1)) = driveSign rev f := by
    intro f; unfold driveSign; cases rev <;> cases f <;> simp
  simp only [hdir] at h
  set f : Bool := decide (i < 3 ∨ (6 ≤ i ∧ i ≤ 7)) with hf
  by_cases h1 : ini = true ∧ (i ≠ 0 ∧ i ≠ 3)
  · rw [if_pos h1] at h; exact absurd h (by simp)
  rw [if_neg h1] at h
  by_cases h2 : ref.custom > 0 ∧ i % 3 ≠ 0
  · rw [if_pos h2] at h; exact absurd h (by simp)
  rw [if_neg h2] at h
  have a1 : ini = true → i = 0 ∨ i = 3 := by
    intro e; by_contra hne; exact h1 ⟨e, by omega, by omega⟩
  have a2 : 0 < ref.custom → i % 3 = 0 := by
    intro e; by_contra hne; exact h2 ⟨e, hne⟩
  by_cases h3 : (ref.forward != f && !ini) = true
  · rw [if_pos h3, if_pos h3] at h
    have h3' : ref.forward ≠ f ∧ ini = false := by simpa using h3
    by_cases h4 : ref.custom > 0
    · rw [if_pos h4] at h; exact absurd h (by simp)
    rw [if_neg h4] at h
    by_cases h5 : i ≠ (if f = true then 0 else 3)
    · rw [if_pos h5] at h; exact absurd h (by simp)
    rw [if_neg h5] at h
    by_cases h6 : sameHeading ref.theta (sds - 1).toNat preds
    · rw [if_pos h6] at h
      simp only [Option.some.injEq, Prod.mk.injEq] at h
      obtain ⟨rfl, rfl⟩ := h
      refine ⟨a1, a2, rfl, rfl, rfl, rfl, ?_, ?_, ?_⟩
      · intro _ _
        refine ⟨not_lt.1 h4, ?_, h6, rfl⟩
        push Not at h5
        rw [h5]; cases f <;> simp
      · rintro (e | e)
        · exact absurd e.symm h3'.1
        · rw [h3'.2] at e; exact absurd e (by simp)
      · have : f ≠ ref.forward ∧ ini = false := ⟨fun e => h3'.1 e.symm, h3'.2⟩
        simp only []
        rw [if_pos this]
        cases f <;> simp
    · rw [if_neg h6] at h; exact absurd h (by simp)
  · rw [if_neg h3, if_neg h3] at h
    have h3' : ref.forward = f ∨ ini = true := by
      by_contra hne
      push Not at hne
      exact h3 (by simp [hne.1, Bool.eq_false_iff.2 hne.2])
    simp only [Option.some.injEq, Prod.mk.injEq] at h
    obtain ⟨rfl, rfl⟩ := h
    refine ⟨a1, a2, rfl, rfl, rfl, rfl, ?_, ?_, ?_⟩
    · intro e e'
      rcases h3' with e2 | e2
      · exact absurd e2.symm e
      · rw [e'] at e2; exact absurd e2 (by simp)
    · intro _; rfl
    · have : ¬ (f ≠ ref.forward ∧ ini = false) := by
        rintro ⟨e, e'⟩
        rcases h3' with e2 | e2
        · exact e e2.symm
        · rw [e'] at e2; exact absurd e2 (by simp)
      simp only []
      rw [if_neg this]
      cases f <;> simp

/-- Every step of the non-holonomic neighbourhood has exactly the configured length. -/
theorem nhAdvance_length {clamp : ℝ → ℝ} {distPx : ℝ} {sa : Int} {rev : Bool} {sds : Int} {rot : ℝ} {ini : Bool}
    {ref : SNode} {preds : List SNode} {i : Nat} {c : ℝ} {s : SNode} (hd : 0 ≤ distPx)
    (h : nhAdvance clamp distPx sa rev sds rot ini ref preds i = some (c, s)) : nodeDist ref s = distPx := by
  obtain ⟨_, _, _, hx, hy, _⟩ := nhAdvance_inv h
  unfold nodeDist
  rw [hx, hy]
  generalize clamp (ref.theta + nhTurn i * ((sa : ℝ) / 10 * Real.pi / 180) + rot) = t
  have h1 : driveSign rev s.forward ^ 2 = 1 := by unfold driveSign; split_ifs <;> norm_num
  have h2 := Real.cos_sq_add_sin_sq t
  have e : (ref.x - (ref.x + driveSign rev s.forward * Real.cos t * distPx)) ^ 2 +
      (ref.y - (ref.y + driveSign rev s.forward * Real.sin t * distPx)) ^ 2 =
      driveSign rev s.forward ^ 2 * (Real.cos t ^ 2 + Real.sin t ^ 2) * distPx ^ 2 := by ring
  rw [e, h1, h2]; simp [Real.sqrt_sq hd]

/-- The heading changes by at most `steerangle / 10` degrees per step (modulo full turns). -/
theorem nhAdvance_turn {clamp : ℝ → ℝ} (hclamp : ClampSpec clamp) {distPx : ℝ} {sa : Int} {rev : Bool} {sds : Int}
    {rot : ℝ} {ini : Bool} {ref : SNode} {preds : List SNode} {i : Nat} {c : ℝ} {s : SNode} (hsa : 0 ≤ sa)
    (h : nhAdvance clamp distPx sa rev sds rot ini ref preds i = some (c, s)) :
    ∃ k : Int, |s.theta - ref.theta + k * (2 * Real.pi)| ≤ (sa : ℝ) / 10 * Real.pi / 180 := by
  obtain ⟨_, _, _, _, _, ht, _⟩ := nhAdvance_inv h
  have hpi := Real.pi_pos
  have hsa' : (0 : ℝ) ≤ sa := by exact_mod_cast hsa
  obtain ⟨k1, h1⟩ := hclamp.mod (ref.theta + nhTurn i * ((sa : ℝ) / 10 * Real.pi / 180) + rot)
  obtain ⟨k2, h2⟩ := hclamp.mod (clamp (ref.theta + nhTurn i * ((sa : ℝ) / 10 * Real.pi / 180) + rot) - rot)
  refine ⟨-(k1 + k2), ?_⟩
  set D := (sa : ℝ) / 10 * Real.pi / 180 with hD
  have hD0 : 0 ≤ D := by positivity
  have e : s.theta - ref.theta + ((-(k1 + k2) : Int) : ℝ) * (2 * Real.pi) = nhTurn i * D := by
    rw [ht, h2, h1]; push_cast; ring
  rw [e, abs_mul, abs_of_nonneg hD0]
  have : |nhTurn i| ≤ 1 := by unfold nhTurn; split_ifs <;> norm_num [abs_le]
  nlinarith

/-- The step is driven along the successor's heading (plus the rotation of the map), forwards or backwards. -/
theorem nhAdvance_along_heading {clamp : ℝ → ℝ} (hclamp : ClampSpec clamp) {distPx : ℝ} {sa : Int} {rev : Bool}
    {sds : Int} {rot : ℝ} {ini : Bool} {ref : SNode} {preds : List SNode} {i : Nat} {c : ℝ} {s : SNode}
    (h : nhAdvance clamp distPx sa rev sds rot ini ref preds i = some (c, s)) :
    s.x = ref.x + driveSign rev s.forward * Real.cos (s.theta + rot) * distPx ∧
      s.y = ref.y + driveSign rev s.forward * Real.sin (s.theta + rot) * distPx := by
  obtain ⟨_, _, _, hx, hy, ht, _⟩ := nhAdvance_inv h
  set t := clamp (ref.theta + nhTurn i * ((sa : ℝ) / 10 * Real.pi / 180) + rot)
  obtain ⟨k, hk⟩ := hclamp.mod (t - rot)
  have e : s.theta + rot = t + k * (2 * Real.pi) := by rw [ht, hk]; ring
  rw [e, Real.cos_add_int_mul_two_pi, Real.sin_add_int_mul_two_pi]
  exact ⟨hx, hy⟩

/-- A change of the driving direction (away from the start) is a straight step and needs equal headings before it. -/
theorem nhAdvance_switch {clamp : ℝ → ℝ} {distPx : ℝ} {sa : Int} {rev : Bool} {sds : Int} {rot : ℝ}
    {ref : SNode} {preds : List SNode} {i : Nat} {c : ℝ} {s : SNode}
    (h : nhAdvance clamp distPx sa rev sds rot false ref preds i = some (c, s)) (hsw : s.forward ≠ ref.forward) :
    nhTurn i = 0 ∧ ref.custom ≤ 0 ∧ ∀ j, j < (sds - 1).toNat → ∃ t, preds[j]? = some t ∧ t.theta = ref.theta := by
  obtain ⟨_, _, _, _, _, _, hs, _⟩ := nhAdvance_inv h
  obtain ⟨a, b, d, _⟩ := hs hsw rfl
  refine ⟨?_, a, ?_⟩
  · rcases b with rfl | rfl <;> simp [nhTurn]
  · generalize (sds - 1).toNat = n at d
    clear hs h
    induction n generalizing preds with
    | zero => intro j hj; omega
    | succ n ih =>
      cases preds with
      | nil => simp [sameHeading] at d
      | cons t ts =>
        intro j hj
        cases j with
        | zero => exact ⟨t, rfl, d.1⟩
        | succ j => simpa using ih d.2 j (by omega)

theorem nhAdvance_cost_pos {clamp : ℝ → ℝ} {distPx : ℝ} {sa : Int} {rev : Bool} {sds : Int} {rot : ℝ} {ini : Bool}
    {ref : SNode} {preds : List SNode} {i : Nat} {c : ℝ} {s : SNode} (hd : 0 < distPx)
    (h : nhAdvance clamp distPx sa rev sds rot ini ref preds i = some (c, s)) : distPx ≤ c ∧ c ≤ 6 * distPx := by
  obtain ⟨_, _, _, _, _, _, _, _, hc⟩ := nhAdvance_inv h
  rw [hc]
  split_ifs <;> constructor <;> nlinarith

/-- Finding: a node committed to straight driving only excludes the moves whose number is not divisible by 3; with half
steps (`FORWARD_BACKWARD_HALFSTEPS`) move 6 turns and is nevertheless allowed, whatever `ref.custom` is. -/
theorem nh_committed_halfstep_turns (clamp : ℝ → ℝ) (distPx : ℝ) (sa : Int) (rev : Bool) (sds : Int) (rot : ℝ)
    (ref : SNode) (preds : List SNode) (hf : ref.forward = true) :
    (∃ c s, nhAdvance clamp distPx sa rev sds rot false ref preds 6 = some (c, s)) ∧ nhTurn 6 ≠ 0 := by
  constructor
  · unfold nhAdvance
    simp [hf]
  · unfold nhTurn; norm_num

end PathPlanning
