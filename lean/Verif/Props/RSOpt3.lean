import Verif.Props.RSOpt2

/-!
# C67: four turns, the choice between mirrored solutions, and the result of `find_path`
-/

noncomputable section

namespace PathPlanning.RS
open Spec

section
variable {E : RSEnv} (hC : ClampSpec E.clamp) (hr0 : 0 < E.radius)
include hC hr0

/-- Four turns with equal middle angles of more than 60 degrees and the cusp in the middle: any motion
is matched, part by part, by one of the two computed solutions. -/
theorem cccc_unique (a m n b : Circ) (start goal : Pose) (o1 : a.ori ≠ m.ori) (o2 : m.ori ≠ n.ori)
    (o3 : n.ori ≠ b.ori) (hdir : m.dir ≠ n.dir)
    {t1 u t4 : ℝ} (h1 : 0 < t1) (h2 : 0 < u) (h4 : 0 < t4) (hu : Real.cos u < 1 / 2)
    (hg : SameConfig (driveAll E.radius start
      [(.turn a.ori a.dir, t1), (.turn m.ori m.dir, u), (.turn n.ori n.dir, u),
        (.turn b.ori b.dir, t4)]) goal) :
    eucl (turnCentre E.radius a.ori start) (turnCentre E.radius b.ori goal) ≤ 6 * E.radius ∧
    ∃ p a' m' n' b', tangentialDouble E p (initA E start a) (m.setRadius E.radius)
        (n.setRadius E.radius) (initZ E goal b) = (a', m', n', b') ∧
      a'.radius = E.radius ∧ m'.radius = E.radius ∧ n'.radius = E.radius ∧ b'.radius = E.radius ∧
      a'.dir = a.dir ∧ m'.dir = m.dir ∧ n'.dir = n.dir ∧ b'.dir = b.dir ∧
      |a'.arc| ≤ t1 ∧ |m'.arc| ≤ u ∧ |n'.arc| ≤ u ∧ |b'.arc| ≤ t4 := by
  set A := initA E start a with hA
  set M := m.setRadius E.radius with hM
  set N := n.setRadius E.radius with hN
  set B := initZ E goal b with hB
  have eA : A.center = turnCentre E.radius a.ori start := pairFor_eq E a.ori start
  have eB : B.center = turnCentre E.radius b.ori goal := pairFor_eq E b.ori goal
  have rA : A.radius = E.radius := rfl
  set V := B.center - A.center with hV
  have hlen : eucl (turnCentre E.radius a.ori start) (turnCentre E.radius b.ori goal) = V.length := by
    rw [← eA, ← eB, hV, length_sub_comm]; unfold P2.length eucl dist2; simp
  rw [hlen]
  simp only [driveAll] at hg
  set G1 := drive E.radius start (.turn a.ori a.dir) t1 with hG1
  set G2 := drive E.radius G1 (.turn m.ori m.dir) u with hG2
  set G3 := drive E.radius G2 (.turn n.ori n.dir) u with hG3
  have k1 : turnCentre E.radius a.ori G1 = A.center := by rw [hG1, turnCentre_turn, eA]
  have k2 : turnCentre E.radius m.ori G2 = turnCentre E.radius m.ori G1 := by
    rw [hG2, turnCentre_turn]
  have k3 : turnCentre E.radius n.ori G3 = turnCentre E.radius n.ori G2 := by
    rw [hG3, turnCentre_turn]
  have k4 : turnCentre E.radius b.ori G3 = B.center := by
    rw [eB, ← turnCentre_same hg, turnCentre_turn]
  obtain ⟨x1, y1⟩ := centre_switch E.radius a.ori m.ori G1
  obtain ⟨x2, y2⟩ := centre_switch E.radius m.ori n.ori G2
  obtain ⟨x3, y3⟩ := centre_switch E.radius n.ori b.ori G3
  rw [k1] at x1 y1
  rw [k2] at x2 y2
  rw [k3, k4] at x3 y3
  have s1 := oriSign_ne o1
  have s2 := oriSign_ne o2
  have s3 := oriSign_ne o3
  rw [s3, s2, s1] at x3 y3
  rw [s2, s1] at x2 y2
  rw [s1] at x1 y1
  have th2 : G2.theta = G1.theta + oriSign m.ori * dirSign m.dir * u := rfl
  have th3 : G3.theta = G2.theta + oriSign n.ori * dirSign n.dir * u := rfl
  have hdd : dirSign n.dir = -dirSign m.dir := by
    cases h : m.dir <;> cases h' : n.dir <;> rw [h, h'] at hdir <;>
      first | exact absurd rfl hdir | norm_num [dirSign]
  rw [s1] at th2
  rw [s2, s1, hdd] at th3
  set σ := oriSign a.ori with hσ
  have hσσ : σ * σ = 1 := oriSign_sq a.ori
  set τ := -σ * dirSign m.dir * u with hτ
  have hcosτ : Real.cos τ = Real.cos u := by
    rw [hτ, hσ]; cases a.ori <;> cases m.dir <;> simp [oriSign, dirSign]
  have e1 : G1.theta = G2.theta - τ := by rw [th2]; ring
  have e3 : G3.theta = G2.theta + τ := by rw [th3]; ring
  have c2 := Real.sin_sq_add_cos_sq G2.theta
  have cτ := Real.sin_sq_add_cos_sq τ
  set K := 2 * E.radius * (1 - 2 * Real.cos u) with hK
  have hK0 : 0 < K := by rw [hK]; have : 0 < 1 - 2 * Real.cos u := by linarith
                         positivity
  have vx : V.x = K * (-(σ * Real.sin G2.theta)) := by
    rw [e1, Real.sin_sub] at x1
    rw [e3, Real.sin_add] at x3
    rw [hV, P2.sub_x, hK, ← hcosτ]; linear_combination x1 + x2 + x3
  have vy : V.y = K * (σ * Real.cos G2.theta) := by
    rw [e1, Real.cos_sub] at y1
    rw [e3, Real.cos_add] at y3
    rw [hV, P2.sub_y, hK, ← hcosτ]; linear_combination y1 + y2 + y3
  have hVl : V.length = K := by
    unfold P2.length
    have : V.x ^ 2 + V.y ^ 2 = K ^ 2 := by
      rw [vx, vy]; linear_combination K ^ 2 * σ * σ * c2 + K ^ 2 * hσσ
    rw [this, Real.sqrt_sq hK0.le]
  have px := polar_x V
  have py := polar_y V
  rw [hVl] at px py
  have ax : Real.cos V.angle = -(σ * Real.sin G2.theta) := by
    apply mul_right_cancel₀ hK0.ne'; linarith
  have ay : Real.sin V.angle = σ * Real.cos G2.theta := by
    apply mul_right_cancel₀ hK0.ne'; linarith
  have hle : V.length ≤ 6 * E.radius := by
    rw [hVl, hK]
    have := Real.neg_one_le_cos u
    nlinarith
  have hD : 0 < V.length := by rw [hVl]; exact hK0
  refine ⟨hle, ?_⟩
  have hdot : (σ * Real.sin G1.theta) * Real.cos V.angle + (-(σ * Real.cos G1.theta)) * Real.sin V.angle =
      -Real.cos u := by
    rw [ax, ay, e1, Real.sin_sub, Real.cos_sub, ← hcosτ]
    linear_combination -Real.cos τ * c2 * σ * σ - Real.cos τ * hσσ
  have hunit : (σ * Real.sin G1.theta) ^ 2 + (-(σ * Real.cos G1.theta)) ^ 2 = 1 := by
    have c1 := Real.sin_sq_add_cos_sq G1.theta
    linear_combination (Real.sin G1.theta ^ 2 + Real.cos G1.theta ^ 2) * hσσ + c1
  set γ := Real.arccos ((V.length / 2 - A.radius) / (2 * A.radius)) with hγ
  have hval : (V.length / 2 - A.radius) / (2 * A.radius) = -Real.cos u := by
    rw [rA, hVl, hK]; have := hr0.ne'; field_simp; ring
  have hcosγ : Real.cos γ = -Real.cos u := by
    rw [hγ, hval, Real.cos_arccos]
    · linarith [Real.cos_le_one u]
    · linarith [Real.neg_one_le_cos u]
  obtain ⟨p, w1, w2⟩ := pick_side hunit (hdot.trans hcosγ.symm)
  obtain ⟨kS, kM, kN, kE, f1, f2, f3, f4⟩ := tangentialDouble_keep E p A M N B
  obtain ⟨⟨z1, z2⟩, z3, z4⟩ := tangentialDouble_ends hC p A M N B hr0
  obtain ⟨_, _, _, j1, j2, j3⟩ := tangentialDouble_join hC p A M N B hr0 rfl rfl rfl hD hle
  have j1 := j1 o1
  have j2 := j2 o2
  have j3 := j3 o3
  rcases hT : tangentialDouble E p A M N B with ⟨a', m', n', b'⟩
  rw [hT] at kS kM kN kE f1 f2 f3 f4 z1 z2 z3 z4 j1 j2 j3
  simp only at kS kM kN kE f1 f2 f3 f4 z1 z2 z3 z4 j1 j2 j3
  obtain ⟨sA, ra, oA, dA, cA⟩ := initA_start hC hr0 start a a' kS
  obtain ⟨sB, rb, oB, dB, cB⟩ := initZ_goal hC hr0 goal b b' kE
  have rm : m'.radius = E.radius := kM.radius
  have om : m'.ori = m.ori := kM.ori
  have dm : m'.dir = m.dir := kM.dir
  have rn : n'.radius = E.radius := kN.radius
  have on : n'.ori = n.ori := kN.ori
  have dn : n'.dir = n.dir := kN.dir
  refine ⟨p, a', m', n', b', hT, ra, rm, rn, rb, dA, dm, dn, dB, ?_⟩
  -- first arc
  obtain ⟨u1, u2⟩ := confAt_trig a' a'.aEnd
  rw [oA, z2, ← w2] at u1
  rw [oA, z1, ← w1] at u2
  have u1' : Real.cos G1.theta = Real.cos (a'.confAt a'.aEnd).theta := by
    rw [u1]; linear_combination -Real.cos G1.theta * hσσ
  have u2' : Real.sin G1.theta = Real.sin (a'.confAt a'.aEnd).theta := by
    rw [u2]; linear_combination -Real.sin G1.theta * hσσ
  rw [← dA, ← oA] at hG1
  obtain ⟨q1, q2⟩ := step_unique hC ra f1 (q := start) (t := t1) sA h1 (by rw [← hG1]; exact u1')
    (by rw [← hG1]; exact u2')
  rw [← hG1] at q2
  -- second arc
  have q3 := q2.trans j1
  obtain ⟨v1, v2⟩ := confAt_trig m' m'.aEnd
  rw [om, s1, z4, ay] at v1
  rw [om, s1, z3, ax] at v2
  have v1' : Real.cos G2.theta = Real.cos (m'.confAt m'.aEnd).theta := by
    rw [v1]; linear_combination -Real.cos G2.theta * hσσ
  have v2' : Real.sin G2.theta = Real.sin (m'.confAt m'.aEnd).theta := by
    rw [v2]; linear_combination -Real.sin G2.theta * hσσ
  rw [← dm, ← om] at hG2
  obtain ⟨q4, q5⟩ := step_unique hC rm f2 (q := G1) (t := u) q3 h2 (by rw [← hG2]; exact v1')
    (by rw [← hG2]; exact v2')
  rw [← hG2] at q5
  -- third arc
  have q6 := q5.trans j2
  have hm2 : turnCentre E.radius b.ori (n'.confAt n'.aEnd) = B.center := by
    rw [turnCentre_same j3, ← oB, ← rb, turnCentre_confAt, cB, ← eB]
  have hm1 : turnCentre E.radius n.ori (n'.confAt n'.aEnd) = turnCentre E.radius n.ori G2 := by
    rw [turnCentre_same q6, ← on, ← rn, turnCentre_confAt, turnCentre_confAt]
  obtain ⟨x4, y4⟩ := centre_switch E.radius n.ori b.ori (n'.confAt n'.aEnd)
  rw [hm1, hm2, s3, s2, s1] at x4 y4
  have hne : (2 * σ * E.radius) ≠ 0 := by
    have : σ ≠ 0 := by intro h; rw [h] at hσσ; norm_num at hσσ
    have := hr0.ne'
    positivity
  have w1 : Real.cos G3.theta = Real.cos (n'.confAt n'.aEnd).theta := by
    apply mul_left_cancel₀ hne; linear_combination y3 - y4
  have w2 : Real.sin G3.theta = Real.sin (n'.confAt n'.aEnd).theta := by
    apply mul_left_cancel₀ hne; linear_combination x4 - x3
  rw [← dn, ← on] at hG3
  obtain ⟨q7, q8⟩ := step_unique hC rn f3 (q := G2) (t := u) q6 h2 (by rw [← hG3]; exact w1)
    (by rw [← hG3]; exact w2)
  rw [← hG3] at q8
  -- last arc
  rw [← oB, ← dB] at hg
  exact ⟨q1, q4, q7, step_last hC rb f4 (q8.trans j3) h4 hg sB⟩

end

/-! ### The cheaper of the mirrored solutions is chosen -/

/-- `symmetry_helper` with a callback that forgets earlier calls: it fails if both solutions collide,
and otherwise leaves the cheaper solution. -/
theorem symmetryHelper_best (E : RSEnv) (f z : Circ) (cs : List Circ) (md : ℝ)
    (cb : Bool → List Circ → List Circ) (h1 : cb false (cb true cs) = cb false cs)
    (h2 : cb true (cb false cs) = cb true cs) (h3 : cb false (cb false cs) = cb false cs)
    (hD : 2 ≤ (f.center - z.center).length) (hD' : (f.center - z.center).length ≤ md * f.radius) :
    ((symmetryHelper E f z cs md cb).1 = true ↔
      sumWeights E (cb true cs) < NOT_FREE ∨ sumWeights E (cb false cs) < NOT_FREE) ∧
    ∃ p, ((symmetryHelper E f z cs md cb).1 = true → (symmetryHelper E f z cs md cb).2 = cb p cs) ∧
      ∀ q, sumWeights E (cb p cs) ≤ sumWeights E (cb q cs) := by
  unfold symmetryHelper
  rw [if_neg (by linarith), if_neg (by linarith)]
  simp only
  rw [h1, h2, h3]
  by_cases hb : sumWeights E (cb false cs) ≥ NOT_FREE ∧ sumWeights E (cb true cs) ≥ NOT_FREE
  · rw [if_pos hb]
    refine ⟨⟨fun h => by simp at h, fun h => ?_⟩, ?_⟩
    · rcases h with h | h
      · exact absurd hb.2 (by simpa using h)
      · exact absurd hb.1 (by simpa using h)
    · rcases le_total (sumWeights E (cb true cs)) (sumWeights E (cb false cs)) with h | h
      · exact ⟨true, fun h => by simp at h, fun q => by cases q <;> simp [h]⟩
      · exact ⟨false, fun h => by simp at h, fun q => by cases q <;> simp [h]⟩
  · rw [if_neg hb]
    have hb' : sumWeights E (cb true cs) < NOT_FREE ∨ sumWeights E (cb false cs) < NOT_FREE := by
      by_contra hh; push Not at hh; exact hb ⟨hh.2, hh.1⟩
    by_cases hlt : sumWeights E (cb true cs) < sumWeights E (cb false cs)
    · rw [if_pos hlt]
      exact ⟨⟨fun _ => hb', fun _ => rfl⟩, true, fun _ => rfl, fun q => by cases q <;> simp [hlt.le]⟩
    · rw [if_neg hlt]
      exact ⟨⟨fun _ => hb', fun _ => rfl⟩, false, fun _ => rfl, fun q => by
        cases q
        · exact le_rfl
        · exact not_lt.1 hlt⟩

theorem keepS_agree {a b : Circ} (h : KeepS a b) (hi : b.iterating = a.iterating)
    (ho : b.output = a.output) : AgreeS b a := ⟨h.1, h.2, h.3, h.4, h.5, hi, ho⟩
theorem keepE_agree {a b : Circ} (h : KeepE a b) (hi : b.iterating = a.iterating)
    (ho : b.output = a.output) : AgreeE b a := ⟨h.1, h.2, h.3, h.4, h.5, hi, ho⟩
theorem keepM_agree {a b : Circ} (h : KeepM a b) (hi : b.iterating = a.iterating)
    (ho : b.output = a.output) : AgreeM b a := ⟨h.1, h.2, h.3, hi, ho⟩

theorem single_forget (E : RSEnv) (p q : Bool) (a m b : Circ) :
    tangentialCircleVec E p (tangentialCircleVec E q [a, m, b]) = tangentialCircleVec E p [a, m, b] := by
  obtain ⟨k1, k2, k3, _, _, _⟩ := tangentialCircle_keep E q a m b
  simp only [tangentialCircleVec]
  rw [tangentialCircle_congr E p (keepS_agree k1 rfl rfl) (keepM_agree k2 rfl rfl)
    (keepE_agree k3 rfl rfl)]

theorem double_forget (E : RSEnv) (p q : Bool) (a m n b : Circ) :
    tangentialDoubleVec E p (tangentialDoubleVec E q [a, m, n, b]) =
      tangentialDoubleVec E p [a, m, n, b] := by
  obtain ⟨k1, k2, k3, k4, _, _, _, _⟩ := tangentialDouble_keep E q a m n b
  simp only [tangentialDoubleVec]
  rw [tangentialDouble_congr E p (keepS_agree k1 rfl rfl) (keepM_agree k2 rfl rfl)
    (keepM_agree k3 rfl rfl) (keepE_agree k4 rfl rfl)]

/-- **C67.** Three turns: the weight is that of the cheaper mirrored solution (collision value if both
collide). -/
theorem handleC3_best (E : RSEnv) (a m b : Circ) (hD : 2 ≤ (a.center - b.center).length)
    (hD' : (a.center - b.center).length ≤ 4 * a.radius) (q : Bool) (a' m' b' : Circ)
    (hq : tangentialCircle E q a m b = (a', m', b'))
    (hw : a'.weight E + m'.weight E + b'.weight E < NOT_FREE) :
    (handleC3 E a m b).2 ≤ a'.weight E + m'.weight E + b'.weight E ∧
    ∃ p, (handleC3 E a m b).1 = (tangentialCircleVec E p [a, m, b]).map .circ := by
  obtain ⟨h1, p, h2, h3⟩ := symmetryHelper_best E a b [a, m, b] 4 (tangentialCircleVec E)
    (single_forget ..) (single_forget ..) (single_forget ..) hD hD'
  have hv : sumWeights E (tangentialCircleVec E q [a, m, b]) = a'.weight E + m'.weight E + b'.weight E := by
    simp only [tangentialCircleVec, hq, sumWeights, List.foldl]; ring
  have ht : (symmetryHelper E a b [a, m, b] 4 (tangentialCircleVec E)).1 = true := by
    rw [h1]; cases q
    · right; rw [hv]; exact hw
    · left; rw [hv]; exact hw
  unfold handleC3
  simp only
  rw [if_pos ht, h2 ht]
  exact ⟨by rw [← hv]; exact h3 q, p, rfl⟩

/-- **C67.** Four turns: the weight is that of the cheaper mirrored solution. -/
theorem handleC4_best (E : RSEnv) (a m n b : Circ) (hD : 2 ≤ (a.center - b.center).length)
    (hD' : (a.center - b.center).length ≤ 6 * a.radius) (q : Bool) (a' m' n' b' : Circ)
    (hq : tangentialDouble E q a m n b = (a', m', n', b'))
    (hw : a'.weight E + m'.weight E + n'.weight E + b'.weight E < NOT_FREE) :
    (handleC4 E a m n b).2 ≤ a'.weight E + m'.weight E + n'.weight E + b'.weight E ∧
    ∃ p, (handleC4 E a m n b).1 = (tangentialDoubleVec E p [a, m, n, b]).map .circ := by
  obtain ⟨h1, p, h2, h3⟩ := symmetryHelper_best E a b [a, m, n, b] 6 (tangentialDoubleVec E)
    (double_forget ..) (double_forget ..) (double_forget ..) hD hD'
  have hv : sumWeights E (tangentialDoubleVec E q [a, m, n, b]) =
      a'.weight E + m'.weight E + n'.weight E + b'.weight E := by
    simp only [tangentialDoubleVec, hq, sumWeights, List.foldl]; ring
  have ht : (symmetryHelper E a b [a, m, n, b] 6 (tangentialDoubleVec E)).1 = true := by
    rw [h1]; cases q
    · right; rw [hv]; exact hw
    · left; rw [hv]; exact hw
  unfold handleC4
  simp only
  rw [if_pos ht, h2 ht]
  exact ⟨by rw [← hv]; exact h3 q, p, rfl⟩

end PathPlanning.RS
