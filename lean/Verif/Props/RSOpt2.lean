import Verif.Props.RSOpt

/-!
# C67: turn-turn-turn patterns, and the weights
-/

noncomputable section

namespace PathPlanning.RS
open Spec

theorem sub_polar (s : P2) (φ d : ℝ) : s + P2.fromPolar φ d - s = P2.fromPolar φ d := by
  ext <;> simp

section
variable {E : RSEnv} (hC : ClampSpec E.clamp)
include hC

theorem tangentialCircle_end (p : Bool) (a m b : Circ) (hra : 0 < a.radius) :
    let γ := Real.arccos (((b.center - a.center).length / 2) / (2 * a.radius))
    let φ := (if p then γ else -γ) + (b.center - a.center).angle
    Real.cos (tangentialCircle E p a m b).1.aEnd = Real.cos φ ∧
    Real.sin (tangentialCircle E p a m b).1.aEnd = Real.sin φ := by
  intro γ φ
  have h : (tangentialCircle E p a m b).1.aEnd =
      E.clamp (a.center + P2.fromPolar φ (2 * a.radius) - a.center).angle := rfl
  rw [h, sub_polar, clamp_cos hC, clamp_sin hC]
  exact angle_fromPolar_cos (by linarith)

theorem tangentialDouble_ends (p : Bool) (a m n b : Circ) (hra : 0 < a.radius) :
    let γ := Real.arccos (((b.center - a.center).length / 2 - a.radius) / (2 * a.radius))
    let φ := (if p then γ else -γ) + (b.center - a.center).angle
    (Real.cos (tangentialDouble E p a m n b).1.aEnd = Real.cos φ ∧
      Real.sin (tangentialDouble E p a m n b).1.aEnd = Real.sin φ) ∧
    Real.cos (tangentialDouble E p a m n b).2.1.aEnd = Real.cos (b.center - a.center).angle ∧
    Real.sin (tangentialDouble E p a m n b).2.1.aEnd = Real.sin (b.center - a.center).angle := by
  intro γ φ
  have h : (tangentialDouble E p a m n b).1.aEnd =
      E.clamp (a.center + P2.fromPolar φ (2 * a.radius) - a.center).angle := rfl
  have h' : (tangentialDouble E p a m n b).2.1.aEnd =
      E.clamp (P2.fromPolar (b.center - a.center).angle (2 * a.radius)).angle := rfl
  rw [h, h', sub_polar, clamp_cos hC, clamp_sin hC, clamp_cos hC, clamp_sin hC]
  exact ⟨angle_fromPolar_cos (by linarith), angle_fromPolar_cos (by linarith)⟩

end

/-- Heading and circle angle of a configuration on a circle. -/
theorem confAt_trig (c : Circ) (a : ℝ) :
    Real.cos (c.confAt a).theta = -(oriSign c.ori * Real.sin a) ∧
    Real.sin (c.confAt a).theta = oriSign c.ori * Real.cos a := by
  cases h : c.ori <;>
    simp only [Circ.confAt, h, oriSign, one_mul, neg_one_mul, neg_mul, ← sub_eq_add_neg, neg_neg,
      Real.sin_add_pi_div_two, Real.cos_add_pi_div_two, Real.sin_sub_pi_div_two,
      Real.cos_sub_pi_div_two] <;> simp

/-- Two unit vectors with the same product with a given direction are equal or mirrored. -/
theorem pick_side {x y θ γ : ℝ} (hxy : x ^ 2 + y ^ 2 = 1)
    (h : x * Real.cos θ + y * Real.sin θ = Real.cos γ) :
    ∃ p : Bool, x = Real.cos ((if p then γ else -γ) + θ) ∧ y = Real.sin ((if p then γ else -γ) + θ) := by
  have hθ := Real.sin_sq_add_cos_sq θ
  have hγ := Real.sin_sq_add_cos_sq γ
  have hs : (y * Real.cos θ - x * Real.sin θ) ^ 2 = Real.sin γ ^ 2 := by
    have : (x * Real.cos θ + y * Real.sin θ) ^ 2 + (y * Real.cos θ - x * Real.sin θ) ^ 2 = 1 := by
      linear_combination (Real.cos θ ^ 2 + Real.sin θ ^ 2) * hxy + hθ
    rw [h] at this; linarith
  rcases sq_eq_sq_iff_eq_or_eq_neg.1 hs with h2 | h2
  · refine ⟨true, ?_, ?_⟩
    · simp only [if_true]; rw [Real.cos_add, ← h, ← h2]; linear_combination -x * hθ
    · simp only [if_true]; rw [Real.sin_add, ← h, ← h2]; linear_combination -y * hθ
  · refine ⟨false, ?_, ?_⟩
    · simp only [Bool.false_eq_true, if_false]
      rw [Real.cos_add, Real.cos_neg, Real.sin_neg, ← h, ← h2]; linear_combination -x * hθ
    · simp only [Bool.false_eq_true, if_false]
      rw [Real.sin_add, Real.cos_neg, Real.sin_neg, ← h, ← h2]; linear_combination -y * hθ

section
variable {E : RSEnv} (hC : ClampSpec E.clamp) (hr0 : 0 < E.radius)
include hC hr0

/-- Turn-turn-turn: any motion is matched, part by part, by one of the two computed solutions. -/
theorem ccc_unique (a m b : Circ) (start goal : Pose) (o1 : a.ori ≠ m.ori) (o2 : m.ori ≠ b.ori)
    {t1 t2 t3 : ℝ} (h1 : 0 < t1) (h2 : 0 < t2) (h3 : 0 < t3)
    (hg : SameConfig (driveAll E.radius start
      [(.turn a.ori a.dir, t1), (.turn m.ori m.dir, t2), (.turn b.ori b.dir, t3)]) goal)
    (hD : 0 < eucl (turnCentre E.radius a.ori start) (turnCentre E.radius b.ori goal)) :
    eucl (turnCentre E.radius a.ori start) (turnCentre E.radius b.ori goal) ≤ 4 * E.radius ∧
    ∃ p a' m' b', tangentialCircle E p (initA E start a) (m.setRadius E.radius) (initZ E goal b) =
        (a', m', b') ∧
      a'.radius = E.radius ∧ m'.radius = E.radius ∧ b'.radius = E.radius ∧
      a'.dir = a.dir ∧ m'.dir = m.dir ∧ b'.dir = b.dir ∧
      |a'.arc| ≤ t1 ∧ |m'.arc| ≤ t2 ∧ |b'.arc| ≤ t3 := by
  set A := initA E start a with hA
  set M := m.setRadius E.radius with hM
  set B := initZ E goal b with hB
  have eA : A.center = turnCentre E.radius a.ori start := pairFor_eq E a.ori start
  have eB : B.center = turnCentre E.radius b.ori goal := pairFor_eq E b.ori goal
  have rA : A.radius = E.radius := rfl
  set V := B.center - A.center with hV
  have hlen : eucl (turnCentre E.radius a.ori start) (turnCentre E.radius b.ori goal) = V.length := by
    rw [← eA, ← eB, hV, length_sub_comm]; unfold P2.length eucl dist2; simp
  rw [hlen] at hD ⊢
  simp only [driveAll] at hg
  set G1 := drive E.radius start (.turn a.ori a.dir) t1 with hG1
  set G2 := drive E.radius G1 (.turn m.ori m.dir) t2 with hG2
  -- displacement of the circles along the motion
  have k1 : turnCentre E.radius a.ori G1 = A.center := by rw [hG1, turnCentre_turn, eA]
  have k2 : turnCentre E.radius m.ori G2 = turnCentre E.radius m.ori G1 := by
    rw [hG2, turnCentre_turn]
  have k3 : turnCentre E.radius b.ori G2 = B.center := by
    rw [eB, ← turnCentre_same hg, turnCentre_turn]
  obtain ⟨x1, y1⟩ := centre_switch E.radius a.ori m.ori G1
  obtain ⟨x2, y2⟩ := centre_switch E.radius m.ori b.ori G2
  rw [k1] at x1 y1
  rw [k2, k3] at x2 y2
  have s1 := oriSign_ne o1
  have s2 := oriSign_ne o2
  rw [s2, s1] at x2 y2
  rw [s1] at x1 y1
  set σ := oriSign a.ori with hσ
  have hσσ : σ * σ = 1 := oriSign_sq a.ori
  have vx : V.x = 2 * σ * E.radius * (Real.sin G1.theta - Real.sin G2.theta) := by
    rw [hV, P2.sub_x]; linear_combination x1 + x2
  have vy : V.y = 2 * σ * E.radius * (Real.cos G2.theta - Real.cos G1.theta) := by
    rw [hV, P2.sub_y]; linear_combination y1 + y2
  have c1 := Real.sin_sq_add_cos_sq G1.theta
  have c2 := Real.sin_sq_add_cos_sq G2.theta
  have px := polar_x V
  have py := polar_y V
  have hll : V.length ^ 2 = V.x ^ 2 + V.y ^ 2 := by
    have := Real.sin_sq_add_cos_sq V.angle
    rw [px, py]; linear_combination -V.length ^ 2 * this
  -- the direction to the middle circle
  have hdot : (σ * Real.sin G1.theta) * Real.cos V.angle + (-(σ * Real.cos G1.theta)) * Real.sin V.angle =
      (V.length / 2) / (2 * E.radius) := by
    have e : V.length * ((σ * Real.sin G1.theta) * Real.cos V.angle +
        (-(σ * Real.cos G1.theta)) * Real.sin V.angle) * (4 * E.radius) = V.length * V.length := by
      have : V.length * ((σ * Real.sin G1.theta) * Real.cos V.angle +
        (-(σ * Real.cos G1.theta)) * Real.sin V.angle) =
          σ * (Real.sin G1.theta * V.x - Real.cos G1.theta * V.y) := by rw [px, py]; ring
      rw [this, ← pow_two, hll, vx, vy]
      linear_combination (8 * E.radius ^ 2 * (Real.sin G1.theta * (Real.sin G1.theta - Real.sin G2.theta) -
        Real.cos G1.theta * (Real.cos G2.theta - Real.cos G1.theta)) - 4 * E.radius ^ 2 *
        ((Real.sin G1.theta - Real.sin G2.theta) ^ 2 + (Real.cos G2.theta - Real.cos G1.theta) ^ 2)) * hσσ
        + 4 * E.radius ^ 2 * (c1 - c2)
    have hr := hr0.ne'
    have hv := hD.ne'
    field_simp
    have e' : V.length * (((σ * Real.sin G1.theta) * Real.cos V.angle +
        (-(σ * Real.cos G1.theta)) * Real.sin V.angle) * (4 * E.radius)) = V.length * V.length := by
      linarith
    have := mul_left_cancel₀ hv e'
    linarith
  have hunit : (σ * Real.sin G1.theta) ^ 2 + (-(σ * Real.cos G1.theta)) ^ 2 = 1 := by
    linear_combination (Real.sin G1.theta ^ 2 + Real.cos G1.theta ^ 2) * hσσ + c1
  have hle : V.length ≤ 4 * E.radius := by
    have hθ := Real.sin_sq_add_cos_sq V.angle
    have h0 : (V.length / 2) / (2 * E.radius) ≤ 1 := by
      rw [← hdot]
      nlinarith [sq_nonneg (σ * Real.sin G1.theta - Real.cos V.angle),
        sq_nonneg (-(σ * Real.cos G1.theta) - Real.sin V.angle)]
    rw [div_le_one (by linarith)] at h0
    linarith
  refine ⟨hle, ?_⟩
  set γ := Real.arccos ((V.length / 2) / (2 * A.radius)) with hγ
  have hcosγ : Real.cos γ = (V.length / 2) / (2 * E.radius) := by
    rw [hγ, Real.cos_arccos, rA]
    · have : 0 ≤ (V.length / 2) / (2 * A.radius) := by rw [rA]; positivity
      linarith
    · rw [rA, div_le_one (by linarith)]; linarith
  obtain ⟨p, w1, w2⟩ := pick_side hunit (hdot.trans hcosγ.symm)
  obtain ⟨kS, kM, kE, f1, f2, f3⟩ := tangentialCircle_keep E p A M B
  obtain ⟨z1, z2⟩ := tangentialCircle_end hC p A M B hr0
  obtain ⟨_, _, j1, j2⟩ := tangentialCircle_join hC p A M B hr0 rfl rfl hD hle
  have j1 := j1 o1
  have j2 := j2 o2
  rcases hT : tangentialCircle E p A M B with ⟨a', m', b'⟩
  rw [hT] at kS kM kE f1 f2 f3 z1 z2 j1 j2
  simp only at kS kM kE f1 f2 f3 z1 z2 j1 j2
  obtain ⟨sA, ra, oA, dA, cA⟩ := initA_start hC hr0 start a a' kS
  obtain ⟨sB, rb, oB, dB, cB⟩ := initZ_goal hC hr0 goal b b' kE
  have rm : m'.radius = E.radius := kM.radius
  have om : m'.ori = m.ori := kM.ori
  have dm : m'.dir = m.dir := kM.dir
  refine ⟨p, a', m', b', hT, ra, rm, rb, dA, dm, dB, ?_⟩
  -- first arc
  obtain ⟨u1, u2⟩ := confAt_trig a' a'.aEnd
  rw [oA, z2, ← w2] at u1
  rw [oA, z1, ← w1] at u2
  have u1' : Real.cos G1.theta = Real.cos (a'.confAt a'.aEnd).theta := by
    rw [u1]; linear_combination -Real.cos G1.theta * hσσ
  have u2' : Real.sin G1.theta = Real.sin (a'.confAt a'.aEnd).theta := by
    rw [u2]; linear_combination -Real.sin G1.theta * hσσ
  rw [← dA, ← oA] at hG1
  obtain ⟨q1, q2⟩ := step_unique hC ra f1 (q := start) (t := t1) sA h1 (by rw [← hG1]; exact u1')
    (by rw [← hG1]; exact u2')
  rw [← hG1] at q2
  -- second arc
  have q3 := q2.trans j1
  have hm2 : turnCentre E.radius b.ori (m'.confAt m'.aEnd) = B.center := by
    rw [turnCentre_same j2, ← oB, ← rb, turnCentre_confAt, cB, ← eB]
  have hm1 : turnCentre E.radius m.ori (m'.confAt m'.aEnd) = turnCentre E.radius m.ori G1 := by
    rw [turnCentre_same q3, ← om, ← rm, turnCentre_confAt, turnCentre_confAt]
  obtain ⟨x3, y3⟩ := centre_switch E.radius m.ori b.ori (m'.confAt m'.aEnd)
  rw [hm1, hm2, s2, s1] at x3 y3
  have hne : (2 * σ * E.radius) ≠ 0 := by
    have : σ ≠ 0 := by intro h; rw [h] at hσσ; norm_num at hσσ
    have := hr0.ne'
    positivity
  have v1 : Real.cos G2.theta = Real.cos (m'.confAt m'.aEnd).theta := by
    apply mul_left_cancel₀ hne; linear_combination y3 - y2
  have v2 : Real.sin G2.theta = Real.sin (m'.confAt m'.aEnd).theta := by
    apply mul_left_cancel₀ hne; linear_combination x2 - x3
  rw [← dm, ← om] at hG2
  obtain ⟨q4, q5⟩ := step_unique hC rm f2 (q := G1) (t := t2) q3 h2 (by rw [← hG2]; exact v1)
    (by rw [← hG2]; exact v2)
  rw [← hG2] at q5
  -- third arc
  rw [← oB, ← dB] at hg
  exact ⟨q1, q4, step_last hC rb f3 (q5.trans j2) h3 hg sB⟩

end

end PathPlanning.RS
