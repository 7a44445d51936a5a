import Verif.Props.FourWs

/-!
# C90: rolling without slipping, the first second
-/

namespace PathPlanning.FourWs

noncomputable section

/-- C90: the wheels roll without slipping.  In the frame of the vehicle its reference point, half-way between the axles, moves in the
direction `beta`; with the turn per distance `w` of an update the velocity of the front axle (half a wheel base ahead) is along the front
wheels and the velocity of the rear axle along the rear wheels. -/
theorem no_slip {b : Bot} (h : Settled b) {d : ℝ} (hd : d ≠ 0) (hl : b.l ≠ 0) (hf : Real.cos b.deltaf ≠ 0)
    (hr : Real.cos b.deltar ≠ 0) :
    Real.cos b.beta * Real.sin b.deltaf =
      (Real.sin b.beta + ((b.update d).theta - b.theta) / d * (b.l / 2)) * Real.cos b.deltaf ∧
    Real.cos b.beta * Real.sin b.deltar =
      (Real.sin b.beta - ((b.update d).theta - b.theta) / d * (b.l / 2)) * Real.cos b.deltar := by
  have hb : Real.tan b.beta = 1 / 2 * (Real.tan b.deltaf + Real.tan b.deltar) := by
    rw [h, Bot.nbeta, Real.tan_arctan]
  have hc : Real.cos b.beta ≠ 0 := by
    rw [h, Bot.nbeta]
    exact (Real.cos_arctan_pos _).ne'
  have hs : Real.sin b.beta = Real.cos b.beta * Real.tan b.beta := by
    rw [Real.tan_eq_sin_div_cos]
    field_simp
  have hw : ((b.update d).theta - b.theta) / d * (b.l / 2) =
      Real.cos b.beta * (1 / 2 * (Real.tan b.deltaf - Real.tan b.deltar)) := by
    simp only [Bot.update, Bot.dtheta]
    field_simp
    ring
  have e1 : Real.sin b.deltaf = Real.tan b.deltaf * Real.cos b.deltaf := by
    rw [Real.tan_eq_sin_div_cos]
    field_simp
  have e2 : Real.sin b.deltar = Real.tan b.deltar * Real.cos b.deltar := by
    rw [Real.tan_eq_sin_div_cos]
    field_simp
  rw [hw, hs, hb, e1, e2]
  constructor <;> ring

/-- C90: with both axles steered alike the direction of motion is that of the wheels, after every update. -/
theorem crab_direction (b : Bot) (hd : b.deltaf = b.deltar) (h1 : -(Real.pi / 2) < b.deltaf) (h2 : b.deltaf < Real.pi / 2) (d : ℝ) :
    (b.update d).beta = b.deltaf := by
  simp only [Bot.update, Bot.nbeta]
  rw [← hd]
  have : 1 / 2 * (Real.tan b.deltaf + Real.tan b.deltaf) = Real.tan b.deltaf := by ring
  rw [this, Real.arctan_tan h1 h2]

/-- Both axles steered alike by a quarter of a right angle: a settled bot. -/
example : ∃ b : Bot, Settled b ∧ b.l ≠ 0 ∧ Real.cos b.deltaf ≠ 0 ∧ Real.cos b.deltar ≠ 0 ∧ b.deltaf ≠ b.deltar := by
  refine ⟨⟨0, 0, 0, Real.arctan (1 / 2 * (Real.tan (Real.pi / 4) + Real.tan 0)), Real.pi / 4, 0, 1 / 2⟩, rfl, by norm_num, ?_, ?_, ?_⟩
  · simp only; rw [Real.cos_pi_div_four]; positivity
  · simp
  · simp only; positivity

/-- C90: a new simulator drives all its 1000 bots straight along the x-axis for its first ten steps (a second). -/
theorem first_second (rnd : Nat → Nat → Nat × Nat) : ∀ n, n ≤ 10 → ∃ s, Sim.new.run rnd n = .ok s ∧ s.count = n ∧
    s.t = n / 10 ∧ s.bots = List.replicate 1000 ⟨n / 10, 0, 0, 0, 0, 0, 1 / 2⟩ := by
  intro n
  induction n with
  | zero =>
    intro _
    refine ⟨Sim.new, rfl, rfl, by simp [Sim.new, Sim.reset], ?_⟩
    rw [show (⟨((0 : Nat) : ℝ) / 10, 0, 0, 0, 0, 0, 1 / 2⟩ : Bot) = Bot.new from by simp [Bot.new]]
    simp only [Sim.new, Sim.reset, Sim.setNumBots, List.take_nil, List.nil_append, List.length_nil, Nat.sub_zero]
  | succ n ih =>
    intro hn
    obtain ⟨s, h1, h2, h3, h4⟩ := ih (by omega)
    obtain ⟨s0, e0, -, hb, -⟩ := run_spec rnd n (by omega)
    rw [h1] at e0
    cases e0
    obtain ⟨s', e1, -⟩ := step_spec (by omega) hb (rnd n)
    have hrun : Sim.new.run rnd (n + 1) = .ok s' := by simp [Sim.run, h1, e1]
    refine ⟨s', hrun, ?_⟩
    unfold Sim.step at e1
    have hnc : ¬ (tChange / tStep < ((s.count + 1 : Nat) : ℝ)) := by
      rw [change_iff]; omega
    simp only [if_neg hnc] at e1
    rw [CRes.bind_eq_ok] at e1
    obtain ⟨img, -, e1⟩ := e1
    cases e1
    refine ⟨by simp only; omega, ?_, ?_⟩
    · simp only [tStep]
      rw [h3]
      push_cast
      ring
    · simp only
      rw [h4, List.map_replicate]
      congr 1
      simp only [Bot.update, Bot.dtheta, Bot.nbeta, speed, tStep]
      simp only [Real.tan_zero, add_zero, mul_zero, Real.arctan_zero, sub_zero, zero_mul, zero_div, Real.cos_zero, Real.sin_zero, mul_one]
      push_cast
      congr 1
      ring

end

end PathPlanning.FourWs
