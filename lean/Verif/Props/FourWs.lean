import Verif.Model.FourWs
import Verif.Props.Collision

/-!
# C90: the four-wheel-steering simulator
-/

namespace PathPlanning.FourWs

noncomputable section

/-! ### One bot -/

/-- C90: every update moves the bot by exactly the commanded distance. -/
theorem update_moves (b : Bot) (d : ℝ) :
    ((b.update d).x - b.x) ^ 2 + ((b.update d).y - b.y) ^ 2 = d ^ 2 := by
  simp only [Bot.update]
  set a := b.theta + b.dtheta d / 2 + (b.beta + b.nbeta) / 2
  have := Real.sin_sq_add_cos_sq a
  calc (b.x + d * Real.cos a - b.x) ^ 2 + (b.y + d * Real.sin a - b.y) ^ 2
      = d ^ 2 * (Real.sin a ^ 2 + Real.cos a ^ 2) := by ring
    _ = d ^ 2 := by rw [this, mul_one]

/-- An update does not change the steering and the wheel base. -/
theorem update_keeps (b : Bot) (d : ℝ) :
    (b.update d).deltaf = b.deltaf ∧ (b.update d).deltar = b.deltar ∧ (b.update d).l = b.l ∧
      (b.update d).nbeta = b.nbeta := ⟨rfl, rfl, rfl, rfl⟩

/-- The slip angle fits the steering angles; true after every update. -/
def Settled (b : Bot) : Prop := b.beta = b.nbeta

theorem update_settled (b : Bot) (d : ℝ) : Settled (b.update d) := rfl

/-- Turn per update of a settled bot. -/
theorem update_dtheta {b : Bot} (h : Settled b) (d e : ℝ) : (b.update d).dtheta e = b.dtheta e := by
  unfold Settled at h
  simp only [Bot.dtheta, Bot.update]
  rw [h]

/-- C90: with both axles steered alike the bot keeps its orientation and drives straight on in the
direction of the wheels. -/
theorem crab {b : Bot} (h : Settled b) (hd : b.deltaf = b.deltar) (d : ℝ) (n : Nat) :
    ((fun b => Bot.update b d)^[n] b).theta = b.theta ∧
      ((fun b => Bot.update b d)^[n] b).x = b.x + n * d * Real.cos (b.theta + b.beta) ∧
      ((fun b => Bot.update b d)^[n] b).y = b.y + n * d * Real.sin (b.theta + b.beta) ∧
      Settled ((fun b => Bot.update b d)^[n] b) ∧
      ((fun b => Bot.update b d)^[n] b).beta = b.beta ∧
      ((fun b => Bot.update b d)^[n] b).deltaf = ((fun b => Bot.update b d)^[n] b).deltar := by
  induction n with
  | zero => simp [h, hd]
  | succ n ih =>
    rw [Function.iterate_succ_apply']
    set c := (fun b => Bot.update b d)^[n] b
    obtain ⟨h1, h2, h3, h4, h5, h6⟩ := ih
    have t0 : c.dtheta d = 0 := by simp [Bot.dtheta, h6]
    have e : c.theta + c.dtheta d / 2 + (c.beta + c.nbeta) / 2 = b.theta + b.beta := by
      unfold Settled at h4
      rw [t0, ← h4, h1, h5]
      ring
    refine ⟨?_, ?_, ?_, update_settled _ _, ?_, h6⟩
    · simp [Bot.update, t0, h1]
    · simp only [Bot.update]
      rw [e, h2]
      push_cast
      ring
    · simp only [Bot.update]
      rw [e, h3]
      push_cast
      ring
    · unfold Settled at h4
      simp only [Bot.update]
      rw [← h4, h5]

/-- Radius of the circle on which a settled bot moves. -/
def radius (b : Bot) (d : ℝ) : ℝ := d / (2 * Real.sin (b.dtheta d / 2))

/-- Centre of this circle: to the left of the direction of motion. -/
def centre (b : Bot) (d : ℝ) : ℝ × ℝ :=
  (b.x - radius b d * Real.sin (b.theta + b.beta), b.y + radius b d * Real.cos (b.theta + b.beta))

theorem centre_update {b : Bot} (h : Settled b) {d : ℝ} (hs : Real.sin (b.dtheta d / 2) ≠ 0) :
    centre (b.update d) d = centre b d := by
  have hr : radius (b.update d) d = radius b d := by simp only [radius, update_dtheta h]
  have h' : b.nbeta = b.beta := h.symm
  set p := b.dtheta d with hp
  have e1 : Real.sin (b.theta + p + b.beta) - Real.sin (b.theta + b.beta) =
      2 * Real.sin (p / 2) * Real.cos (b.theta + p / 2 + b.beta) := by
    rw [Real.sin_sub_sin]
    congr 2 <;> [congr 1; skip] <;> ring_nf
  have e2 : Real.cos (b.theta + p + b.beta) - Real.cos (b.theta + b.beta) =
      -(2 * Real.sin (p / 2) * Real.sin (b.theta + p / 2 + b.beta)) := by
    rw [Real.cos_sub_cos]
    have a1 : (b.theta + p + b.beta + (b.theta + b.beta)) / 2 = b.theta + p / 2 + b.beta := by ring
    have a2 : (b.theta + p + b.beta - (b.theta + b.beta)) / 2 = p / 2 := by ring
    rw [a1, a2]
    ring
  have hR : radius b d * (2 * Real.sin (p / 2)) = d := by
    unfold radius
    rw [← hp]
    field_simp
  have a3 : b.theta + p / 2 + (b.beta + b.nbeta) / 2 = b.theta + p / 2 + b.beta := by rw [h']; ring
  unfold centre
  rw [hr]
  simp only [Bot.update]
  rw [← hp, a3, h', Prod.mk.injEq]
  constructor
  · linear_combination (-radius b d) * e1 - Real.cos (b.theta + p / 2 + b.beta) * hR
  · linear_combination (radius b d) * e2 - Real.sin (b.theta + p / 2 + b.beta) * hR

/-- C90: with constant steering a bot moves on a circle: after any number of updates it is at the
same distance from the same centre, and it turns by the same angle in every update. -/
theorem circular {b : Bot} (h : Settled b) {d : ℝ} (hs : Real.sin (b.dtheta d / 2) ≠ 0) (n : Nat) :
    (((fun b => Bot.update b d)^[n] b).x - (centre b d).1) ^ 2 +
      (((fun b => Bot.update b d)^[n] b).y - (centre b d).2) ^ 2 = radius b d ^ 2 ∧
    ((fun b => Bot.update b d)^[n] b).theta = b.theta + n * b.dtheta d := by
  have key : Settled ((fun b => Bot.update b d)^[n] b) ∧
      ((fun b => Bot.update b d)^[n] b).dtheta d = b.dtheta d ∧
      centre ((fun b => Bot.update b d)^[n] b) d = centre b d ∧
      ((fun b => Bot.update b d)^[n] b).theta = b.theta + n * b.dtheta d := by
    induction n with
    | zero => simp [h]
    | succ n ih =>
      rw [Function.iterate_succ_apply']
      obtain ⟨h1, h2, h3, h4⟩ := ih
      refine ⟨update_settled _ _, by rw [update_dtheta h1, h2], ?_, ?_⟩
      · rw [centre_update h1 (by rw [h2]; exact hs), h3]
      · show _ + _ = _
        rw [h2, h4]
        push_cast
        ring
  obtain ⟨-, h2, h3, h4⟩ := key
  refine ⟨?_, h4⟩
  rw [← h3]
  set c := (fun b => Bot.update b d)^[n] b
  have hr : radius c d = radius b d := by simp only [radius, h2]
  simp only [centre]
  rw [hr]
  have := Real.sin_sq_add_cos_sq (c.theta + c.beta)
  linear_combination (radius b d ^ 2) * this

/-- C90: the radius is never smaller than that of the vehicle model, wheel base divided by
`cos β (tan δf - tan δr)`. -/
theorem radius_ge {b : Bot} (hl : 0 < b.l) {d : ℝ} (hd : 0 < d) (hs : Real.sin (b.dtheta d / 2) ≠ 0) :
    b.l / |Real.cos b.beta * (Real.tan b.deltaf - Real.tan b.deltar)| ≤ |radius b d| := by
  set k := Real.cos b.beta * (Real.tan b.deltaf - Real.tan b.deltar) with hk
  have hp : b.dtheta d = k * d / b.l := rfl
  have hk0 : k ≠ 0 := by
    rintro h0
    apply hs
    rw [hp, h0]
    simp
  have h1 : |Real.sin (b.dtheta d / 2)| ≤ |b.dtheta d / 2| := Real.abs_sin_le_abs
  have h2 : |b.dtheta d / 2| = |k| * d / b.l / 2 := by
    rw [hp, abs_div, abs_div, abs_mul, abs_of_pos hd, abs_of_pos hl, abs_two]
  have h3 : 0 < |Real.sin (b.dtheta d / 2)| := abs_pos.2 hs
  have hkp : 0 < |k| := abs_pos.2 hk0
  have hden : |2 * Real.sin (b.dtheta d / 2)| = 2 * |Real.sin (b.dtheta d / 2)| := by
    rw [abs_mul, abs_two]
  rw [radius, abs_div, hden, abs_of_pos hd, div_le_div_iff₀ hkp (by positivity)]
  rw [h2] at h1
  have : |Real.sin (b.dtheta d / 2)| * b.l * 2 ≤ |k| * d := by
    have := mul_le_mul_of_nonneg_right h1 (by positivity : 0 ≤ b.l * 2)
    calc |Real.sin (b.dtheta d / 2)| * b.l * 2 = |Real.sin (b.dtheta d / 2)| * (b.l * 2) := by ring
      _ ≤ |k| * d / b.l / 2 * (b.l * 2) := this
      _ = |k| * d := by field_simp
  nlinarith

/-! ### The simulation -/

/-- The eleven steering angles `-20°, -16°, ..., 20°`. -/
def Allowed (a : ℝ) : Prop := ∃ k : Nat, k ≤ 10 ∧ a = ((k : ℝ) - 5) * (4 * Real.pi / 180)

theorem steerAngle_allowed (r : Nat) : Allowed (steerAngle r) := by
  refine ⟨r % 11, by omega, ?_⟩
  simp only [steerAngle, deltaStep, deltaMax, deltaSteps]
  push_cast
  ring

theorem allowed_range {a : ℝ} (h : Allowed a) : |a| ≤ 20 * Real.pi / 180 := by
  obtain ⟨k, hk, rfl⟩ := h
  have h1 : (k : ℝ) ≤ 10 := by exact_mod_cast hk
  have h2 : (0 : ℝ) ≤ k := Nat.cast_nonneg _
  rw [abs_le]
  constructor <;> nlinarith [Real.pi_pos]

/-- Every steering angle that is drawn can be reached. -/
theorem steerAngle_onto {k : Nat} (hk : k ≤ 10) : steerAngle k = ((k : ℝ) - 5) * (4 * Real.pi / 180) := by
  have : k % 11 = k := Nat.mod_eq_of_lt (by omega)
  simp only [steerAngle, deltaStep, deltaMax, deltaSteps, this]
  push_cast
  ring

/-- What holds for every bot after `n` steps. -/
def BotOk (n : Nat) (b : Bot) : Prop :=
  Allowed b.deltaf ∧ Allowed b.deltar ∧ b.l = 1 / 2 ∧ b.x ^ 2 + b.y ^ 2 ≤ ((n : ℝ) / 10) ^ 2

theorem botOk_new : BotOk 0 Bot.new :=
  ⟨⟨5, by norm_num, by simp [Bot.new]⟩, ⟨5, by norm_num, by simp [Bot.new]⟩, rfl, by simp [Bot.new]⟩

theorem botOk_update {n : Nat} {b : Bot} (h : BotOk n b) : BotOk (n + 1) (b.update (speed * tStep)) := by
  obtain ⟨h1, h2, h3, h4⟩ := h
  refine ⟨h1, h2, h3, ?_⟩
  simp only [Bot.update, speed, tStep]
  set a := b.theta + b.dtheta (1 * (1 / 10)) / 2 + (b.beta + b.nbeta) / 2
  have hs := Real.sin_sq_add_cos_sq a
  have hn : (0 : ℝ) ≤ n / 10 := by positivity
  have hc : b.x * Real.cos a + b.y * Real.sin a ≤ n / 10 := by
    refine abs_le_of_sq_le_sq' ?_ hn |>.2
    have : (b.x * Real.cos a + b.y * Real.sin a) ^ 2 ≤
        (b.x ^ 2 + b.y ^ 2) * (Real.sin a ^ 2 + Real.cos a ^ 2) := by
      nlinarith [sq_nonneg (b.x * Real.sin a - b.y * Real.cos a)]
    rw [hs, mul_one] at this
    exact this.trans h4
  push_cast
  nlinarith

theorem botOk_steer {n : Nat} {b : Bot} (h : BotOk n b) (r : Nat × Nat) :
    BotOk n { b with deltaf := steerAngle r.1, deltar := steerAngle r.2 } :=
  ⟨steerAngle_allowed _, steerAngle_allowed _, h.2.2.1, h.2.2.2⟩

theorem pixel_ok {n : Nat} (hn : n ≤ 1000000000) {b : Bot} (h : BotOk n b) :
    pixel b = .ok (truncC (b.x / mapRes + 500), truncC (b.y / mapRes + 500)) := by
  have h4 := h.2.2.2
  have hn' : (n : ℝ) ≤ 1000000000 := by exact_mod_cast hn
  have hn0 : (0 : ℝ) ≤ n := Nat.cast_nonneg _
  have hx : |b.x| ≤ n / 10 := by
    refine abs_le_of_sq_le_sq (by nlinarith [sq_nonneg b.y]) (by positivity)
  have hy : |b.y| ≤ n / 10 := by
    refine abs_le_of_sq_le_sq (by nlinarith [sq_nonneg b.x]) (by positivity)
  have bound : ∀ z : ℝ, |z| ≤ n / 10 → |z / mapRes + 500| ≤ 2000000000 := by
    intro z hz
    rw [abs_le] at hz ⊢
    simp only [mapRes]
    constructor <;> linarith
  simp [pixel, castI_defined (bound _ hx), castI_defined (bound _ hy)]

/-- The pixel lies in the image. -/
def InImage (p : Int × Int) : Prop := 0 ≤ p.1 ∧ p.1 < 1000 ∧ 0 ≤ p.2 ∧ p.2 < 1000

theorem updateMap_spec : ∀ {bots : List Bot} {img : Int → Int → Bool},
    (∀ b ∈ bots, ∃ p, pixel b = .ok p) →
    ∃ img', updateMap bots img = .ok img' ∧ ∀ r c, img' r c = true ↔ img r c = true ∨
      (InImage (r, c) ∧ ∃ b ∈ bots, pixel b = .ok (r, c))
  | [], img, _ => ⟨img, rfl, by simp⟩
  | b :: bs, img, h => by
    obtain ⟨p, hp⟩ := h b (by simp)
    have h' : ∀ b ∈ bs, ∃ p, pixel b = .ok p := fun b hb => h b (List.mem_cons_of_mem _ hb)
    by_cases hi : 0 ≤ p.1 ∧ p.1 < mapSize ∧ 0 ≤ p.2 ∧ p.2 < mapSize
    · obtain ⟨img', e, hs⟩ := updateMap_spec (img := fun r c => if r = p.1 ∧ c = p.2 then true
        else img r c) h'
      refine ⟨img', ?_, fun r c => ?_⟩
      · rw [updateMap, hp]
        simp only [CRes.ok_bind]
        rw [if_pos hi]
        exact e
      rw [hs]
      by_cases hrc : r = p.1 ∧ c = p.2
      · obtain ⟨rfl, rfl⟩ := hrc
        simp only [and_self, if_true, true_or, true_iff]
        exact Or.inr ⟨by simpa [InImage, mapSize] using hi, b, by simp, hp⟩
      · simp only [hrc, if_false]
        refine or_congr_right (and_congr_right fun _ => ?_)
        constructor
        · rintro ⟨x, hx, e⟩
          exact ⟨x, List.mem_cons_of_mem _ hx, e⟩
        · rintro ⟨x, hx, e⟩
          rcases List.mem_cons.1 hx with rfl | hx
          · rw [hp] at e
            cases e
            exact absurd ⟨rfl, rfl⟩ hrc
          · exact ⟨x, hx, e⟩
    · obtain ⟨img', e, hs⟩ := updateMap_spec (img := img) h'
      refine ⟨img', ?_, fun r c => ?_⟩
      · rw [updateMap, hp]
        simp only [CRes.ok_bind]
        rw [if_neg hi]
        exact e
      rw [hs]
      refine or_congr_right (and_congr_right fun hin => ?_)
      constructor
      · rintro ⟨x, hx, e⟩
        exact ⟨x, List.mem_cons_of_mem _ hx, e⟩
      · rintro ⟨x, hx, e⟩
        rcases List.mem_cons.1 hx with rfl | hx
        · rw [hp] at e
          cases e
          exact absurd (by simpa [InImage, mapSize] using hin) hi
        · exact ⟨x, hx, e⟩

theorem change_iff (k : Nat) : tChange / tStep < (k : ℝ) ↔ 11 ≤ k := by
  have : tChange / tStep = ((10 : Nat) : ℝ) := by norm_num [tChange, tStep]
  rw [this, Nat.cast_lt]
  omega

/-- The bots before the motion of a step. -/
def steered (s : Sim) (rnd : Nat → Nat × Nat) : List Bot :=
  if 11 ≤ s.count + 1 then randomize rnd s.bots else s.bots

theorem steered_ok {n : Nat} {s : Sim} (h : ∀ b ∈ s.bots, BotOk n b) (rnd : Nat → Nat × Nat) :
    ∀ b ∈ steered s rnd, BotOk n b := by
  intro b hb
  unfold steered at hb
  split at hb
  · obtain ⟨i, hi, rfl⟩ := List.mem_mapIdx.1 hb
    exact botOk_steer (h _ (List.getElem_mem _)) _
  · exact h b hb

/-- One step, in terms of the bots. -/
theorem step_spec {n : Nat} (hn : n < 1000000000) {s : Sim} (h : ∀ b ∈ s.bots, BotOk n b)
    (rnd : Nat → Nat × Nat) :
    ∃ s', s.step rnd = .ok s' ∧ s'.bots = (steered s rnd).map (fun b => b.update (speed * tStep)) ∧
      (∀ b ∈ s'.bots, BotOk (n + 1) b) ∧ s'.bots.length = s.bots.length ∧
      s'.count = (if 11 ≤ s.count + 1 then 0 else s.count + 1) ∧ s'.t = s.t + 1 / 10 ∧
      ∀ r c, s'.black r c = true ↔ s.black r c = true ∨
        (InImage (r, c) ∧ ∃ b ∈ s'.bots, pixel b = .ok (r, c)) := by
  set bots := (steered s rnd).map (fun b => b.update (speed * tStep)) with hb
  have hok : ∀ b ∈ bots, BotOk (n + 1) b := by
    intro b hm
    obtain ⟨c, hc, rfl⟩ := List.mem_map.1 hm
    exact botOk_update (steered_ok h rnd c hc)
  obtain ⟨img, e, hs⟩ := updateMap_spec (bots := bots) (img := s.black)
    fun b hm => ⟨_, pixel_ok (by omega) (hok b hm)⟩
  refine ⟨⟨bots, s.t + tStep, if 11 ≤ s.count + 1 then 0 else s.count + 1, img⟩, ?_, rfl, hok, ?_, rfl,
    by simp [tStep], hs⟩
  · unfold Sim.step
    by_cases hc : 11 ≤ s.count + 1
    · have hc' : tChange / tStep < ((s.count + 1 : Nat) : ℝ) := (change_iff _).2 hc
      have e' : updateMap ((randomize rnd s.bots).map fun b => b.update (speed * tStep)) s.black = .ok img := by
        rw [← e, hb, steered, if_pos hc]
      simp only [if_pos hc', if_pos hc, e', CRes.ok_bind, CRes.pure_eq, hb, steered]
    · have hc' : ¬tChange / tStep < ((s.count + 1 : Nat) : ℝ) := fun h => hc ((change_iff _).1 h)
      have e' : updateMap (s.bots.map fun b => b.update (speed * tStep)) s.black = .ok img := by
        rw [← e, hb, steered, if_neg hc]
      simp only [if_neg hc', if_neg hc, e', CRes.ok_bind, CRes.pure_eq, hb, steered]
  · show bots.length = _
    rw [hb, List.length_map, steered]
    split
    · simp [randomize]
    · rfl

theorem new_bots : ∀ b ∈ Sim.new.bots, BotOk 0 b := by
  intro b hb
  simp only [Sim.new, Sim.reset, Sim.setNumBots, List.take_nil, List.nil_append] at hb
  rw [List.eq_of_mem_replicate hb]
  exact botOk_new

theorem new_length : Sim.new.bots.length = 1000 := by
  simp only [Sim.new, Sim.reset, Sim.setNumBots, List.length_append, List.length_take, List.length_nil,
    List.length_replicate]
  norm_num

theorem new_count : Sim.new.count = 0 := rfl

/-- C90: The simulation runs for at least a billion steps (over three years of simulated time) without
undefined behaviour, whatever the random numbers are; then every bot has one of the eleven steering
angles between -20° and 20° on each axle, and it is not farther from the start than the distance
driven. -/
theorem run_spec (rnd : Nat → Nat → Nat × Nat) (n : Nat) (hn : n ≤ 1000000000) :
    ∃ s, Sim.new.run rnd n = .ok s ∧ s.bots.length = 1000 ∧ (∀ b ∈ s.bots, BotOk n b) ∧
      s.count = n % 11 ∧ s.t = (n : ℝ) / 10 := by
  induction n with
  | zero => exact ⟨Sim.new, rfl, new_length, new_bots, rfl, by simp [Sim.new, Sim.reset]⟩
  | succ n ih =>
    obtain ⟨s, e, hl, hb, hc, ht⟩ := ih (by omega)
    obtain ⟨s', e', -, hb', hl', hc', ht', -⟩ := step_spec (by omega) hb (rnd n)
    refine ⟨s', by simp [Sim.run, e, e'], by rw [hl', hl], hb', ?_, ?_⟩
    · rw [hc', hc]
      split <;> omega
    · rw [ht', ht]
      push_cast
      ring

/-- C90: The steering angles change in every eleventh step only (after 1.1 s, not after the configured
1.0 s). -/
theorem steering_held (rnd : Nat → Nat → Nat × Nat) (n : Nat) (hn : n < 1000000000)
    (h11 : (n + 1) % 11 ≠ 0) {s s' : Sim} (e : Sim.new.run rnd n = .ok s)
    (e' : Sim.new.run rnd (n + 1) = .ok s') :
    s'.bots.map (fun b => (b.deltaf, b.deltar)) = s.bots.map fun b => (b.deltaf, b.deltar) := by
  obtain ⟨s1, e1, hl, hb, hc, -⟩ := run_spec rnd n (by omega)
  rw [e] at e1
  cases e1
  obtain ⟨s2, e2, hbots, -⟩ := step_spec hn hb (rnd n)
  have : Sim.new.run rnd (n + 1) = .ok s2 := by simp [Sim.run, e, e2]
  rw [e'] at this
  cases this
  rw [hbots, steered, if_neg (by omega), List.map_map]
  rfl

/-- C90: In every eleventh step the steering angles of all bots are drawn anew. -/
theorem steering_drawn (rnd : Nat → Nat → Nat × Nat) (n : Nat) (hn : n < 1000000000)
    (h11 : (n + 1) % 11 = 0) {s' : Sim} (e' : Sim.new.run rnd (n + 1) = .ok s') (i : Nat)
    (hi : i < s'.bots.length) :
    s'.bots[i].deltaf = steerAngle (rnd n i).1 ∧ s'.bots[i].deltar = steerAngle (rnd n i).2 := by
  obtain ⟨s, e, hl, hb, hc, -⟩ := run_spec rnd n (by omega)
  obtain ⟨s2, e2, hbots, -⟩ := step_spec hn hb (rnd n)
  have : Sim.new.run rnd (n + 1) = .ok s2 := by simp [Sim.run, e, e2]
  rw [e'] at this
  cases this
  have hst : steered s (rnd n) = randomize (rnd n) s.bots := by
    rw [steered, if_pos (by omega)]
  have : s'.bots = (randomize (rnd n) s.bots).map (fun b => b.update (speed * tStep)) := by
    rw [hbots, hst]
  simp [this, randomize, Bot.update]

/-- C90: The image is black exactly where some bot has been at the end of some step. -/
theorem image_spec (rnd : Nat → Nat → Nat × Nat) (n : Nat) (hn : n ≤ 1000000000) {s : Sim}
    (e : Sim.new.run rnd n = .ok s) (r c : Int) :
    s.black r c = true ↔ InImage (r, c) ∧ ∃ k, 1 ≤ k ∧ k ≤ n ∧ ∃ sk, Sim.new.run rnd k = .ok sk ∧
      ∃ b ∈ sk.bots, pixel b = .ok (r, c) := by
  induction n generalizing s with
  | zero =>
    simp only [Sim.run, CRes.ok.injEq] at e
    subst e
    constructor
    · intro h; simp [Sim.new, Sim.reset] at h
    · rintro ⟨-, k, h1, h2, -⟩; omega
  | succ n ih =>
    obtain ⟨s0, e0, hl, hb, -⟩ := run_spec rnd n (by omega)
    obtain ⟨s1, e1, -, -, -, -, -, hs⟩ := step_spec (by omega) hb (rnd n)
    have e2 : Sim.new.run rnd (n + 1) = .ok s1 := by simp [Sim.run, e0, e1]
    have : s1 = s := by rw [e] at e2; cases e2; rfl
    subst this
    rw [hs, ih (by omega) e0]
    constructor
    · rintro (⟨hi, k, h1, h2, h3⟩ | ⟨hi, b, hb, hp⟩)
      · exact ⟨hi, k, h1, by omega, h3⟩
      · exact ⟨hi, n + 1, by omega, le_rfl, s1, e, b, hb, hp⟩
    · rintro ⟨hi, k, h1, h2, sk, hk, b, hb, hp⟩
      by_cases hkn : k ≤ n
      · exact Or.inl ⟨hi, k, h1, hkn, sk, hk, b, hb, hp⟩
      · have : k = n + 1 := by omega
        subst this
        rw [e] at hk
        cases hk
        exact Or.inr ⟨hi, b, hb, hp⟩

/-- C90: The pixel of a bot: the row is given by x, the column by y, ten pixels per metre, the start in
the middle; row and column 0 also get what is up to one pixel outside the image. -/
theorem pixel_meaning {b : Bot} {p : Int × Int} (h : pixel b = .ok p) (hi : InImage p) :
    (1 ≤ p.1 → (p.1 : ℝ) ≤ b.x * 10 + 500 ∧ b.x * 10 + 500 < p.1 + 1) ∧
      (p.1 = 0 → -1 < b.x * 10 + 500 ∧ b.x * 10 + 500 < 1) ∧
      (1 ≤ p.2 → (p.2 : ℝ) ≤ b.y * 10 + 500 ∧ b.y * 10 + 500 < p.2 + 1) ∧
      (p.2 = 0 → -1 < b.y * 10 + 500 ∧ b.y * 10 + 500 < 1) := by
  have one : ∀ (z : ℝ) (q : Int), castI (z / mapRes + 500) = .ok q → 0 ≤ q →
      (1 ≤ q → (q : ℝ) ≤ z * 10 + 500 ∧ z * 10 + 500 < q + 1) ∧
      (q = 0 → -1 < z * 10 + 500 ∧ z * 10 + 500 < 1) := by
    intro z q e h0
    have hq := castI_ok e
    have ez : z / mapRes + 500 = z * 10 + 500 := by
      have : mapRes = 1 / 10 := rfl
      rw [this]; ring
    rw [ez] at hq
    unfold truncC at hq
    split at hq
    · have := (Int.floor_eq_iff.1 hq.symm)
      refine ⟨fun _ => this, fun h => ?_⟩
      subst h
      simp only [Int.cast_zero, zero_add] at this
      exact ⟨by linarith, this.2⟩
    · rename_i hneg
      push Not at hneg
      have := (Int.ceil_eq_iff.1 hq.symm)
      refine ⟨fun h1 => ?_, fun h => ?_⟩
      · have h1' : (1 : ℝ) ≤ q := by exact_mod_cast h1
        linarith [this.1, this.2]
      · subst h
        simp only [Int.cast_zero, zero_sub] at this
        exact ⟨this.1, by linarith⟩
  unfold pixel at h
  obtain ⟨x, hx, h⟩ := CRes.bind_eq_ok.1 h
  obtain ⟨y, hy, h⟩ := CRes.bind_eq_ok.1 h
  cases h
  obtain ⟨a1, a2⟩ := one b.x x hx hi.1
  obtain ⟨b1, b2⟩ := one b.y y hy hi.2.2.1
  exact ⟨a1, a2, b1, b2⟩

/-- C90, finding: `reset` clears the picture but leaves the bots where they are. -/
theorem reset_keeps_bots (s : Sim) : s.reset.bots = s.bots ∧ (∀ r c, s.reset.black r c = false) ∧
    s.reset.count = 0 := ⟨rfl, fun _ _ => rfl, rfl⟩

/-- C90: changing the number of bots keeps those that remain and adds bots at the start. -/
theorem setNumBots_spec (s : Sim) (n i : Nat) :
    (s.setNumBots n).bots.length = n ∧
      (∀ b, i < n → s.bots[i]? = some b → (s.setNumBots n).bots[i]? = some b) ∧
      (s.bots.length ≤ i → i < n → (s.setNumBots n).bots[i]? = some Bot.new) := by
  simp only [Sim.setNumBots]
  refine ⟨by simp; omega, ?_, ?_⟩
  · intro b hi hb
    have hlt : i < s.bots.length := by
      by_contra hc
      rw [List.getElem?_eq_none (by omega)] at hb
      simp at hb
    rw [List.getElem?_append_left (by simp; omega), List.getElem?_take_of_lt hi, hb]
  · intro h1 h2
    rw [List.getElem?_append_right (by simp; omega), List.getElem?_replicate_of_lt]
    simp; omega

/-- C90: the speed is limited to 1.5, and a speed within the limit is kept. -/
theorem setSpeed_spec (v : ℝ) : |setSpeed v| ≤ 3 / 2 ∧ (|v| ≤ 3 / 2 → setSpeed v = v) ∧
    (3 / 2 < v → setSpeed v = 3 / 2) ∧ (v < -(3 / 2) → setSpeed v = -(3 / 2)) := by
  unfold setSpeed
  refine ⟨?_, ?_, ?_, ?_⟩
  · simp only
    rw [abs_le]
    split_ifs <;> constructor <;> linarith
  · intro h
    rw [abs_le] at h
    have h1 : (if 3 / 2 < v then 3 / 2 else v) = v := if_neg (by linarith [h.2])
    simp only [h1]
    exact if_neg (by linarith [h.1])
  · intro h
    have h1 : (if 3 / 2 < v then 3 / 2 else v) = 3 / 2 := if_pos h
    simp only [h1]
    norm_num
  · intro h
    have h1 : (if 3 / 2 < v then 3 / 2 else v) = v := if_neg (by linarith)
    simp only [h1]
    exact if_pos h

/-- A settled bot that turns: front wheels at 45°, rear wheels at -45°, radius `d / (2 sin 2d)`. -/
example : Settled ⟨0, 0, 0, 0, Real.pi / 4, -(Real.pi / 4), 1 / 2⟩ ∧
    Real.sin (Bot.dtheta ⟨0, 0, 0, 0, Real.pi / 4, -(Real.pi / 4), 1 / 2⟩ (1 / 10) / 2) ≠ 0 := by
  have e : Bot.dtheta ⟨0, 0, 0, 0, Real.pi / 4, -(Real.pi / 4), 1 / 2⟩ (1 / 10) / 2 = 1 / 5 := by
    simp [Bot.dtheta, Real.tan_neg]
    norm_num
  refine ⟨by simp [Settled, Bot.nbeta, Real.tan_neg], ?_⟩
  rw [e]
  exact (Real.sin_pos_of_pos_of_lt_pi (by norm_num) (by linarith [Real.pi_gt_three])).ne'

end
end PathPlanning.FourWs
