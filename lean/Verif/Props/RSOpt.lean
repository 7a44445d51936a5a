import Verif.Props.RSFree
import Verif.Props.RSHistory
import Verif.Spec.RSOpt

/-!
# C67: no cheaper motion follows a pattern

Uniqueness of the motions that follow a pattern between two poses.
-/

noncomputable section

namespace PathPlanning.RS
open Spec

theorem turnCentre_turn (r : ℝ) (o : Ori) (d : Dir) (q : Pose) (t : ℝ) :
    turnCentre r o (drive r q (.turn o d) t) = turnCentre r o q := by
  ext <;> simp only [turnCentre, Spec.drive] <;> ring

theorem turnCentre_same {r : ℝ} {o : Ori} {p q : Pose} (h : SameConfig p q) :
    turnCentre r o p = turnCentre r o q := by
  have hc := h.cos
  have hs := h.sin
  obtain ⟨hx, hy, _⟩ := h
  ext <;> simp only [turnCentre, hx, hy, hc, hs]

theorem turnCentre_confAt (c : Circ) (a : ℝ) : turnCentre c.radius c.ori (c.confAt a) = c.center := by
  cases h : c.ori <;> ext <;>
    simp only [turnCentre, Circ.confAt, h, oriSign, one_mul, neg_one_mul, neg_mul, ← sub_eq_add_neg,
      Real.sin_add_pi_div_two, Real.cos_add_pi_div_two, Real.sin_sub_pi_div_two,
      Real.cos_sub_pi_div_two] <;> ring

theorem oriSign_sq (o : Ori) : oriSign o * oriSign o = 1 := by cases o <;> norm_num [oriSign]
theorem dirSign_sq (o : Dir) : dirSign o * dirSign o = 1 := by cases o <;> norm_num [dirSign]
theorem oriSign_ne {o o' : Ori} (h : o ≠ o') : oriSign o' = -oriSign o := by
  cases o <;> cases o' <;> first | exact absurd rfl h | norm_num [oriSign]

/-- A vector with two perpendicular parts along and across a heading determines the heading. -/
theorem heading_unique {A κ h h' : ℝ} (hne : A ^ 2 + κ ^ 2 ≠ 0)
    (hx : A * Real.cos h - κ * Real.sin h = A * Real.cos h' - κ * Real.sin h')
    (hy : A * Real.sin h + κ * Real.cos h = A * Real.sin h' + κ * Real.cos h') :
    Real.cos h = Real.cos h' ∧ Real.sin h = Real.sin h' := by
  constructor
  · apply mul_left_cancel₀ hne
    linear_combination A * hx + κ * hy
  · apply mul_left_cancel₀ hne
    linear_combination A * hy - κ * hx

theorem two_pi_le {t a : ℝ} {k : Int} (ht : 0 < t) (ha : a ≤ 2 * Real.pi)
    (h : t = a + k * (2 * Real.pi)) : a ≤ t := by
  have hpi := Real.pi_pos
  have hk : (-1 : ℝ) < k := by
    by_contra hh; push Not at hh
    have := mul_le_mul_of_nonneg_right hh (by linarith : (0 : ℝ) ≤ 2 * Real.pi)
    linarith
  have hk' : -1 < k := by exact_mod_cast hk
  have : (0 : ℝ) ≤ k := by exact_mod_cast (by omega : 0 ≤ k)
  have := mul_nonneg this (by linarith : (0 : ℝ) ≤ 2 * Real.pi)
  linarith

section
variable {E : RSEnv} (hC : ClampSpec E.clamp)
include hC

/-- A turn of positive angle from the start of an arc that ends with the heading of the end of the arc
ends in the same configuration, and is at least as long as the arc. -/
theorem step_unique {c : Circ} (hr : c.radius = E.radius) (hf : c.Fit E) {q : Pose} {t : ℝ}
    (hq : SameConfig q (c.confAt c.aStart)) (ht : 0 < t)
    (hc : Real.cos (drive E.radius q (.turn c.ori c.dir) t).theta = Real.cos (c.confAt c.aEnd).theta)
    (hs : Real.sin (drive E.radius q (.turn c.ori c.dir) t).theta = Real.sin (c.confAt c.aEnd).theta) :
    |c.arc| ≤ t ∧ SameConfig (drive E.radius q (.turn c.ori c.dir) t) (c.confAt c.aEnd) := by
  have hd := hq.drive E.radius (.turn c.ori c.dir) t
  have hd' : SameConfig (drive E.radius q (.turn c.ori c.dir) t)
      (c.confAt (c.aStart + oriSign c.ori * dirSign c.dir * t)) := by
    rw [← c.drive_confAt, hr]; exact hd
  rw [hd'.cos] at hc
  rw [hd'.sin] at hs
  obtain ⟨k, hk⟩ := angle_cong hc hs
  simp only [Circ.confAt] at hk
  have hk' : c.aStart + oriSign c.ori * dirSign c.dir * t = c.aEnd + k * (2 * Real.pi) := by linarith
  refine ⟨?_, hd'.trans (c.confAt_congr ?_ ?_)⟩
  · obtain ⟨⟨j, hj⟩, _, _⟩ := computeArc_spec hC c
    obtain ⟨h1, h2⟩ := computeArc_signed hC c
    rw [← hf.1] at hj h1 h2
    set w := oriSign c.ori * dirSign c.dir with hw
    have hww : w * w = 1 := by
      rw [hw]; linear_combination dirSign c.dir ^ 2 * oriSign_sq c.ori + dirSign_sq c.dir
    have hone : w = 1 ∨ w = -1 := by
      rw [hw]; cases c.ori <;> cases c.dir <;> norm_num [oriSign, dirSign]
    have key : w * t = w * |c.arc| + (k - j) * (2 * Real.pi) := by
      rw [← h1]; linarith
    rcases hone with h | h
    · rw [h] at key
      exact two_pi_le (k := k - j) ht h2 (by push_cast; linarith)
    · rw [h] at key
      exact two_pi_le (k := j - k) ht h2 (by push_cast; linarith)
  · rw [hk', Real.cos_add_int_mul_two_pi]
  · rw [hk', Real.sin_add_int_mul_two_pi]

/-- The last turn: ending in the end configuration is enough. -/
theorem step_last {c : Circ} (hr : c.radius = E.radius) (hf : c.Fit E) {q goal : Pose} {t : ℝ}
    (hq : SameConfig q (c.confAt c.aStart)) (ht : 0 < t)
    (hg : SameConfig (drive E.radius q (.turn c.ori c.dir) t) goal)
    (he : SameConfig goal (c.confAt c.aEnd)) : |c.arc| ≤ t :=
  (step_unique hC hr hf hq ht (hg.trans he).cos (hg.trans he).sin).1

end

/-- The displacement of turning circles over a straight. -/
theorem centre_straight (r : ℝ) (o o' : Ori) (d : Dir) (q : Pose) (L : ℝ) :
    (turnCentre r o' (drive r q (.straight d) L)).x - (turnCentre r o q).x =
      dirSign d * L * Real.cos q.theta - (oriSign o' - oriSign o) * r * Real.sin q.theta ∧
    (turnCentre r o' (drive r q (.straight d) L)).y - (turnCentre r o q).y =
      dirSign d * L * Real.sin q.theta + (oriSign o' - oriSign o) * r * Real.cos q.theta := by
  constructor <;> simp only [turnCentre, Spec.drive] <;> ring

/-- The displacement of turning circles at a change of side. -/
theorem centre_switch (r : ℝ) (o o' : Ori) (q : Pose) :
    (turnCentre r o' q).x - (turnCentre r o q).x = -((oriSign o' - oriSign o) * r * Real.sin q.theta) ∧
    (turnCentre r o' q).y - (turnCentre r o q).y = (oriSign o' - oriSign o) * r * Real.cos q.theta := by
  constructor <;> simp only [turnCentre] <;> ring

/-- Two straights between the same turning circles have the same heading and length. -/
theorem straight_unique {r : ℝ} {o o' : Ori} {d : Dir} {p q : Pose} {L M : ℝ} (hL : 0 ≤ L) (hM : 0 ≤ M)
    (ha : turnCentre r o p = turnCentre r o q)
    (hb : turnCentre r o' (drive r p (.straight d) L) = turnCentre r o' (drive r q (.straight d) M))
    (hne : turnCentre r o p ≠ turnCentre r o' (drive r p (.straight d) L)) :
    L = M ∧ Real.cos p.theta = Real.cos q.theta ∧ Real.sin p.theta = Real.sin q.theta := by
  obtain ⟨p1, p2⟩ := centre_straight r o o' d p L
  obtain ⟨q1, q2⟩ := centre_straight r o o' d q M
  rw [← hb, ← ha] at q1 q2
  have hcp := Real.sin_sq_add_cos_sq p.theta
  have hcq := Real.sin_sq_add_cos_sq q.theta
  have hd := dirSign_sq d
  have hx0 : (turnCentre r o' (drive r p (.straight d) L)).x - (turnCentre r o p).x ≠ 0 ∨
      (turnCentre r o' (drive r p (.straight d) L)).y - (turnCentre r o p).y ≠ 0 := by
    by_contra hh; push Not at hh
    apply hne; ext <;> linarith [hh.1, hh.2]
  set X := (turnCentre r o' (drive r p (.straight d) L)).x - (turnCentre r o p).x with hX
  set Y := (turnCentre r o' (drive r p (.straight d) L)).y - (turnCentre r o p).y with hY
  set κ := (oriSign o' - oriSign o) * r with hκ
  have n1 : X ^ 2 + Y ^ 2 = L ^ 2 + κ ^ 2 := by
    rw [p1, p2]
    linear_combination (dirSign d ^ 2 * L ^ 2 + κ ^ 2) * hcp + L ^ 2 * hd
  have n2 : X ^ 2 + Y ^ 2 = M ^ 2 + κ ^ 2 := by
    rw [q1, q2]
    linear_combination (dirSign d ^ 2 * M ^ 2 + κ ^ 2) * hcq + M ^ 2 * hd
  have hLM : L = M := by
    have : L ^ 2 = M ^ 2 := by linarith
    exact (sq_eq_sq₀ hL hM).1 this
  subst hLM
  refine ⟨rfl, heading_unique (A := dirSign d * L) (κ := κ) ?_ (p1.symm.trans q1) (p2.symm.trans q2)⟩
  have : (dirSign d * L) ^ 2 + κ ^ 2 = X ^ 2 + Y ^ 2 := by
    rw [n1]; linear_combination L ^ 2 * hd
  rw [this]
  rcases hx0 with h | h
  · have := sq_nonneg Y; have := sq_pos_of_ne_zero h; linarith
  · have := sq_nonneg X; have := sq_pos_of_ne_zero h; linarith

section
variable {E : RSEnv} (hC : ClampSpec E.clamp) (hr0 : 0 < E.radius)
include hC hr0

theorem initA_start (start : Pose) (a a' : Circ) (k : KeepS (initA E start a) a') :
    SameConfig start (a'.confAt a'.aStart) ∧ a'.radius = E.radius ∧ a'.ori = a.ori ∧ a'.dir = a.dir ∧
      a'.center = turnCentre E.radius a.ori start := by
  refine ⟨pair_conf hC start a' k.radius ?_ ?_, k.radius, k.ori, k.dir, ?_⟩
  · rw [k.center, k.ori]; rfl
  · rw [k.aStart, k.ori]; rfl
  · rw [k.center]; exact pairFor_eq E a.ori start

theorem initZ_goal (goal : Pose) (a a' : Circ) (k : KeepE (initZ E goal a) a') :
    SameConfig goal (a'.confAt a'.aEnd) ∧ a'.radius = E.radius ∧ a'.ori = a.ori ∧ a'.dir = a.dir ∧
      a'.center = turnCentre E.radius a.ori goal := by
  refine ⟨pair_conf hC goal a' k.radius ?_ ?_, k.radius, k.ori, k.dir, ?_⟩
  · rw [k.center, k.ori]; rfl
  · rw [k.aEnd, k.ori]; rfl
  · rw [k.center]; exact pairFor_eq E a.ori goal

/-- Turn-straight-turn: the computed curve is at most as long, part by part, as any motion. -/
theorem csc_unique (a b : Circ) (l : Lin) (start goal : Pose) {t1 L t3 : ℝ} (h1 : 0 < t1) (hL : 0 ≤ L)
    (h3 : 0 < t3)
    (hg : SameConfig (driveAll E.radius start
      [(.turn a.ori a.dir, t1), (.straight l.dir, L), (.turn b.ori b.dir, t3)]) goal)
    (hD : 2 * E.radius ≤ eucl (turnCentre E.radius a.ori start) (turnCentre E.radius b.ori goal)) :
    ∃ a' l' b', commonTangent E (initA E start a) l (initZ E goal b) = some (a', l', b') ∧
      a'.radius = E.radius ∧ b'.radius = E.radius ∧ a'.dir = a.dir ∧ b'.dir = b.dir ∧ l'.dir = l.dir ∧
      |a'.arc| ≤ t1 ∧ eucl l'.start.pt l'.stop.pt = L ∧ |b'.arc| ≤ t3 := by
  obtain ⟨j1, j2⟩ := commonTangent_join hC (initA E start a) l (initZ E goal b) rfl hr0
  cases hct : commonTangent E (initA E start a) l (initZ E goal b) with
  | none =>
    exfalso
    have := j1.1 hct
    have e1 : (initA E start a).center = turnCentre E.radius a.ori start := pairFor_eq E a.ori start
    have e2 : (initZ E goal b).center = turnCentre E.radius b.ori goal := pairFor_eq E b.ori goal
    have e3 : (initA E start a).radius = E.radius := rfl
    have e4 : (initZ E goal b).radius = E.radius := rfl
    rw [e1, e2, e3, e4] at this
    linarith
  | some r =>
    obtain ⟨a', l', b'⟩ := r
    have hj := j2 a' l' b' hct
    obtain ⟨kS, kE, hdir, fa, fb, _⟩ := commonTangent_keep hct
    obtain ⟨sA, rA, oA, dA, cA⟩ := initA_start hC hr0 start a a' kS
    obtain ⟨sB, rB, oB, dB, cB⟩ := initZ_goal hC hr0 goal b b' kE
    refine ⟨a', l', b', rfl, rA, rB, dA, dB, hdir, ?_⟩
    simp only [driveAll] at hg
    set G1 := drive E.radius start (.turn a.ori a.dir) t1 with hG1
    set G2 := drive E.radius G1 (.straight l.dir) L with hG2
    have ha : turnCentre E.radius a.ori G1 = turnCentre E.radius a.ori (a'.confAt a'.aEnd) := by
      rw [hG1, turnCentre_turn, ← oA, ← rA, turnCentre_confAt, cA, oA, rA]
    have hb2 : turnCentre E.radius b.ori G2 = turnCentre E.radius b.ori goal := by
      rw [← turnCentre_same hg, turnCentre_turn]
    have hjd : SameConfig (drive E.radius (a'.confAt a'.aEnd) (.straight l.dir)
        (eucl l'.start.pt l'.stop.pt)) (b'.confAt b'.aStart) := by
      have := hj.drive; rw [rA, hdir] at this; exact this
    have hb : turnCentre E.radius b.ori G2 = turnCentre E.radius b.ori
        (drive E.radius (a'.confAt a'.aEnd) (.straight l.dir) (eucl l'.start.pt l'.stop.pt)) := by
      rw [turnCentre_same hjd, hb2, ← oB, ← rB, turnCentre_confAt, cB, oB, rB]
    have hne : turnCentre E.radius a.ori G1 ≠ turnCentre E.radius b.ori G2 := by
      rw [hb2, hG1, turnCentre_turn]
      intro hh
      rw [hh] at hD
      have : eucl (turnCentre E.radius b.ori goal) (turnCentre E.radius b.ori goal) = 0 := by
        unfold eucl dist2; simp
      linarith
    obtain ⟨eL, ec, es⟩ := straight_unique hL (Real.sqrt_nonneg _) ha hb hne
    rw [← dA, ← oA] at hG1
    obtain ⟨s1, s2⟩ := step_unique hC rA fa (q := start) (t := t1) sA h1 (by rw [← hG1]; exact ec)
      (by rw [← hG1]; exact es)
    rw [← hG1] at s2
    have s3 : SameConfig G2 (b'.confAt b'.aStart) := by
      have := s2.drive E.radius (.straight l.dir) L
      rw [hG2]
      refine this.trans ?_
      rw [eL]; exact hjd
    refine ⟨s1, eL.symm, ?_⟩
    rw [← oB, ← dB] at hg
    exact step_last hC rB fb s3 h3 hg sB

end

end PathPlanning.RS
