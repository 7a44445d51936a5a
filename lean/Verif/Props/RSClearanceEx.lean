import Verif.Props.RSClearance
import Verif.Props.RSOpt4
import Mathlib.Tactic.IntervalCases

/-!
# C100, finding: an accepted curve runs through an occupied cell
-/

noncomputable section

namespace PathPlanning.RS
open Spec

/-- The pattern `LSL` between two poses where the second is straight ahead of the first: both turns are
empty and the straight leads from the first pose to the second. -/
theorem straight_ahead {E : RSEnv} (hE : E.Sane) (start goal : Pose) (D : ℝ) (hD : 2 * E.radius ≤ D)
    (hx : goal.x = start.x + D * Real.cos start.theta) (hy : goal.y = start.y + D * Real.sin start.theta)
    (hth : goal.theta = start.theta) :
    ∃ a l b, commonTangent E (initA E start (Circ.new .left .fwd)) (Lin.new .fwd)
        (initZ E goal (Circ.new .left .fwd)) = some (a, l, b) ∧
      a.arc = 0 ∧ b.arc = 0 ∧ l.start.pt = start.pt ∧ l.stop.pt = goal.pt ∧ l.dir = .fwd ∧
      a.ori = .left ∧ a.dir = .fwd ∧ b.ori = .left ∧ b.dir = .fwd ∧
      a.radius = E.radius ∧ b.radius = E.radius ∧
      a.center = ⟨start.x - E.radius * Real.sin start.theta, start.y + E.radius * Real.cos start.theta⟩ ∧
      b.center = ⟨goal.x - E.radius * Real.sin goal.theta, goal.y + E.radius * Real.cos goal.theta⟩ := by
  have hr := hE.radius
  have hr0 : 0 < E.radius := by linarith
  have hD0 : 0 < D := by linarith
  set A := initA E start (Circ.new .left .fwd) with hA
  set Z := initZ E goal (Circ.new .left .fwd) with hZ
  have cA : A.center = ⟨start.x - E.radius * Real.sin start.theta,
      start.y + E.radius * Real.cos start.theta⟩ := by
    have := pairFor_eq E .left start
    simp only [oriSign, one_mul] at this
    rw [← this]; rfl
  have cZ : Z.center = ⟨goal.x - E.radius * Real.sin goal.theta,
      goal.y + E.radius * Real.cos goal.theta⟩ := by
    have := pairFor_eq E .left goal
    simp only [oriSign, one_mul] at this
    rw [← this]; rfl
  have rA : A.radius = E.radius := rfl
  have rZ : Z.radius = E.radius := rfl
  have hdist : eucl A.center Z.center = D := by
    refine eucl_of_diff (u := Real.cos start.theta) (w := Real.sin start.theta) hD0.le ?_ ?_
      (by have := Real.sin_sq_add_cos_sq start.theta; linarith)
    · rw [cA, cZ]; simp only; rw [hx, hth]; ring
    · rw [cA, cZ]; simp only; rw [hy, hth]; ring
  obtain ⟨j1, j2⟩ := commonTangent_join hE.clamp A (Lin.new .fwd) Z rfl hr0
  have hlen : (A.center - Z.center).length = eucl A.center Z.center := by
    unfold P2.length eucl dist2; simp
  have hct : commonTangent E A (Lin.new .fwd) Z = some (externalTangent E A (Lin.new .fwd) Z) := by
    unfold commonTangent
    rw [if_neg (by rw [hlen, hdist, rA, rZ]; linarith), if_pos (show A.ori = Z.ori from rfl)]
  have hj : LineJoin (externalTangent E A (Lin.new .fwd) Z).1 (externalTangent E A (Lin.new .fwd) Z).2.1
      (externalTangent E A (Lin.new .fwd) Z).2.2 := j2 _ _ _ hct
  obtain ⟨kS, kE, kd, fa, fb, _⟩ := commonTangent_keep hct
  set T := externalTangent E A (Lin.new .fwd) Z with hT
  -- the direction from centre to centre
  have hv : (Z.center - A.center).length = D := by
    have : (Z.center - A.center).length = eucl Z.center A.center := by
      unfold P2.length eucl dist2; simp
    rw [this, eucl_comm, hdist]
  have tc : Real.cos (Z.center - A.center).angle = Real.cos start.theta := by
    have := polar_x (Z.center - A.center)
    rw [hv, cA, cZ] at this
    simp only [P2.sub_x] at this
    rw [hx, hth] at this
    have h2 : D * (Real.cos (Z.center - A.center).angle - Real.cos start.theta) = 0 := by
      rw [cA, cZ]; rw [hx, hth]; linarith
    rcases mul_eq_zero.1 h2 with h | h
    · linarith
    · linarith
  have ts : Real.sin (Z.center - A.center).angle = Real.sin start.theta := by
    have := polar_y (Z.center - A.center)
    rw [hv, cA, cZ] at this
    simp only [P2.sub_y] at this
    rw [hy, hth] at this
    have h2 : D * (Real.sin (Z.center - A.center).angle - Real.sin start.theta) = 0 := by
      rw [cA, cZ]; rw [hy, hth]; linarith
    rcases mul_eq_zero.1 h2 with h | h
    · linarith
    · linarith
  have eEnd : T.1.aEnd = E.clamp (Circ.angleFor .left (Z.center - A.center).angle) := rfl
  have eStart : T.1.aStart = E.clamp (Circ.angleFor .left start.theta) := rfl
  have zStart : T.2.2.aStart = E.clamp (Circ.angleFor .left (Z.center - A.center).angle) := rfl
  have zEnd : T.2.2.aEnd = E.clamp (Circ.angleFor .left goal.theta) := rfl
  have t1 := angleFor_trig hE.clamp .left (Z.center - A.center).angle
  have t2 := angleFor_trig hE.clamp .left start.theta
  have arc0 : ∀ c : Circ, c.Fit E → c.ori = .left → c.dir = .fwd → Real.cos c.aEnd = Real.cos c.aStart →
      Real.sin c.aEnd = Real.sin c.aStart → c.arc = 0 := by
    intro c hf ho hd hc hs
    obtain ⟨k', hk'⟩ := angle_cong hc hs
    obtain ⟨⟨k, hk⟩, h1, _⟩ := computeArc_spec hE.clamp c
    obtain ⟨h3, h4⟩ := h1 (by rw [ho, hd]; norm_num [oriSign, dirSign])
    rw [hf.1]
    have hpi := Real.pi_pos
    have e : (c.computeArc E).arc = ((k + k' : Int) : ℝ) * (2 * Real.pi) := by
      rw [hk, hk']; push_cast; ring
    rw [e] at h3 h4 ⊢
    have u1 : (0 : ℝ) ≤ ((k + k' : Int) : ℝ) := by
      by_contra hlt; push Not at hlt; nlinarith
    have u2 : ((k + k' : Int) : ℝ) < 1 := by
      by_contra hlt; push Not at hlt; nlinarith
    have u3 : (0 : Int) ≤ k + k' := by exact_mod_cast u1
    have u4 : k + k' < (1 : Int) := by exact_mod_cast u2
    have : k + k' = 0 := by omega
    rw [this]; simp
  refine ⟨T.1, T.2.1, T.2.2, hct, ?_, ?_, ?_, ?_, kd, kS.ori, kS.dir, kE.ori, kE.dir, kS.radius, kE.radius,
    kS.center.trans cA, kE.center.trans cZ⟩
  · refine arc0 _ fa kS.ori kS.dir ?_ ?_
    · rw [eEnd, eStart, t1.1, t2.1, ts]
    · rw [eEnd, eStart, t1.2, t2.2, tc]
  · refine arc0 _ fb kE.ori kE.dir ?_ ?_
    · rw [zEnd, zStart, t1.1, hth, t2.1, ts]
    · rw [zEnd, zStart, t1.2, hth, t2.2, tc]
  · rw [hj.startPt]
    unfold Circ.endPoint
    rw [show T.1.center = A.center from kS.center, show T.1.radius = A.radius from kS.radius, cA, rA, eEnd]
    ext
    · simp only [P2.add_x, P2.fromPolar, Pose.pt]; rw [t1.1, ts]; simp [oriSign]; ring
    · simp only [P2.add_y, P2.fromPolar, Pose.pt]; rw [t1.2, tc]; simp [oriSign]; ring
  · rw [hj.stopPt]
    unfold Circ.startPoint
    rw [show T.2.2.center = Z.center from kE.center, show T.2.2.radius = Z.radius from kE.radius, cZ, rZ,
      zStart]
    ext
    · simp only [P2.add_x, P2.fromPolar, Pose.pt]; rw [t1.1, ts, hth]; simp [oriSign]; ring
    · simp only [P2.add_y, P2.fromPolar, Pose.pt]; rw [t1.2, tc, hth]; simp [oriSign]; ring

/-- A map of 32 by 32 cells of size 1 whose only occupied cell is (15,14). -/
def cornerMap : MapIf :=
  ⟨fun x y => decide (0 ≤ x ∧ x < 32 ∧ 0 ≤ y ∧ y < 32), fun x y => decide (¬ (x = 15 ∧ y = 14)),
    fun _ _ => 0, 1⟩

/-- The cells of the digital circle of radius 2 are within two rows and columns of its centre. -/
theorem ring_two {c p : Int × Int} (h : RingCell 2 c p) : |p.1 - c.1| ≤ 2 ∧ |p.2 - c.2| ≤ 2 := by
  unfold RingCell at h
  simp only at h
  obtain ⟨h1, _⟩ := h
  have hb : 0 ≤ min |p.1 - c.1| |p.2 - c.2| := le_min (abs_nonneg _) (abs_nonneg _)
  have ha : max |p.1 - c.1| |p.2 - c.2| ≤ 2 := by
    by_contra hlt; push Not at hlt
    nlinarith
  exact ⟨(le_max_left _ _).trans ha, (le_max_right _ _).trans ha⟩

/-- A turn of radius 2 whose neighbourhood is in the map and away from the occupied cell is accepted. -/
theorem corner_circ {E : RSEnv} (hm : E.map = cornerMap) (hr : E.radius = 2) (hu : E.useMapCost = false)
    (c : Circ) (hcr : c.radius = E.radius) (harc : c.arc = 0)
    (x y : Int) (hx : truncC c.center.x = x) (hy : truncC c.center.y = y)
    (h1 : 2 ≤ x ∧ x + 2 < 32 ∧ 2 ≤ y ∧ y + 2 < 32) (h2 : x + 2 < 15 ∨ 15 < x - 2) :
    c.weight E = 0 := by
  have hR : truncC c.radius = 2 := by
    rw [hcr, hr, truncC_nonneg (by norm_num)]
    exact Int.floor_eq_iff.2 ⟨by norm_num, by norm_num⟩
  obtain ⟨cells, _, _, hs⟩ := checkCircle_spec x y 2 (by norm_num)
  obtain ⟨r, e, h4, _⟩ := hs E c
  have hr' : r.1 = true := by
    rw [h4]
    intro p hp
    obtain ⟨p1, p2⟩ := ring_two hp
    obtain ⟨q1, q2⟩ := abs_le.1 p1
    obtain ⟨q3, q4⟩ := abs_le.1 p2
    simp only at q1 q2 q3 q4
    rw [hm]
    simp only [cornerMap, decide_eq_true_eq]
    exact ⟨by omega, fun _ => Or.inr (by omega)⟩
  unfold Circ.weight
  rw [hx, hy, hR, e]
  simp only [Option.getD_some, hr', Bool.or_true, if_true, hu, Bool.false_eq_true, if_false, Circ.length,
    harc, abs_zero, zero_mul]

/-- **C100, finding.** `find_path` — default settings, maximum arc 13, the pattern `LSL` — returns a curve
from (10.9, 10.1) to (19.9, 19.1), both heading 45 degrees, whose motion is the straight between them; its
point (15.4, 14.6) lies in the only occupied cell of the map. -/
theorem corner_cut (clamp : ℝ → ℝ) (g : Gen)
    (hg : Gen.parse { maxArc := some 13 } "LSL".toList = .ok (false, g))
    (hE : (g.env clamp cornerMap false).Sane) :
    ∃ g' k, g.findPath clamp ⟨109 / 10, 101 / 10, Real.pi / 4⟩ ⟨199 / 10, 191 / 10, Real.pi / 4⟩
        cornerMap false = .ok (g', some k) ∧
      motion k = [(.turn .left .fwd, 0), (.straight .fwd, 9 * Real.sqrt 2), (.turn .left .fwd, 0)] ∧
      PtInCell (drive 2 ⟨109 / 10, 101 / 10, Real.pi / 4⟩ (.straight .fwd) (9 / 2 * Real.sqrt 2)).pt
        (15, 14) ∧
      cornerMap.inMap 15 14 = true ∧ cornerMap.free 15 14 = false := by
  have hs2 : Real.sqrt 2 * Real.sqrt 2 = 2 := Real.mul_self_sqrt (by norm_num)
  have hs0 : 0 ≤ Real.sqrt 2 := Real.sqrt_nonneg 2
  have hs3 : Real.sqrt 2 < 3 / 2 := by nlinarith
  have hs4 : 14 / 10 < Real.sqrt 2 := by nlinarith
  set c0 : Curve := { seq := [.circ (Circ.new .left .fwd), .line (Lin.new .fwd),
    .circ (Circ.new .left .fwd)] } with hc0
  have eg : Gen.parse { maxArc := some 13 } "LSL".toList = .ok (false, { maxArc := some 13, curves := [c0] }) :=
    rfl
  rw [eg] at hg
  simp only [CRes.ok.injEq, Prod.mk.injEq, true_and] at hg
  subst hg
  set start : Pose := ⟨109 / 10, 101 / 10, Real.pi / 4⟩ with hst
  set goal : Pose := ⟨199 / 10, 191 / 10, Real.pi / 4⟩ with hgo
  set g : Gen := { maxArc := some 13, curves := [c0] } with hgd
  set E := g.env clamp cornerMap false with hEd
  have hrad : E.radius = 2 := by simp [hEd, Gen.env, hgd, cornerMap]
  have hdist : eucl start.pt goal.pt = 9 * Real.sqrt 2 := by
    refine eucl_of_diff (u := Real.sqrt 2 / 2) (w := Real.sqrt 2 / 2) (by positivity) ?_ ?_ ?_
    · simp only [Pose.pt, hst, hgo]; nlinarith
    · simp only [Pose.pt, hst, hgo]; nlinarith
    · nlinarith
  obtain ⟨a, l, b, hct, a0, b0, ls, lg, ld, ao, ad, bo, bd, ar, br, ac, bc⟩ := straight_ahead hE start goal
    (9 * Real.sqrt 2) (by rw [hrad]; linarith)
    (by simp only [hst, hgo, Real.cos_pi_div_four]; nlinarith)
    (by simp only [hst, hgo, Real.sin_pi_div_four]; nlinarith) rfl
  have wa : a.weight E = 0 := by
    refine corner_circ (E := E) rfl hrad rfl a ar a0 9 11 ?_ ?_ (by norm_num) (by norm_num)
    · rw [ac, hrad]
      simp only [hst, Real.sin_pi_div_four]
      rw [truncC_nonneg (by linarith)]
      exact Int.floor_eq_iff.2 ⟨by push_cast; linarith, by push_cast; linarith⟩
    · rw [ac, hrad]
      simp only [hst, Real.cos_pi_div_four]
      rw [truncC_nonneg (by linarith)]
      exact Int.floor_eq_iff.2 ⟨by push_cast; linarith, by push_cast; linarith⟩
  have wb : b.weight E = 0 := by
    refine corner_circ (E := E) rfl hrad rfl b br b0 18 20 ?_ ?_ (by norm_num) (by norm_num)
    · rw [bc, hrad]
      simp only [hgo, Real.sin_pi_div_four]
      rw [truncC_nonneg (by linarith)]
      exact Int.floor_eq_iff.2 ⟨by push_cast; linarith, by push_cast; linarith⟩
    · rw [bc, hrad]
      simp only [hgo, Real.cos_pi_div_four]
      rw [truncC_nonneg (by linarith)]
      exact Int.floor_eq_iff.2 ⟨by push_cast; linarith, by push_cast; linarith⟩
  have l1 : l.start.x = 109 / 10 := congrArg P2.x ls
  have l2 : l.start.y = 101 / 10 := congrArg P2.y ls
  have l3 : l.stop.x = 199 / 10 := congrArg P2.x lg
  have l4 : l.stop.y = 191 / 10 := congrArg P2.y lg
  have fl : ∀ (x : ℝ) (n : Int), 0 ≤ x → (n : ℝ) ≤ x → x < n + 1 → truncC x = n := by
    intro x n h0 h1 h2
    rw [truncC_nonneg h0]; exact Int.floor_eq_iff.2 ⟨h1, h2⟩
  have wl : l.weight E = 9 * Real.sqrt 2 := by
    obtain ⟨cells, hdl, hs⟩ := lineCheck_spec 10 10 19 19
    obtain ⟨r, e, h4, _⟩ := hs E
    have hr : r.1 = true := by
      refine h4.2 (Or.inr fun p hp _ => ?_)
      show decide (¬ (p.1 = 15 ∧ p.2 = 14)) = true
      rw [decide_eq_true_eq]
      rintro ⟨p1, p2⟩
      have := hdl.near p hp
      unfold WithinHalfCell at this
      rw [p1, p2] at this
      revert this
      decide
    unfold Lin.weight
    simp only
    rw [fl l.start.x 10 (by rw [l1]; norm_num) (by rw [l1]; norm_num) (by rw [l1]; norm_num),
      fl l.start.y 10 (by rw [l2]; norm_num) (by rw [l2]; norm_num) (by rw [l2]; norm_num),
      fl l.stop.x 19 (by rw [l3]; norm_num) (by rw [l3]; norm_num) (by rw [l3]; norm_num),
      fl l.stop.y 19 (by rw [l4]; norm_num) (by rw [l4]; norm_num) (by rw [l4]; norm_num), e]
    have hin : E.map.inMap 10 10 = true := rfl
    have hu : E.useMapCost = false := rfl
    simp only [hin, Bool.not_true, Bool.false_and, Bool.false_eq_true, if_false, Option.getD_some, hr,
      Bool.or_true, if_true, hu, distOrigin_sub, ls, lg, hdist]
    simp [RSEnv.dirCost, hEd, Gen.env, hgd, ld]
  have hd : ¬ start.distTo goal < 2 := by
    rw [distTo_eq, hdist]; push Not; linarith
  -- the test of the only curve
  obtain ⟨k, hk, kseq, kw⟩ : ∃ k : Curve, Tested E start goal c0 k ∧ k.seq = [.circ a, .line l, .circ b] ∧
      k.weight = 9 * Real.sqrt 2 := by
    rcases check_shape E { c0 with start := start, goal := goal } (by simp [hc0]) hd with
      ⟨a', l', b', hs, hc'⟩ | ⟨a', m, b', hs, hc'⟩ | ⟨a', m, n, b', hs, hc'⟩ | ⟨a', s, t, b', hs, _, hc'⟩ | ⟨hb, hc'⟩
    · simp only [hc0, List.cons.injEq, Seg.circ.injEq, Seg.line.injEq, and_true] at hs
      obtain ⟨rfl, rfl, rfl⟩ := hs
      refine ⟨_, hc', ?_, ?_⟩
      · simp only; unfold handleCSC; rw [hct]
      · simp only; unfold handleCSC; rw [hct]; simp only; rw [wa, wb, wl]; ring
    · simp [hc0] at hs
    · simp [hc0] at hs
    · simp [hc0] at hs
    · rcases hb with ⟨l', r, hb⟩ | ⟨p, l', hb⟩
      · simp [hc0] at hb
      · simp only [hc0] at hb
        have := congrArg List.getLast? hb
        simp at this
  have hres : g.findPath clamp start goal cornerMap false = .ok ({ g with curves := [k] }, some k) := by
    unfold Gen.findPath
    have h1 : Curve.check E { c0 with start := start, goal := goal } = .ok k := hk
    have h2 : k.weight < NOT_FREE := by rw [kw]; unfold NOT_FREE; linarith
    have h3 : k.curveArc < 13 := by
      unfold Curve.curveArc
      rw [kseq]
      simp [a0, b0]
    simp only [hgd, findLoop, CRes.ok_bind]
    simp only [← hgd, ← hEd]
    rw [h1]
    simp only [CRes.ok_bind, h2, h3, if_true, List.nil_append, findLoop, CRes.pure_eq]
  refine ⟨_, k, hres, ?_, ?_, rfl, rfl⟩
  · unfold motion
    rw [kseq]
    simp only [List.map, elemOf, amountOf, a0, b0, abs_zero, ao, ad, bo, bd, ld, ls, lg, hdist]
  · unfold PtInCell
    simp only [Spec.drive, Pose.pt, dirSign, hst, Real.cos_pi_div_four, Real.sin_pi_div_four]
    refine ⟨?_, ?_, ?_, ?_⟩ <;> push_cast <;> nlinarith

/-- A normaliser as required exists, so `corner_cut` speaks about something. -/
example : ∃ (clamp : ℝ → ℝ) (g : Gen), Gen.parse { maxArc := some 13 } "LSL".toList = .ok (false, g) ∧
    (g.env clamp cornerMap false).Sane := by
  refine ⟨fun t => toIocMod Real.two_pi_pos (-Real.pi) t, _, rfl, ⟨⟨fun t => ?_, fun t => ?_, fun t => ?_⟩,
    fun t => ?_, ?_, ?_, ?_, ?_, ?_, ?_, ?_⟩⟩
  · exact (toIocMod_mem_Ioc Real.two_pi_pos (-Real.pi) t).1.le
  · have := (toIocMod_mem_Ioc Real.two_pi_pos (-Real.pi) t).2; simp only [Gen.env]; linarith
  · refine ⟨-toIocDiv Real.two_pi_pos (-Real.pi) t, ?_⟩
    have := toIocMod_add_toIocDiv_zsmul Real.two_pi_pos (-Real.pi) t
    rw [zsmul_eq_mul] at this
    simp only [Gen.env]
    push_cast; linarith
  · exact (toIocMod_mem_Ioc Real.two_pi_pos (-Real.pi) t).1
  all_goals simp [Gen.env, cornerMap]

/-! ### A run with turns -/

/-- All cells without negative coordinates, all free, of size 1. -/
def quarterMap : MapIf := ⟨fun x y => decide (0 ≤ x ∧ 0 ≤ y), fun _ _ => true, fun _ _ => 0, 1⟩

theorem ring_bound {R : Int} (hR : 1 ≤ R) {c p : Int × Int} (h : RingCell R c p) :
    |p.1 - c.1| ≤ R ∧ |p.2 - c.2| ≤ R := by
  unfold RingCell at h
  simp only at h
  obtain ⟨h1, _⟩ := h
  have hb : 0 ≤ min |p.1 - c.1| |p.2 - c.2| := le_min (abs_nonneg _) (abs_nonneg _)
  have ha : max |p.1 - c.1| |p.2 - c.2| ≤ R := by
    by_contra hlt; push Not at hlt
    nlinarith
  exact ⟨(le_max_left _ _).trans ha, (le_max_right _ _).trans ha⟩

theorem quarter_circ {E : RSEnv} (hm : E.map = quarterMap) (hr : E.radius = 8) (hu : E.useMapCost = false)
    (hd : ∀ d, E.dirCost d * E.costC = 1) (c : Circ) (hcr : c.radius = E.radius)
    (hx : 8 ≤ c.center.x) (hy : 8 ≤ c.center.y) : c.weight E = |c.arc| * 8 := by
  have hR : truncC c.radius = 8 := by
    rw [hcr, hr, truncC_nonneg (by norm_num)]
    exact Int.floor_eq_iff.2 ⟨by norm_num, by norm_num⟩
  have h8x : 8 ≤ truncC c.center.x := by
    rw [truncC_nonneg (by linarith)]; exact Int.le_floor.2 (by exact_mod_cast hx)
  have h8y : 8 ≤ truncC c.center.y := by
    rw [truncC_nonneg (by linarith)]; exact Int.le_floor.2 (by exact_mod_cast hy)
  obtain ⟨cells, _, _, hs⟩ := checkCircle_spec (truncC c.center.x) (truncC c.center.y) 8 (by norm_num)
  obtain ⟨r, e, h4, _⟩ := hs E c
  have hr' : r.1 = true := by
    rw [h4]
    intro p hp
    obtain ⟨p1, p2⟩ := ring_bound (by norm_num) hp
    obtain ⟨q1, q2⟩ := abs_le.1 p1
    obtain ⟨q3, q4⟩ := abs_le.1 p2
    simp only at q1 q2 q3 q4
    rw [hm]
    simp only [quarterMap, decide_eq_true_eq]
    exact ⟨by omega, fun _ => Or.inr trivial⟩
  unfold Circ.weight
  rw [hR, e]
  simp only [Option.getD_some, hr', Bool.or_true, if_true, hu, Bool.false_eq_true, if_false, Circ.length]
  rw [mul_assoc, hd, mul_one, hcr, hr]

/-- **Concrete run.** With radius 8 and pattern `LSL` on the quarter plane, `find_path` from (20,20)
heading along x to (20,60) heading back finds: left turn by 90 degrees, straight 24, left turn by 90
degrees; the middle part of each turn is longer than nothing (`π/7 < π/2 - π/7`), so
`findPath_turn_near` says something about it. -/
theorem uturn_found (clamp : ℝ → ℝ) (g : Gen)
    (hg : Gen.parse { maxArc := some 13, radius := 8 } "LSL".toList = .ok (false, g))
    (hE : (g.env clamp quarterMap false).Sane) :
    ∃ g' k, g.findPath clamp ⟨20, 20, 0⟩ ⟨20, 60, Real.pi⟩ quarterMap false = .ok (g', some k) ∧
      motion k = [(.turn .left .fwd, Real.pi / 2), (.straight .fwd, 24), (.turn .left .fwd, Real.pi / 2)] ∧
      2 ≤ g.radius / quarterMap.res ∧
      Real.pi / (⌊g.radius / quarterMap.res⌋ - 1) <
        Real.pi / 2 - Real.pi / (⌊g.radius / quarterMap.res⌋ - 1) := by
  have hpi := Real.pi_pos
  have hpi4 := Real.pi_lt_d4
  set c0 : Curve := { seq := [.circ (Circ.new .left .fwd), .line (Lin.new .fwd),
    .circ (Circ.new .left .fwd)] } with hc0
  have eg : Gen.parse { maxArc := some 13, radius := 8 } "LSL".toList =
      .ok (false, { maxArc := some 13, radius := 8, curves := [c0] }) := rfl
  rw [eg] at hg
  simp only [CRes.ok.injEq, Prod.mk.injEq, true_and] at hg
  subst hg
  set start : Pose := ⟨20, 20, 0⟩ with hst
  set goal : Pose := ⟨20, 60, Real.pi⟩ with hgo
  set g : Gen := { maxArc := some 13, radius := 8, curves := [c0] } with hgd
  set E := g.env clamp quarterMap false with hEd
  have hrad : E.radius = 8 := by simp [hEd, Gen.env, hgd, quarterMap]
  set A := initA E start (Circ.new .left .fwd) with hA
  set Z := initZ E goal (Circ.new .left .fwd) with hZ
  have cA : A.center = ⟨20, 28⟩ := by
    have := pairFor_eq E .left start
    have e : A.center = pairFor E .left start := rfl
    rw [e, this, hrad]; simp [oriSign, hst]; norm_num
  have cZ : Z.center = ⟨20, 52⟩ := by
    have := pairFor_eq E .left goal
    have e : Z.center = pairFor E .left goal := rfl
    rw [e, this, hrad]; simp [oriSign, hgo]; norm_num
  have rA : A.radius = 8 := hrad
  have rZ : Z.radius = 8 := hrad
  have hdist : eucl A.center Z.center = 24 := by
    rw [cA, cZ]
    exact eucl_of_diff (u := 0) (w := 1) (by norm_num) (by norm_num) (by norm_num) (by norm_num)
  obtain ⟨j1, j2⟩ := commonTangent_join hE.clamp A (Lin.new .fwd) Z rfl (by rw [rA]; norm_num)
  have hlen : (A.center - Z.center).length = eucl A.center Z.center := by
    unfold P2.length eucl dist2; simp
  have hct : commonTangent E A (Lin.new .fwd) Z = some (externalTangent E A (Lin.new .fwd) Z) := by
    unfold commonTangent
    rw [if_neg (by rw [hlen, hdist, rA, rZ]; norm_num), if_pos (show A.ori = Z.ori from rfl)]
  have hj : LineJoin (externalTangent E A (Lin.new .fwd) Z).1 (externalTangent E A (Lin.new .fwd) Z).2.1
      (externalTangent E A (Lin.new .fwd) Z).2.2 := j2 _ _ _ hct
  obtain ⟨kS, kE, kd, fa, fb, _⟩ := commonTangent_keep hct
  set T := externalTangent E A (Lin.new .fwd) Z with hT
  have hv : (Z.center - A.center).length = 24 := by
    have : (Z.center - A.center).length = eucl Z.center A.center := by
      unfold P2.length eucl dist2; simp
    rw [this, eucl_comm, hdist]
  have tc : Real.cos (Z.center - A.center).angle = 0 := by
    have := polar_x (Z.center - A.center)
    rw [hv] at this
    have e : (Z.center - A.center).x = 0 := by rw [cA, cZ]; simp
    rw [e] at this; linarith
  have ts : Real.sin (Z.center - A.center).angle = 1 := by
    have := polar_y (Z.center - A.center)
    rw [hv] at this
    have e : (Z.center - A.center).y = 24 := by rw [cA, cZ]; simp; norm_num
    rw [e] at this; linarith
  have eEnd : T.1.aEnd = E.clamp (Circ.angleFor .left (Z.center - A.center).angle) := rfl
  have eStart : T.1.aStart = E.clamp (Circ.angleFor .left start.theta) := rfl
  have zStart : T.2.2.aStart = E.clamp (Circ.angleFor .left (Z.center - A.center).angle) := rfl
  have zEnd : T.2.2.aEnd = E.clamp (Circ.angleFor .left goal.theta) := rfl
  have t1 := angleFor_trig hE.clamp .left (Z.center - A.center).angle
  have t2 := angleFor_trig hE.clamp .left start.theta
  have t3 := angleFor_trig hE.clamp .left goal.theta
  simp only [oriSign, one_mul, tc, ts, neg_zero] at t1
  simp only [oriSign, one_mul, hst, Real.sin_zero, Real.cos_zero] at t2
  simp only [oriSign, one_mul, hgo, Real.sin_pi, Real.cos_pi, neg_neg] at t3
  have arcQ : ∀ c : Circ, c.Fit E → c.ori = .left → c.dir = .fwd →
      Real.cos c.aEnd = Real.cos (c.aStart + Real.pi / 2) →
      Real.sin c.aEnd = Real.sin (c.aStart + Real.pi / 2) → c.arc = Real.pi / 2 := by
    intro c hf ho hd hc hs
    obtain ⟨k', hk'⟩ := angle_cong hc hs
    obtain ⟨⟨k, hk⟩, h1, _⟩ := computeArc_spec hE.clamp c
    obtain ⟨h3, h4⟩ := h1 (by rw [ho, hd]; norm_num [oriSign, dirSign])
    rw [hf.1]
    have e : (c.computeArc E).arc = Real.pi / 2 + ((k + k' : Int) : ℝ) * (2 * Real.pi) := by
      rw [hk, hk']; push_cast; ring
    rw [e] at h3 h4 ⊢
    have u1 : (-1 : ℝ) < ((k + k' : Int) : ℝ) := by
      by_contra hlt; push Not at hlt; nlinarith
    have u2 : ((k + k' : Int) : ℝ) < 1 := by
      by_contra hlt; push Not at hlt; nlinarith
    have u3 : (-1 : Int) < k + k' := by exact_mod_cast u1
    have u4 : k + k' < (1 : Int) := by exact_mod_cast u2
    have : k + k' = 0 := by omega
    rw [this]; simp
  have a0 : T.1.arc = Real.pi / 2 := by
    refine arcQ _ fa kS.ori kS.dir ?_ ?_
    · rw [Real.cos_add_pi_div_two, eEnd, eStart, t1.1, t2.2]; norm_num
    · rw [Real.sin_add_pi_div_two, eEnd, eStart, t1.2, t2.1]
  have b0 : T.2.2.arc = Real.pi / 2 := by
    refine arcQ _ fb kE.ori kE.dir ?_ ?_
    · rw [Real.cos_add_pi_div_two, zEnd, zStart, t3.1, t1.2]; norm_num
    · rw [Real.sin_add_pi_div_two, zEnd, zStart, t3.2, t1.1]
  have ls : T.2.1.start.pt = ⟨28, 28⟩ := by
    rw [hj.startPt]
    unfold Circ.endPoint
    rw [show T.1.center = A.center from kS.center, show T.1.radius = A.radius from kS.radius, cA, rA, eEnd]
    ext
    · simp only [P2.add_x, P2.fromPolar]; rw [t1.1]; norm_num
    · simp only [P2.add_y, P2.fromPolar]; rw [t1.2]; norm_num
  have lg : T.2.1.stop.pt = ⟨28, 52⟩ := by
    rw [hj.stopPt]
    unfold Circ.startPoint
    rw [show T.2.2.center = Z.center from kE.center, show T.2.2.radius = Z.radius from kE.radius, cZ, rZ,
      zStart]
    ext
    · simp only [P2.add_x, P2.fromPolar]; rw [t1.1]; norm_num
    · simp only [P2.add_y, P2.fromPolar]; rw [t1.2]; norm_num
  have ll : eucl T.2.1.start.pt T.2.1.stop.pt = 24 := by
    rw [ls, lg]
    exact eucl_of_diff (u := 0) (w := 1) (by norm_num) (by norm_num) (by norm_num) (by norm_num)
  have hdc : ∀ d, E.dirCost d * E.costC = 1 := by
    intro d; cases d <;> simp [RSEnv.dirCost, hEd, Gen.env, hgd]
  have wa : T.1.weight E = Real.pi / 2 * 8 := by
    rw [quarter_circ rfl hrad rfl hdc T.1 kS.radius
      (by rw [show T.1.center = A.center from kS.center, cA]; norm_num)
      (by rw [show T.1.center = A.center from kS.center, cA]; norm_num), a0, abs_of_pos (by positivity)]
  have wb : T.2.2.weight E = Real.pi / 2 * 8 := by
    rw [quarter_circ rfl hrad rfl hdc T.2.2 kE.radius
      (by rw [show T.2.2.center = Z.center from kE.center, cZ]; norm_num)
      (by rw [show T.2.2.center = Z.center from kE.center, cZ]; norm_num), b0, abs_of_pos (by positivity)]
  have wl : T.2.1.weight E = 24 := by
    have l1 : T.2.1.start.x = 28 := congrArg P2.x ls
    have l2 : T.2.1.start.y = 28 := congrArg P2.y ls
    obtain ⟨cells, hdl, hs⟩ := lineCheck_spec 28 28 (truncC T.2.1.stop.x) (truncC T.2.1.stop.y)
    obtain ⟨r, e, h4, _⟩ := hs E
    have hr : r.1 = true := h4.2 (Or.inr fun p _ _ => rfl)
    have fl : truncC (28 : ℝ) = 28 := by
      rw [truncC_nonneg (by norm_num)]; exact Int.floor_eq_iff.2 ⟨by norm_num, by norm_num⟩
    unfold Lin.weight
    simp only
    rw [l1, l2, fl, e]
    have hin : E.map.inMap 28 28 = true := rfl
    have hu : E.useMapCost = false := rfl
    simp only [hin, Bool.not_true, Bool.false_and, Bool.false_eq_true, if_false, Option.getD_some, hr,
      Bool.or_true, if_true, hu, distOrigin_sub, ll]
    rw [show T.2.1.dir = .fwd from kd]
    simp [RSEnv.dirCost, hEd, Gen.env, hgd]
  have hd : ¬ start.distTo goal < 2 := by
    have : eucl start.pt goal.pt = 40 :=
      eucl_of_diff (u := 0) (w := 1) (by norm_num) (by simp [Pose.pt, hst, hgo])
        (by simp [Pose.pt, hst, hgo]; norm_num) (by norm_num)
    rw [distTo_eq, this]; norm_num
  obtain ⟨k, hk, kseq, kw⟩ : ∃ k : Curve, Tested E start goal c0 k ∧
      k.seq = [.circ T.1, .line T.2.1, .circ T.2.2] ∧ k.weight = Real.pi * 8 + 24 := by
    rcases check_shape E { c0 with start := start, goal := goal } (by simp [hc0]) hd with
      ⟨a', l', b', hs, hc'⟩ | ⟨a', m, b', hs, hc'⟩ | ⟨a', m, n, b', hs, hc'⟩ | ⟨a', s, t, b', hs, _, hc'⟩ | ⟨hb, hc'⟩
    · simp only [hc0, List.cons.injEq, Seg.circ.injEq, Seg.line.injEq, and_true] at hs
      obtain ⟨rfl, rfl, rfl⟩ := hs
      refine ⟨_, hc', ?_, ?_⟩
      · simp only; unfold handleCSC; rw [hct]
      · simp only; unfold handleCSC; rw [hct]; simp only; rw [wa, wb, wl]; ring
    · simp [hc0] at hs
    · simp [hc0] at hs
    · simp [hc0] at hs
    · rcases hb with ⟨l', r, hb⟩ | ⟨p, l', hb⟩
      · simp [hc0] at hb
      · simp only [hc0] at hb
        have := congrArg List.getLast? hb
        simp at this
  have hres : g.findPath clamp start goal quarterMap false = .ok ({ g with curves := [k] }, some k) := by
    unfold Gen.findPath
    have h1 : Curve.check E { c0 with start := start, goal := goal } = .ok k := hk
    have h2 : k.weight < NOT_FREE := by rw [kw]; unfold NOT_FREE; linarith
    have h3 : k.curveArc < 13 := by
      unfold Curve.curveArc
      rw [kseq]
      simp only [List.foldl]
      rw [a0, b0, abs_of_pos (by positivity : 0 < Real.pi / 2)]
      linarith
    simp only [hgd, findLoop, CRes.ok_bind]
    simp only [← hgd, ← hEd]
    rw [h1]
    simp only [CRes.ok_bind, h2, h3, if_true, List.nil_append, findLoop, CRes.pure_eq]
  have hfl : ⌊g.radius / quarterMap.res⌋ = 8 := by
    have : g.radius / quarterMap.res = 8 := hrad
    rw [this]; exact Int.floor_eq_iff.2 ⟨by norm_num, by norm_num⟩
  refine ⟨_, k, hres, ?_, ?_, ?_⟩
  · unfold motion
    rw [kseq]
    simp only [List.map, elemOf, amountOf]
    rw [a0, b0, ll, abs_of_pos (by positivity : 0 < Real.pi / 2), show T.1.ori = .left from kS.ori,
      show T.1.dir = .fwd from kS.dir, show T.2.2.ori = .left from kE.ori,
      show T.2.2.dir = .fwd from kE.dir, show T.2.1.dir = .fwd from kd]
  · have : g.radius / quarterMap.res = 8 := hrad
    rw [this]; norm_num
  · rw [hfl]; push_cast; linarith

end PathPlanning.RS
