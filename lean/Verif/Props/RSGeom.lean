import Verif.Props.RSArc

/-!
# C42: tangents and tangential circles
-/

noncomputable section

namespace PathPlanning.RS
open Spec

/-! ### Fields after the setters -/

section fields
variable (E : RSEnv) (c : Circ)
@[simp] theorem computeArc_ori : (c.computeArc E).ori = c.ori := rfl
@[simp] theorem computeArc_dir : (c.computeArc E).dir = c.dir := rfl
@[simp] theorem computeArc_center : (c.computeArc E).center = c.center := rfl
@[simp] theorem computeArc_radius : (c.computeArc E).radius = c.radius := rfl
@[simp] theorem computeArc_aStart : (c.computeArc E).aStart = c.aStart := rfl
@[simp] theorem computeArc_aEnd : (c.computeArc E).aEnd = c.aEnd := rfl
end fields

/-- The stored arc and step data are those of the stored angles. -/
def Circ.Fit (E : RSEnv) (c : Circ) : Prop :=
  c.arc = (c.computeArc E).arc ∧ c.step = (c.computeArc E).step ∧ c.steps = (c.computeArc E).steps

theorem Circ.fit_computeArc (E : RSEnv) (c : Circ) : (c.computeArc E).Fit E := ⟨rfl, rfl, rfl⟩

theorem Circ.fit_setStart (E : RSEnv) (c : Circ) (a : ℝ) : (c.setStart E a).Fit E := ⟨rfl, rfl, rfl⟩
theorem Circ.fit_setEnd (E : RSEnv) (c : Circ) (a : ℝ) : (c.setEnd E a).Fit E := ⟨rfl, rfl, rfl⟩
theorem Circ.fit_setStartFor (E : RSEnv) (c : Circ) (a : ℝ) : (c.setStartFor E a).Fit E :=
  ⟨rfl, rfl, rfl⟩
theorem Circ.fit_setEndFor (E : RSEnv) (c : Circ) (a : ℝ) : (c.setEndFor E a).Fit E :=
  ⟨rfl, rfl, rfl⟩

theorem drive_fit {E : RSEnv} (hC : ClampSpec E.clamp) {c : Circ} (h : c.Fit E) :
    SameConfig (Spec.drive c.radius (c.confAt c.aStart) (.turn c.ori c.dir) |c.arc|)
      (c.confAt c.aEnd) := by
  rw [h.1]; exact drive_arc hC c

theorem length_sub_comm (p q : P2) : (p - q).length = (q - p).length := by
  unfold P2.length; congr 1; simp only [P2.sub_x, P2.sub_y]; ring

theorem polar_x (v : P2) : v.x = Real.cos v.angle * v.length := by
  have := congrArg P2.x (fromPolar_angle_length v); simpa [P2.fromPolar] using this.symm

theorem polar_y (v : P2) : v.y = Real.sin v.angle * v.length := by
  have := congrArg P2.y (fromPolar_angle_length v); simpa [P2.fromPolar] using this.symm

theorem eucl_of_diff {p q : P2} {u w L : ℝ} (hL : 0 ≤ L) (hx : q.x - p.x = L * u)
    (hy : q.y - p.y = L * w) (h1 : u ^ 2 + w ^ 2 = 1) : eucl p q = L := by
  unfold eucl dist2
  have : (p.x - q.x) ^ 2 + (p.y - q.y) ^ 2 = L ^ 2 := by
    have e1 : p.x - q.x = -(L * u) := by linarith
    have e2 : p.y - q.y = -(L * w) := by linarith
    rw [e1, e2]; linear_combination L ^ 2 * h1
  rw [this, Real.sqrt_sq hL]

/-- A line segment `l` connects the end of arc `a` with the start of arc `b`: its end points are those
points of the circles, it is at right angles to both radii, and a car that leaves `a` at its end and
drives straight along `l` arrives in the configuration in which `b` starts. -/
structure LineJoin (a : Circ) (l : Lin) (b : Circ) : Prop where
  startPt : l.start.pt = a.endPoint
  stopPt : l.stop.pt = b.startPoint
  perpA : dotP (l.stop.pt - l.start.pt) (l.start.pt - a.center) = 0
  perpB : dotP (l.stop.pt - l.start.pt) (l.stop.pt - b.center) = 0
  drive : SameConfig (Spec.drive a.radius (a.confAt a.aEnd) (.straight l.dir)
    (eucl l.start.pt l.stop.pt)) (b.confAt b.aStart)

/-- Two circle segments meet: the same configuration ends `a` and starts `b`. -/
def ArcJoin (a b : Circ) : Prop := SameConfig (a.confAt a.aEnd) (b.confAt b.aStart)

theorem confAt_pt (c : Circ) (a : ℝ) : (c.confAt a).pt = c.center + P2.fromPolar a c.radius := by
  ext <;> simp [Circ.confAt, Pose.pt, P2.fromPolar]

section joins
variable {E : RSEnv} (hC : ClampSpec E.clamp)
include hC

/-- Line join from explicit data: end angle direction `(ca, sa)` on `a`, start direction on `b`. -/
theorem lineJoin_of {a b : Circ} {l : Lin} {h L : ℝ} (hL : 0 ≤ L)
    (ha : Real.cos a.aEnd = oriSign a.ori * Real.sin h ∧ Real.sin a.aEnd = -(oriSign a.ori * Real.cos h))
    (hb : Real.cos b.aStart = oriSign b.ori * Real.sin h ∧
      Real.sin b.aStart = -(oriSign b.ori * Real.cos h))
    (hp : l.start.pt = a.endPoint) (hq : l.stop.pt = b.startPoint)
    (hx : l.stop.x - l.start.x = L * (dirSign l.dir * Real.cos h))
    (hy : l.stop.y - l.start.y = L * (dirSign l.dir * Real.sin h)) : LineJoin a l b := by
  have hd : dirSign l.dir ^ 2 = 1 := by cases l.dir <;> norm_num [dirSign]
  have hcs := Real.sin_sq_add_cos_sq h
  have hlen : eucl l.start.pt l.stop.pt = L :=
    eucl_of_diff (p := l.start.pt) (q := l.stop.pt) hL hx hy (by
      linear_combination (dirSign l.dir ^ 2) * hcs + hd)
  have p1 := congrArg P2.x hp
  have p2 := congrArg P2.y hp
  have q1 := congrArg P2.x hq
  have q2 := congrArg P2.y hq
  simp only [Circ.endPoint, Circ.startPoint, P2.add_x, P2.add_y, P2.fromPolar, Pose.pt] at p1 p2 q1 q2
  have head : ∀ c : Circ, ∀ t, Real.cos t = oriSign c.ori * Real.sin h →
      Real.sin t = -(oriSign c.ori * Real.cos h) →
      Real.cos (c.confAt t).theta = Real.cos h ∧ Real.sin (c.confAt t).theta = Real.sin h := by
    intro c t h1 h2
    simp only [Circ.confAt]
    cases ho : c.ori <;> rw [ho] at h1 h2 <;> simp only [oriSign] at h1 h2 ⊢
    · rw [one_mul, Real.cos_add_pi_div_two, Real.sin_add_pi_div_two]; constructor <;> linarith
    · rw [neg_one_mul, ← sub_eq_add_neg, Real.cos_sub_pi_div_two, Real.sin_sub_pi_div_two]
      constructor <;> linarith
  refine ⟨hp, hq, ?_, ?_, ?_⟩
  · simp only [dotP, P2.sub_x, P2.sub_y, Pose.pt]
    rw [hx, hy, p1, p2, ha.1, ha.2]; ring
  · simp only [dotP, P2.sub_x, P2.sub_y, Pose.pt]
    rw [hx, hy, q1, q2, hb.1, hb.2]; ring
  · rw [hlen]
    obtain ⟨c1, c2⟩ := head a a.aEnd ha.1 ha.2
    obtain ⟨c3, c4⟩ := head b b.aStart hb.1 hb.2
    refine SameConfig.of_trig ?_ ?_ (c1.trans c3.symm) (c2.trans c4.symm)
    · simp only [Spec.drive]
      rw [c1]
      simp only [Circ.confAt]
      rw [← p1, ← q1]; linarith
    · simp only [Spec.drive]
      rw [c2]
      simp only [Circ.confAt]
      rw [← p2, ← q2]; linarith

theorem angleFor_trig (o : Ori) (h : ℝ) :
    Real.cos (E.clamp (Circ.angleFor o h)) = oriSign o * Real.sin h ∧
    Real.sin (E.clamp (Circ.angleFor o h)) = -(oriSign o * Real.cos h) := by
  have e : 90 * Real.pi / 180 = Real.pi / 2 := by ring
  rw [clamp_cos hC, clamp_sin hC]
  cases o
  · simp [Circ.angleFor, oriSign, e, Real.cos_sub_pi_div_two, Real.sin_sub_pi_div_two]
  · simp [Circ.angleFor, oriSign, e, Real.cos_add_pi_div_two, Real.sin_add_pi_div_two]

/-- **C42.** The external tangent joins two circles of equal radius and equal orientation, driven in
either direction. -/
theorem externalTangent_join (a : Circ) (l : Lin) (b : Circ) (hr : b.radius = a.radius)
    (ho : a.ori = b.ori) (hD : 0 < (b.center - a.center).length) :
    LineJoin (externalTangent E a l b).1 (externalTangent E a l b).2.1
      (externalTangent E a l b).2.2 := by
  set v := b.center - a.center with hv
  have vx := polar_x v
  have vy := polar_y v
  set h := if l.dir = .bwd then v.angle - 180 * Real.pi / 180 else v.angle with hh
  have e180 : 180 * Real.pi / 180 = Real.pi := by ring
  have hcos : Real.cos h = dirSign l.dir * Real.cos v.angle := by
    rw [hh]; cases hd : l.dir <;> simp [dirSign, e180, Real.cos_sub_pi]
  have hsin : Real.sin h = dirSign l.dir * Real.sin v.angle := by
    rw [hh]; cases hd : l.dir <;> simp [dirSign, e180, Real.sin_sub_pi]
  have hd2 : dirSign l.dir * dirSign l.dir = 1 := by cases l.dir <;> norm_num [dirSign]
  have ho2 : oriSign a.ori * oriSign a.ori = 1 := by cases a.ori <;> norm_num [oriSign]
  set off : P2 := if xor (decide (a.ori = .right)) (decide (l.dir = .bwd)) then
    ((v.ortho.normalize).smul a.radius).smul (-1) else (v.ortho.normalize).smul a.radius with hoff
  have hortho : v.ortho.length = v.length := (ortho_spec v).2.1
  have n1 : ((v.ortho.normalize).smul a.radius).x = Real.sin v.angle * a.radius := by
    have h1 : v.y * (1 / v.length) = Real.sin v.angle := by
      rw [mul_one_div, div_eq_iff hD.ne']; exact vy
    simp only [P2.normalize, P2.resize, P2.smul, hortho]
    rw [← h1]; rfl
  have n2 : ((v.ortho.normalize).smul a.radius).y = -(Real.cos v.angle * a.radius) := by
    have h1 : v.x * (1 / v.length) = Real.cos v.angle := by
      rw [mul_one_div, div_eq_iff hD.ne']; exact vx
    simp only [P2.normalize, P2.resize, P2.smul, hortho]
    rw [← h1]; simp only [P2.ortho]; ring
  have sm : ∀ q : P2, (q.smul (-1)).x = -q.x ∧ (q.smul (-1)).y = -q.y := by
    intro q; simp [P2.smul]
  have offx : off.x = oriSign a.ori * Real.sin h * a.radius := by
    rw [hoff, hsin]
    cases a.ori <;> cases l.dir <;> simp [oriSign, dirSign, n1, sm]
  have offy : off.y = -(oriSign a.ori * Real.cos h) * a.radius := by
    rw [hoff, hcos]
    cases a.ori <;> cases l.dir <;> simp [oriSign, dirSign, n2, sm]
  have hE : externalTangent E a l b =
      (a.setEndFor E h, l.setPoints (a.center + off) (b.center + off), b.setStartFor E h) := by
    simp only [externalTangent, hoff, hh, ← hv, decide_eq_true_eq]
  rw [hE]
  have ta := angleFor_trig hC a.ori h
  have tb := angleFor_trig hC b.ori h
  refine lineJoin_of hC (h := h) hD.le ta tb ?_ ?_ ?_ ?_
  · ext <;> simp only [Lin.setPoints, Pose.pt, Circ.endPoint, Circ.setEndFor, P2.fromPolar,
      computeArc_center, computeArc_aEnd, computeArc_radius, P2.add_x, P2.add_y]
    · rw [offx, ta.1]
    · rw [offy, ta.2]
  · ext <;> simp only [Lin.setPoints, Pose.pt, Circ.startPoint, Circ.setStartFor, P2.fromPolar,
      computeArc_center, computeArc_aStart, computeArc_radius, P2.add_x, P2.add_y]
    · rw [offx, tb.1, ← ho, hr]
    · rw [offy, tb.2, ← ho, hr]
  · simp only [Lin.setPoints, P2.add_x]
    rw [hcos]
    have : v.x = b.center.x - a.center.x := rfl
    linear_combination (-1 : ℝ) * this + vx - (Real.cos v.angle * v.length) * hd2
  · simp only [Lin.setPoints, P2.add_y]
    rw [hsin]
    have : v.y = b.center.y - a.center.y := rfl
    linear_combination (-1 : ℝ) * this + vy - (Real.sin v.angle * v.length) * hd2

/-- **C42.** The internal tangent joins two circles of equal radius and opposite orientation whose
discs do not overlap, driven in either direction. -/
theorem internalTangent_join (a : Circ) (l : Lin) (b : Circ) (hr : b.radius = a.radius)
    (ho : a.ori ≠ b.ori) (hr0 : 0 < a.radius)
    (hD : a.radius + b.radius ≤ (b.center - a.center).length) :
    LineJoin (internalTangent E a l b).1 (internalTangent E a l b).2.1
      (internalTangent E a l b).2.2 := by
  set v := b.center - a.center with hv
  have vx := polar_x v
  have vy := polar_y v
  rw [hr] at hD
  have hD0 : 0 < v.length := by linarith
  set γ := Real.arccos ((a.radius + b.radius) / v.length) with hγ
  have hcosγ : Real.cos γ * v.length = 2 * a.radius := by
    rw [hγ, hr, Real.cos_arccos]
    · field_simp; ring
    · have : 0 ≤ (a.radius + a.radius) / v.length := by positivity
      linarith
    · rw [div_le_one hD0]; exact hD
  have hsinγ : 0 ≤ Real.sin γ := by rw [hγ, Real.sin_arccos]; exact Real.sqrt_nonneg _
  set δ := (if l.dir = .bwd then -(if a.ori = .right then γ else -γ)
    else (if a.ori = .right then γ else -γ)) with hδ
  have hcosδ : Real.cos δ = Real.cos γ := by
    rw [hδ]; split_ifs <;> simp
  have hsinδ : Real.sin δ = -(oriSign a.ori * dirSign l.dir * Real.sin γ) := by
    rw [hδ]; cases a.ori <;> cases l.dir <;> simp [oriSign, dirSign]
  set φ := v.angle + δ with hφ
  have hbo : oriSign b.ori = -oriSign a.ori := by
    cases ha : a.ori <;> cases hb : b.ori <;> simp [oriSign] <;> simp_all
  have ho2 : oriSign a.ori * oriSign a.ori = 1 := by cases a.ori <;> norm_num [oriSign]
  have hd2 : dirSign l.dir * dirSign l.dir = 1 := by cases l.dir <;> norm_num [dirSign]
  -- the heading on the tangent
  set h := φ + oriSign a.ori * (Real.pi / 2) with hh
  have hcos : Real.cos h = -(oriSign a.ori * Real.sin φ) := by
    rw [hh]; cases a.ori
    · simp [oriSign, Real.cos_add_pi_div_two]
    · simp only [oriSign, neg_one_mul, ← sub_eq_add_neg, Real.cos_sub_pi_div_two]; ring
  have hsin : Real.sin h = oriSign a.ori * Real.cos φ := by
    rw [hh]; cases a.ori
    · simp [oriSign, Real.sin_add_pi_div_two]
    · simp only [oriSign, neg_one_mul, ← sub_eq_add_neg, Real.sin_sub_pi_div_two]
  have hE : internalTangent E a l b =
      (a.setEnd E φ, l.setPoints (a.center + ((a.setEnd E φ).endPoint - a.center))
        (b.center - ((a.setEnd E φ).endPoint - a.center)), b.setStart E (φ + Real.pi)) := rfl
  rw [hE]
  have offx : ((a.setEnd E φ).endPoint - a.center).x = Real.cos φ * a.radius := by
    simp only [Circ.setEnd, Circ.endPoint, P2.sub_x, P2.add_x, P2.fromPolar, computeArc_center,
      computeArc_aEnd, computeArc_radius, clamp_cos hC]; ring
  have offy : ((a.setEnd E φ).endPoint - a.center).y = Real.sin φ * a.radius := by
    simp only [Circ.setEnd, Circ.endPoint, P2.sub_y, P2.add_y, P2.fromPolar, computeArc_center,
      computeArc_aEnd, computeArc_radius, clamp_sin hC]; ring
  -- difference of the end points
  have key1 : v.x - 2 * (Real.cos φ * a.radius) =
      (v.length * Real.sin γ) * (dirSign l.dir * Real.cos h) := by
    have hs : Real.sin v.angle ^ 2 + Real.cos v.angle ^ 2 = 1 := Real.sin_sq_add_cos_sq _
    have hs2 : Real.sin γ ^ 2 + Real.cos γ ^ 2 = 1 := Real.sin_sq_add_cos_sq _
    rw [hcos, hφ, Real.cos_add, Real.sin_add, hcosδ, hsinδ]
    rw [vx]
    linear_combination (Real.cos v.angle * Real.cos γ +
        Real.sin v.angle * (oriSign a.ori * dirSign l.dir * Real.sin γ)) * hcosγ
      - Real.cos v.angle * v.length * hs2
      - (Real.cos v.angle * v.length * Real.sin γ ^ 2 * dirSign l.dir ^ 2) * ho2
      - (Real.cos v.angle * v.length * Real.sin γ ^ 2) * hd2
  have key2 : v.y - 2 * (Real.sin φ * a.radius) =
      (v.length * Real.sin γ) * (dirSign l.dir * Real.sin h) := by
    have hs2 : Real.sin γ ^ 2 + Real.cos γ ^ 2 = 1 := Real.sin_sq_add_cos_sq _
    rw [hsin, hφ, Real.cos_add, Real.sin_add, hcosδ, hsinδ]
    rw [vy]
    linear_combination (Real.sin v.angle * Real.cos γ -
        Real.cos v.angle * (oriSign a.ori * dirSign l.dir * Real.sin γ)) * hcosγ
      - Real.sin v.angle * v.length * hs2
      - (Real.sin v.angle * v.length * Real.sin γ ^ 2 * dirSign l.dir ^ 2) * ho2
      - (Real.sin v.angle * v.length * Real.sin γ ^ 2) * hd2
  have hvx : v.x = b.center.x - a.center.x := rfl
  have hvy : v.y = b.center.y - a.center.y := rfl
  refine lineJoin_of hC (h := h) (L := v.length * Real.sin γ) (mul_nonneg hD0.le hsinγ) ?_ ?_ ?_ ?_ ?_ ?_
  · simp only [Circ.setEnd, computeArc_aEnd, computeArc_ori, clamp_cos hC, clamp_sin hC]
    rw [hsin, hcos]
    constructor
    · linear_combination (-Real.cos φ) * ho2
    · linear_combination (-Real.sin φ) * ho2
  · simp only [Circ.setStart, computeArc_aStart, computeArc_ori, clamp_cos hC, clamp_sin hC, hbo,
      Real.cos_add_pi, Real.sin_add_pi]
    rw [hsin, hcos]
    constructor
    · linear_combination (Real.cos φ) * ho2
    · linear_combination (Real.sin φ) * ho2
  · ext <;> simp only [Lin.setPoints, Pose.pt, P2.add_x, P2.add_y, P2.sub_x, P2.sub_y] <;> ring
  · ext <;> simp only [Lin.setPoints, Pose.pt]
    · rw [P2.sub_x, offx]
      simp only [Circ.startPoint, Circ.setStart, P2.add_x, P2.fromPolar, computeArc_center,
        computeArc_aStart, computeArc_radius, clamp_cos hC, Real.cos_add_pi]
      rw [hr]; ring
    · rw [P2.sub_y, offy]
      simp only [Circ.startPoint, Circ.setStart, P2.add_y, P2.fromPolar, computeArc_center,
        computeArc_aStart, computeArc_radius, clamp_sin hC, Real.sin_add_pi]
      rw [hr]; ring
  · simp only [Lin.setPoints]
    rw [P2.sub_x b.center, P2.add_x, offx]; linarith
  · simp only [Lin.setPoints]
    rw [P2.sub_y b.center, P2.add_y, offy]; linarith

/-- **C42.** `get_common_tangent` fails exactly if the discs overlap; otherwise the line joins the two
circles. -/
theorem commonTangent_join (a : Circ) (l : Lin) (b : Circ) (hr : b.radius = a.radius)
    (hr0 : 0 < a.radius) :
    (commonTangent E a l b = none ↔ eucl a.center b.center < a.radius + b.radius) ∧
    ∀ a' l' b', commonTangent E a l b = some (a', l', b') → LineJoin a' l' b' := by
  have hlen : (a.center - b.center).length = eucl a.center b.center := by
    unfold P2.length eucl dist2; simp
  constructor
  · unfold commonTangent
    rw [hlen]
    constructor
    · intro h
      by_contra hh
      rw [if_neg hh] at h
      split at h <;> cases h
    · intro h; rw [if_pos h]
  · intro a' l' b' h
    unfold commonTangent at h
    split at h
    · cases h
    · rename_i hD
      rw [length_sub_comm] at hD
      push Not at hD
      split at h
      · rename_i ho
        injection h with h
        have := externalTangent_join hC a l b hr ho (by linarith)
        rw [h] at this; exact this
      · rename_i ho
        injection h with h
        have := internalTangent_join hC a l b hr ho hr0 hD
        rw [h] at this; exact this

/-- Two touching circles of opposite orientation, `b`'s start angle being opposite to `a`'s end
angle, meet smoothly. -/
theorem arcJoin_of {a b : Circ} {φ : ℝ} (hr : b.radius = a.radius) (ho : a.ori ≠ b.ori)
    (hcx : b.center.x = a.center.x + Real.cos φ * (2 * a.radius))
    (hcy : b.center.y = a.center.y + Real.sin φ * (2 * a.radius))
    (ha : Real.cos a.aEnd = Real.cos φ ∧ Real.sin a.aEnd = Real.sin φ)
    (hb : Real.cos b.aStart = -Real.cos φ ∧ Real.sin b.aStart = -Real.sin φ) : ArcJoin a b := by
  refine SameConfig.of_trig ?_ ?_ ?_ ?_
  · simp only [Circ.confAt]; rw [ha.1, hb.1, hcx, hr]; ring
  · simp only [Circ.confAt]; rw [ha.2, hb.2, hcy, hr]; ring
  · simp only [Circ.confAt]
    cases h1 : a.ori <;> cases h2 : b.ori <;> simp only [oriSign, one_mul, neg_one_mul, neg_mul,
      ← sub_eq_add_neg, Real.cos_add_pi_div_two, Real.cos_sub_pi_div_two]
    · exact absurd (h1.trans h2.symm) ho
    · rw [ha.2, hb.2]
    · rw [ha.2, hb.2]; ring
    · exact absurd (h1.trans h2.symm) ho
  · simp only [Circ.confAt]
    cases h1 : a.ori <;> cases h2 : b.ori <;> simp only [oriSign, one_mul, neg_one_mul, neg_mul,
      ← sub_eq_add_neg, Real.sin_add_pi_div_two, Real.sin_sub_pi_div_two]
    · exact absurd (h1.trans h2.symm) ho
    · rw [ha.1, hb.1]; ring
    · rw [ha.1, hb.1]
    · exact absurd (h1.trans h2.symm) ho

/-- **C42.** The middle circle touches both outer circles, and with alternating orientations the three
arcs meet smoothly (whatever the driving directions), for both solutions. -/
theorem tangentialCircle_join (p : Bool) (a m b : Circ) (hra : 0 < a.radius)
    (hm : m.radius = a.radius) (hb : b.radius = a.radius)
    (hD0 : 0 < (b.center - a.center).length)
    (hD : (b.center - a.center).length ≤ 4 * a.radius) :
    let r := tangentialCircle E p a m b
    eucl r.1.center r.2.1.center = 2 * a.radius ∧ eucl r.2.1.center r.2.2.center = 2 * a.radius ∧
    (a.ori ≠ m.ori → ArcJoin r.1 r.2.1) ∧ (m.ori ≠ b.ori → ArcJoin r.2.1 r.2.2) := by
  set v := b.center - a.center with hv
  have vx := polar_x v
  have vy := polar_y v
  have hvx : v.x = b.center.x - a.center.x := rfl
  have hvy : v.y = b.center.y - a.center.y := rfl
  set γ := Real.arccos ((v.length / 2) / (2 * a.radius)) with hγ
  have hcosγ : Real.cos γ * (4 * a.radius) = v.length := by
    rw [hγ, Real.cos_arccos]
    · field_simp; ring
    · have : 0 ≤ (v.length / 2) / (2 * a.radius) := by positivity
      linarith
    · rw [div_le_one (by linarith)]; linarith
  set δ := (if p then γ else -γ) with hδ
  have hcosδ : Real.cos δ = Real.cos γ := by rw [hδ]; split_ifs <;> simp
  set φ := δ + v.angle with hφ
  set C : P2 := a.center + P2.fromPolar φ (2 * a.radius) with hCd
  -- direction from `b` to the middle centre
  set ψ := Real.pi + v.angle - δ with hψ
  have hcs : Real.sin δ ^ 2 + Real.cos δ ^ 2 = 1 := Real.sin_sq_add_cos_sq _
  have Cs : C - a.center = P2.fromPolar φ (2 * a.radius) := by
    ext <;> simp [hCd]
  have Cg : C - b.center = P2.fromPolar ψ (2 * a.radius) := by
    have e1 : ψ = (v.angle - δ) + Real.pi := by rw [hψ]; ring
    ext
    · rw [P2.sub_x, hCd, P2.add_x]
      simp only [P2.fromPolar]
      rw [e1, Real.cos_add_pi, hφ, Real.cos_add, Real.cos_sub]
      rw [← hcosδ] at hcosγ
      linear_combination hvx - vx + Real.cos v.angle * hcosγ
    · rw [P2.sub_y, hCd, P2.add_y]
      simp only [P2.fromPolar]
      rw [e1, Real.sin_add_pi, hφ, Real.sin_add, Real.sin_sub]
      rw [← hcosδ] at hcosγ
      linear_combination hvy - vy + Real.sin v.angle * hcosγ
  have h2r : 0 < 2 * a.radius := by linarith
  have tφ := angle_fromPolar_cos (a := φ) h2r
  have tψ := angle_fromPolar_cos (a := ψ) h2r
  have Cx : C.x = a.center.x + Real.cos φ * (2 * a.radius) := rfl
  have Cy : C.y = a.center.y + Real.sin φ * (2 * a.radius) := rfl
  have Gx : C.x - b.center.x = Real.cos ψ * (2 * a.radius) := congrArg P2.x Cg
  have Gy : C.y - b.center.y = Real.sin ψ * (2 * a.radius) := congrArg P2.y Cg
  have hE : tangentialCircle E p a m b =
      (a.setEnd E (C - a.center).angle,
       ((m.setCenter C).setStart E ((a.setEnd E (C - a.center).angle).aEnd + Real.pi)).setEnd E
         ((b.setStart E (C - b.center).angle).aStart + Real.pi),
       b.setStart E (C - b.center).angle) := rfl
  simp only [hE]
  rw [Cs, Cg]
  refine ⟨?_, ?_, fun ho => ?_, fun ho => ?_⟩
  · have := Real.sin_sq_add_cos_sq φ
    refine eucl_of_diff (u := Real.cos φ) (w := Real.sin φ) h2r.le ?_ ?_ (by linarith)
    · simp only [Circ.setEnd, Circ.setStart, Circ.setCenter, computeArc_center]
      rw [Cx]; ring
    · simp only [Circ.setEnd, Circ.setStart, Circ.setCenter, computeArc_center]
      rw [Cy]; ring
  · have := Real.sin_sq_add_cos_sq ψ
    refine eucl_of_diff (u := -Real.cos ψ) (w := -Real.sin ψ) h2r.le ?_ ?_ (by linarith)
    · simp only [Circ.setEnd, Circ.setStart, Circ.setCenter, computeArc_center]
      linarith
    · simp only [Circ.setEnd, Circ.setStart, Circ.setCenter, computeArc_center]
      linarith
  · refine arcJoin_of hC (φ := φ) hm ho Cx Cy ?_ ?_
    · simp only [Circ.setEnd, computeArc_aEnd, clamp_cos hC, clamp_sin hC]
      exact tφ
    · simp only [Circ.setEnd, Circ.setStart, Circ.setCenter, computeArc_aEnd, computeArc_aStart,
        clamp_cos hC, clamp_sin hC, Real.cos_add_pi, Real.sin_add_pi, tφ.1, tφ.2]
      trivial
  · refine arcJoin_of hC (φ := ψ + Real.pi) (hb.trans hm.symm) ho ?_ ?_ ?_ ?_
    · simp only [Circ.setEnd, Circ.setStart, Circ.setCenter, computeArc_center, computeArc_radius]
      rw [Real.cos_add_pi, hm]; linarith
    · simp only [Circ.setEnd, Circ.setStart, Circ.setCenter, computeArc_center, computeArc_radius]
      rw [Real.sin_add_pi, hm]; linarith
    · simp only [Circ.setEnd, Circ.setStart, Circ.setCenter, computeArc_aEnd, computeArc_aStart,
        clamp_cos hC, clamp_sin hC, Real.cos_add_pi, Real.sin_add_pi, tψ.1, tψ.2]
      trivial
    · simp only [Circ.setStart, computeArc_aStart, clamp_cos hC, clamp_sin hC, Real.cos_add_pi,
        Real.sin_add_pi, tψ.1, tψ.2, neg_neg]
      trivial

/-- **C42.** The two middle circles touch each other and the outer circles, and with alternating
orientations all four arcs meet smoothly, for both solutions. -/
theorem tangentialDouble_join (p : Bool) (a c2 c3 b : Circ) (hra : 0 < a.radius)
    (h2 : c2.radius = a.radius) (h3 : c3.radius = a.radius) (hb : b.radius = a.radius)
    (hD0 : 0 < (b.center - a.center).length)
    (hD : (b.center - a.center).length ≤ 6 * a.radius) :
    let r := tangentialDouble E p a c2 c3 b
    eucl r.1.center r.2.1.center = 2 * a.radius ∧
    eucl r.2.1.center r.2.2.1.center = 2 * a.radius ∧
    eucl r.2.2.1.center r.2.2.2.center = 2 * a.radius ∧
    (a.ori ≠ c2.ori → ArcJoin r.1 r.2.1) ∧ (c2.ori ≠ c3.ori → ArcJoin r.2.1 r.2.2.1) ∧
    (c3.ori ≠ b.ori → ArcJoin r.2.2.1 r.2.2.2) := by
  set v := b.center - a.center with hv
  have vx := polar_x v
  have vy := polar_y v
  have hvx : v.x = b.center.x - a.center.x := rfl
  have hvy : v.y = b.center.y - a.center.y := rfl
  set γ := Real.arccos ((v.length / 2 - a.radius) / (2 * a.radius)) with hγ
  have hcosγ : Real.cos γ * (4 * a.radius) = v.length - 2 * a.radius := by
    rw [hγ, Real.cos_arccos]
    · field_simp; ring
    · rw [le_div_iff₀ (by linarith)]; linarith
    · rw [div_le_one (by linarith)]; linarith
  set δ := (if p then γ else -γ) with hδ
  have hcosδ : Real.cos δ = Real.cos γ := by rw [hδ]; split_ifs <;> simp
  set φ := δ + v.angle with hφ
  set θ := v.angle with hθ
  set C2 : P2 := a.center + P2.fromPolar φ (2 * a.radius) with hC2
  set C3 : P2 := C2 + P2.fromPolar θ (2 * a.radius) with hC3
  set ψ := Real.pi + θ - δ with hψ
  have Cs : C2 - a.center = P2.fromPolar φ (2 * a.radius) := by
    ext <;> simp [hC2]
  have Cg : C3 - b.center = P2.fromPolar ψ (2 * a.radius) := by
    have e1 : ψ = (θ - δ) + Real.pi := by rw [hψ]; ring
    rw [← hcosδ] at hcosγ
    ext
    · rw [P2.sub_x, hC3, P2.add_x, hC2, P2.add_x]
      simp only [P2.fromPolar]
      rw [e1, Real.cos_add_pi, hφ, Real.cos_add, Real.cos_sub]
      linear_combination hvx - vx + Real.cos θ * hcosγ
    · rw [P2.sub_y, hC3, P2.add_y, hC2, P2.add_y]
      simp only [P2.fromPolar]
      rw [e1, Real.sin_add_pi, hφ, Real.sin_add, Real.sin_sub]
      linear_combination hvy - vy + Real.sin θ * hcosγ
  have h2r : 0 < 2 * a.radius := by linarith
  have tφ := angle_fromPolar_cos (a := φ) h2r
  have tψ := angle_fromPolar_cos (a := ψ) h2r
  have tθ := angle_fromPolar_cos (a := θ) h2r
  have Cx : C2.x = a.center.x + Real.cos φ * (2 * a.radius) := rfl
  have Cy : C2.y = a.center.y + Real.sin φ * (2 * a.radius) := rfl
  have Dx : C3.x = C2.x + Real.cos θ * (2 * a.radius) := rfl
  have Dy : C3.y = C2.y + Real.sin θ * (2 * a.radius) := rfl
  have Gx : C3.x - b.center.x = Real.cos ψ * (2 * a.radius) := congrArg P2.x Cg
  have Gy : C3.y - b.center.y = Real.sin ψ * (2 * a.radius) := congrArg P2.y Cg
  have hE : tangentialDouble E p a c2 c3 b =
      (a.setEnd E (C2 - a.center).angle,
       ((c2.setCenter C2).setEnd E (P2.fromPolar θ (2 * a.radius)).angle).setStart E
         ((a.setEnd E (C2 - a.center).angle).aEnd + Real.pi),
       ((c3.setCenter C3).setStart E ((P2.fromPolar θ (2 * a.radius)).angle + Real.pi)).setEnd E
         ((b.setStart E (C3 - b.center).angle).aStart + Real.pi),
       b.setStart E (C3 - b.center).angle) := rfl
  simp only [hE]
  rw [Cs, Cg]
  refine ⟨?_, ?_, ?_, fun ho => ?_, fun ho => ?_, fun ho => ?_⟩
  · have := Real.sin_sq_add_cos_sq φ
    refine eucl_of_diff (u := Real.cos φ) (w := Real.sin φ) h2r.le ?_ ?_ (by linarith)
    · simp only [Circ.setEnd, Circ.setStart, Circ.setCenter, computeArc_center]
      rw [Cx]; ring
    · simp only [Circ.setEnd, Circ.setStart, Circ.setCenter, computeArc_center]
      rw [Cy]; ring
  · have := Real.sin_sq_add_cos_sq θ
    refine eucl_of_diff (u := Real.cos θ) (w := Real.sin θ) h2r.le ?_ ?_ (by linarith)
    · simp only [Circ.setEnd, Circ.setStart, Circ.setCenter, computeArc_center]
      rw [Dx]; ring
    · simp only [Circ.setEnd, Circ.setStart, Circ.setCenter, computeArc_center]
      rw [Dy]; ring
  · have := Real.sin_sq_add_cos_sq ψ
    refine eucl_of_diff (u := -Real.cos ψ) (w := -Real.sin ψ) h2r.le ?_ ?_ (by linarith)
    · simp only [Circ.setEnd, Circ.setStart, Circ.setCenter, computeArc_center]
      linarith
    · simp only [Circ.setEnd, Circ.setStart, Circ.setCenter, computeArc_center]
      linarith
  · refine arcJoin_of hC (φ := φ) h2 ho Cx Cy ?_ ?_
    · simp only [Circ.setEnd, computeArc_aEnd, clamp_cos hC, clamp_sin hC]
      exact tφ
    · simp only [Circ.setEnd, Circ.setStart, Circ.setCenter, computeArc_aEnd, computeArc_aStart,
        clamp_cos hC, clamp_sin hC, Real.cos_add_pi, Real.sin_add_pi, tφ.1, tφ.2]
      trivial
  · refine arcJoin_of hC (φ := θ) (h3.trans h2.symm) ho ?_ ?_ ?_ ?_
    · simp only [Circ.setEnd, Circ.setStart, Circ.setCenter, computeArc_center, computeArc_radius]
      rw [h2]; exact Dx
    · simp only [Circ.setEnd, Circ.setStart, Circ.setCenter, computeArc_center, computeArc_radius]
      rw [h2]; exact Dy
    · simp only [Circ.setEnd, Circ.setStart, Circ.setCenter, computeArc_aEnd, computeArc_aStart,
        clamp_cos hC, clamp_sin hC]
      exact tθ
    · simp only [Circ.setEnd, Circ.setStart, Circ.setCenter, computeArc_aEnd, computeArc_aStart,
        clamp_cos hC, clamp_sin hC, Real.cos_add_pi, Real.sin_add_pi, tθ.1, tθ.2]
      trivial
  · refine arcJoin_of hC (φ := ψ + Real.pi) (hb.trans h3.symm) ho ?_ ?_ ?_ ?_
    · simp only [Circ.setEnd, Circ.setStart, Circ.setCenter, computeArc_center, computeArc_radius]
      rw [Real.cos_add_pi, h3]; linarith
    · simp only [Circ.setEnd, Circ.setStart, Circ.setCenter, computeArc_center, computeArc_radius]
      rw [Real.sin_add_pi, h3]; linarith
    · simp only [Circ.setEnd, Circ.setStart, Circ.setCenter, computeArc_aEnd, computeArc_aStart,
        clamp_cos hC, clamp_sin hC, Real.cos_add_pi, Real.sin_add_pi, tψ.1, tψ.2]
      trivial
    · simp only [Circ.setStart, computeArc_aStart, clamp_cos hC, clamp_sin hC, Real.cos_add_pi,
        Real.sin_add_pi, tψ.1, tψ.2, neg_neg]
      trivial

end joins
end PathPlanning.RS
