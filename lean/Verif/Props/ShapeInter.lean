import Verif.Props.ShapeArc2
import Verif.Props.ShapeLine2

/-!
# C45: the intersector
-/

noncomputable section

namespace PathPlanning.Shapes

open Real (pi)
open Spec RS

/-! ### Coordinates along the line of the centres -/

/-- The point with coordinate `a` along the direction from `p` to `q` and `h` to the right of it. -/
def axPt (p q : P2) (a h : ℝ) : P2 :=
  ⟨p.x + a / eucl q p * (q.x - p.x) + h / eucl q p * (q.y - p.y),
   p.y + a / eucl q p * (q.y - p.y) - h / eucl q p * (q.x - p.x)⟩

theorem axis_sq {p q : P2} : eucl q p ^ 2 = (q.x - p.x) ^ 2 + (q.y - p.y) ^ 2 := by
  rw [eucl_sq]; rfl

theorem axPt_dist1 {p q : P2} (hd : 0 < eucl q p) (a h : ℝ) : dist2 (axPt p q a h) p = a ^ 2 + h ^ 2 := by
  have e := axis_sq (p := p) (q := q)
  have hne := hd.ne'
  unfold dist2 axPt
  simp only
  generalize eucl q p = d at *
  field_simp
  linear_combination (-(a ^ 2 + h ^ 2)) * e

theorem axPt_dist2 {p q : P2} (hd : 0 < eucl q p) (a h : ℝ) :
    dist2 (axPt p q a h) q = (eucl q p - a) ^ 2 + h ^ 2 := by
  have e := axis_sq (p := p) (q := q)
  have hne := hd.ne'
  unfold dist2 axPt
  simp only
  generalize eucl q p = d at *
  field_simp
  linear_combination (-((d - a) ^ 2 + h ^ 2)) * e

theorem axPt_dist {p q : P2} (hd : 0 < eucl q p) (a h k : ℝ) :
    eucl (axPt p q a h) (axPt p q a k) = |h - k| := by
  have e := axis_sq (p := p) (q := q)
  have hne := hd.ne'
  have : dist2 (axPt p q a h) (axPt p q a k) = (h - k) ^ 2 := by
    unfold dist2 axPt
    simp only
    generalize eucl q p = d at *
    field_simp
    linear_combination (-(h - k) ^ 2) * e
  unfold eucl
  rw [this, Real.sqrt_sq_eq_abs]

theorem axPt_surj {p q : P2} (hd : 0 < eucl q p) (z : P2) : ∃ a h, z = axPt p q a h := by
  have e := axis_sq (p := p) (q := q)
  have hne := hd.ne'
  refine ⟨((z.x - p.x) * (q.x - p.x) + (z.y - p.y) * (q.y - p.y)) / eucl q p,
    ((z.x - p.x) * (q.y - p.y) - (z.y - p.y) * (q.x - p.x)) / eucl q p, ?_⟩
  unfold axPt
  generalize eucl q p = d at *
  ext
  · simp only; field_simp; linear_combination (z.x - p.x) * e
  · simp only; field_simp; linear_combination (z.y - p.y) * e

/-- Common points of two circles have the coordinate of the radical line. -/
theorem common_coord {p q : P2} (hd : 0 < eucl q p) {r1 r2 : ℝ} {z : P2}
    (h1 : eucl z p = r1) (h2 : eucl z q = r2) :
    ∃ h, z = axPt p q ((r1 * r1 - r2 * r2 + eucl q p * eucl q p) / (2 * eucl q p)) h ∧
      h ^ 2 = r1 * r1 - ((r1 * r1 - r2 * r2 + eucl q p * eucl q p) / (2 * eucl q p)) *
        ((r1 * r1 - r2 * r2 + eucl q p * eucl q p) / (2 * eucl q p)) := by
  obtain ⟨a, h, rfl⟩ := axPt_surj hd z
  have e1 : a ^ 2 + h ^ 2 = r1 ^ 2 := by rw [← axPt_dist1 hd, ← eucl_sq, h1]
  have e2 : (eucl q p - a) ^ 2 + h ^ 2 = r2 ^ 2 := by rw [← axPt_dist2 hd, ← eucl_sq, h2]
  have ha : a = (r1 * r1 - r2 * r2 + eucl q p * eucl q p) / (2 * eucl q p) := by
    rw [eq_div_iff (by positivity)]; nlinarith
  rw [← ha]
  exact ⟨h, rfl, by nlinarith⟩

/-! ### Circle and circle -/

/-- The coordinate of the radical line and the squared half chord. -/
def radA (c1 c2 : Arc) : ℝ :=
  (c1.radius * c1.radius - c2.radius * c2.radius + eucl c2.center c1.center * eucl c2.center c1.center) /
    (2 * eucl c2.center c1.center)

def radH (c1 c2 : Arc) : ℝ := c1.radius * c1.radius - radA c1 c2 * radA c1 c2

/-- The branches of the code in these terms. -/
theorem intersectCC_eq (c1 c2 : Arc) (old : List P2) (tol : ℝ) :
    intersectCC c1 c2 old tol =
      if eucl c2.center c1.center < |tol| then .ok old
      else if eucl c2.center c1.center > c1.radius + c2.radius + |tol| then .ok []
      else if eucl c2.center c1.center + |tol| < |c1.radius - c2.radius| then .ok []
      else if |c1.radius + c2.radius - eucl c2.center c1.center| < |tol| then
        .ok [axPt c1.center c2.center (radA c1 c2) 0]
      else if |radH c1 c2| < |tol| * |tol| then .ok [axPt c1.center c2.center (radA c1 c2) 0]
      else if radH c1 c2 < -(|tol| * |tol|) then .ok []
      else if radH c1 c2 < 0 then .throw "NaN"
      else .ok [axPt c1.center c2.center (radA c1 c2) (Real.sqrt (radH c1 c2)),
        axPt c1.center c2.center (radA c1 c2) (-Real.sqrt (radH c1 c2))] := by
  have e0 : ∀ a : ℝ, (⟨c1.center.x + a / eucl c2.center c1.center * (c2.center.x - c1.center.x),
      c1.center.y + a / eucl c2.center c1.center * (c2.center.y - c1.center.y)⟩ : P2) =
      axPt c1.center c2.center a 0 := by
    intro a; unfold axPt; ext <;> simp
  have e1 : ∀ a h : ℝ, axPt c1.center c2.center a 0 +
      (⟨c2.center.y - c1.center.y, -1 * (c2.center.x - c1.center.x)⟩ : P2).smul
        (h / eucl c2.center c1.center) = axPt c1.center c2.center a h := by
    intro a h; unfold axPt P2.smul
    ext
    · simp only [P2.add_x]; ring
    · simp only [P2.add_y]; ring
  have e2 : ∀ a h : ℝ, axPt c1.center c2.center a 0 +
      (⟨-1 * (c2.center.y - c1.center.y), c2.center.x - c1.center.x⟩ : P2).smul
        (h / eucl c2.center c1.center) = axPt c1.center c2.center a (-h) := by
    intro a h; unfold axPt P2.smul
    ext
    · simp only [P2.add_x]; ring
    · simp only [P2.add_y]; ring
  have raw : intersectCC c1 c2 old tol =
      if eucl c2.center c1.center < |tol| then .ok old
      else if eucl c2.center c1.center > c1.radius + c2.radius + |tol| then .ok []
      else if eucl c2.center c1.center + |tol| < |c1.radius - c2.radius| then .ok []
      else if |eucl c2.center c1.center| < |tol| ∧ |c1.radius - c2.radius| < |tol| then .ok []
      else if |c1.radius + c2.radius - eucl c2.center c1.center| < |tol| ∨
          eucl c2.center c1.center + |c1.radius - c2.radius| < |tol| then
        .ok [axPt c1.center c2.center (radA c1 c2) 0]
      else if ¬ |radH c1 c2| < |tol| * |tol| ∧ radH c1 c2 < -(|tol| * |tol|) then .ok []
      else if (if |radH c1 c2| < |tol| * |tol| then 0 else radH c1 c2) < 0 then .throw "NaN"
      else if Real.sqrt (if |radH c1 c2| < |tol| * |tol| then 0 else radH c1 c2) < |tol| then
        .ok [axPt c1.center c2.center (radA c1 c2) 0]
      else .ok [axPt c1.center c2.center (radA c1 c2)
          (Real.sqrt (if |radH c1 c2| < |tol| * |tol| then 0 else radH c1 c2)),
        axPt c1.center c2.center (radA c1 c2)
          (-Real.sqrt (if |radH c1 c2| < |tol| * |tol| then 0 else radH c1 c2))] := by
    rw [← e1 _ (Real.sqrt _), ← e2 _ (Real.sqrt _), ← e0]
    rfl
  rw [raw]
  have ht := abs_nonneg tol
  by_cases b0 : eucl c2.center c1.center < |tol|
  · rw [if_pos b0, if_pos b0]
  rw [if_neg b0, if_neg b0]
  by_cases b1 : eucl c2.center c1.center > c1.radius + c2.radius + |tol|
  · rw [if_pos b1, if_pos b1]
  rw [if_neg b1, if_neg b1]
  by_cases b2 : eucl c2.center c1.center + |tol| < |c1.radius - c2.radius|
  · rw [if_pos b2, if_pos b2]
  rw [if_neg b2, if_neg b2, if_neg (fun h => b0 (lt_of_le_of_lt (le_abs_self _) h.1))]
  by_cases b3 : |c1.radius + c2.radius - eucl c2.center c1.center| < |tol|
  · rw [if_pos b3, if_pos (Or.inl b3)]
  rw [if_neg b3, if_neg (not_or.2 ⟨b3, fun h => b0 (lt_of_le_of_lt (by linarith [abs_nonneg (c1.radius - c2.radius)]) h)⟩)]
  by_cases b4 : |radH c1 c2| < |tol| * |tol|
  · have hpos : 0 < |tol| := by
      rcases ht.lt_or_eq with h | h
      · exact h
      · rw [← h, mul_zero] at b4; exact absurd b4 (not_lt.2 (abs_nonneg _))
    simp only [b4, if_true, not_true, false_and, if_false, lt_irrefl, Real.sqrt_zero, hpos]
  · simp only [b4, if_false, not_false_eq_true, true_and]
    by_cases b5 : radH c1 c2 < -(|tol| * |tol|)
    · rw [if_pos b5, if_pos b5]
    rw [if_neg b5, if_neg b5]
    by_cases b6 : radH c1 c2 < 0
    · rw [if_pos b6, if_pos b6]
    rw [if_neg b6, if_neg b6]
    rw [if_neg]
    rw [not_lt]
    apply Real.le_sqrt_of_sq_le
    rw [not_lt, abs_of_nonneg (not_lt.1 b6)] at b4
    nlinarith

/-- The touching case: the radical coordinate is within `3/2` of the tolerance of the radius. -/
theorem radA_touch {r1 r2 d t : ℝ} (hd : 0 < d) (hr1 : 0 ≤ r1) (hr2 : 0 ≤ r2) (htd : t ≤ d)
    (h : |r1 + r2 - d| < t) : |(r1 * r1 - r2 * r2 + d * d) / (2 * d) - r1| ≤ 3 / 2 * t := by
  rw [abs_lt] at h
  have e : (r1 * r1 - r2 * r2 + d * d) / (2 * d) - r1 = (d - r1 - r2) * (d - r1 + r2) / (2 * d) := by
    field_simp; ring
  rw [e, abs_div, abs_of_pos (by linarith : 0 < 2 * d), div_le_iff₀ (by linarith), abs_mul]
  have h1 : |d - r1 - r2| ≤ t := abs_le.2 ⟨by linarith, by linarith⟩
  have h2 : |d - r1 + r2| ≤ 3 * d := abs_le.2 ⟨by linarith, by linarith⟩
  have := mul_le_mul h1 h2 (abs_nonneg _) (by linarith [abs_nonneg (d - r1 - r2)])
  linarith

/-- `|x|` is close to `r` if `x²` is close to `r²`. -/
theorem near_of_sq {x r t : ℝ} (hr : 0 ≤ r) (hx : 0 ≤ x) (ht : 0 ≤ t) (h : |r * r - x * x| < t * t) :
    |x - r| < t := by
  have e : |r * r - x * x| = |x - r| * (x + r) := by
    rw [show r * r - x * x = -((x - r) * (x + r)) by ring, abs_neg, abs_mul, abs_of_nonneg (by linarith : 0 ≤ x + r)]
  have h1 : |x - r| ≤ x + r := abs_le.2 ⟨by linarith, by linarith⟩
  by_contra hc
  push Not at hc
  have := abs_nonneg (x - r)
  nlinarith

theorem axPt_eucl1 {p q : P2} (hd : 0 < eucl q p) (a : ℝ) : eucl (axPt p q a 0) p = |a| := by
  unfold eucl; rw [axPt_dist1 hd]; simp [Real.sqrt_sq_eq_abs]

theorem axPt_eucl2 {p q : P2} (hd : 0 < eucl q p) (a : ℝ) : eucl (axPt p q a 0) q = |eucl q p - a| := by
  have := axPt_dist2 hd a 0
  conv_lhs => unfold eucl
  rw [this]; simp [Real.sqrt_sq_eq_abs]

theorem radA_other (c1 c2 : Arc) (hd : 0 < eucl c2.center c1.center) :
    eucl c2.center c1.center - radA c1 c2 = (c2.radius * c2.radius - c1.radius * c1.radius +
      eucl c2.center c1.center * eucl c2.center c1.center) / (2 * eucl c2.center c1.center) ∧
    radH c1 c2 = c2.radius * c2.radius - (eucl c2.center c1.center - radA c1 c2) *
      (eucl c2.center c1.center - radA c1 c2) := by
  unfold radH radA
  constructor
  · field_simp; ring
  · field_simp; ring

/-- **C45**, circle and circle, soundness. For circles whose centres differ by at least the tolerance,
the result has at most two points; two points are distinct and lie exactly on both circles, a single
point (touching circles) lies within `3/2` of the tolerance of both. -/
theorem intersectCC_sound (c1 c2 : Arc) (h1 : 0 ≤ c1.radius) (h2 : 0 ≤ c2.radius) (old : List P2)
    (tol : ℝ) (hd0 : 0 < eucl c2.center c1.center) (hd : |tol| ≤ eucl c2.center c1.center)
    {res : List P2} (hres : intersectCC c1 c2 old tol = .ok res) :
    res = [] ∨
    (∃ p, res = [p] ∧ |eucl p c1.center - c1.radius| ≤ 3 / 2 * |tol| ∧
      |eucl p c2.center - c2.radius| ≤ 3 / 2 * |tol|) ∨
    (∃ p q, res = [p, q] ∧ (tol ≠ 0 → p ≠ q) ∧ eucl p c1.center = c1.radius ∧ eucl p c2.center = c2.radius ∧
      eucl q c1.center = c1.radius ∧ eucl q c2.center = c2.radius) := by
  have ht := abs_nonneg tol
  obtain ⟨o1, o2⟩ := radA_other c1 c2 hd0
  rw [intersectCC_eq, if_neg (not_lt.2 hd)] at hres
  split_ifs at hres with b1 b2 b3 b4 b5 b6
  · left; injection hres with h; exact h.symm
  · left; injection hres with h; exact h.symm
  · -- touching
    right; left
    injection hres with h
    refine ⟨_, h.symm, ?_, ?_⟩
    · rw [axPt_eucl1 hd0]
      have := radA_touch hd0 h1 h2 hd b3
      refine le_trans ?_ this
      have := abs_abs_sub_abs_le (radA c1 c2) c1.radius
      rwa [abs_of_nonneg h1] at this
    · rw [axPt_eucl2 hd0, o1]
      have := radA_touch hd0 h2 h1 hd (by rwa [add_comm])
      refine le_trans ?_ this
      have := abs_abs_sub_abs_le ((c2.radius * c2.radius - c1.radius * c1.radius +
        eucl c2.center c1.center * eucl c2.center c1.center) / (2 * eucl c2.center c1.center)) c2.radius
      rwa [abs_of_nonneg h2] at this
  · -- nearly touching
    right; left
    injection hres with h
    refine ⟨_, h.symm, ?_, ?_⟩
    · rw [axPt_eucl1 hd0]
      have := near_of_sq h1 (abs_nonneg (radA c1 c2)) ht (by rw [abs_mul_abs_self]; exact b4)
      linarith
    · rw [axPt_eucl2 hd0]
      rw [o2] at b4
      have := near_of_sq h2 (abs_nonneg (eucl c2.center c1.center - radA c1 c2)) ht
        (by rw [abs_mul_abs_self]; exact b4)
      linarith
  · left; injection hres with h; exact h.symm
  · right; right
    injection hres with h
    have hH := not_lt.1 b6
    have hs := Real.sq_sqrt hH
    have e1 : ∀ k, k ^ 2 = radH c1 c2 → eucl (axPt c1.center c2.center (radA c1 c2) k) c1.center = c1.radius := by
      intro k hk
      have := axPt_dist1 hd0 (radA c1 c2) k
      conv_lhs => unfold eucl
      rw [this, hk, radH, ← pow_two (radA c1 c2), add_sub_cancel, ← pow_two, Real.sqrt_sq h1]
    have e2 : ∀ k, k ^ 2 = radH c1 c2 → eucl (axPt c1.center c2.center (radA c1 c2) k) c2.center = c2.radius := by
      intro k hk
      have := axPt_dist2 hd0 (radA c1 c2) k
      conv_lhs => unfold eucl
      rw [this, hk, o2, ← pow_two (eucl c2.center c1.center - radA c1 c2), add_sub_cancel, ← pow_two, Real.sqrt_sq h2]
    refine ⟨_, _, h.symm, ?_, e1 _ hs, e2 _ hs, e1 _ (by rw [neg_sq]; exact hs), e2 _ (by rw [neg_sq]; exact hs)⟩
    intro hne he
    have hz := axPt_dist hd0 (radA c1 c2) (Real.sqrt (radH c1 c2)) (-Real.sqrt (radH c1 c2))
    rw [← he, eucl_self] at hz
    have : Real.sqrt (radH c1 c2) = 0 := by
      have := abs_eq_zero.1 hz.symm; linarith
    rw [this] at hs
    apply b4
    rw [← hs]; simp only [ne_eq, OfNat.ofNat_ne_zero, not_false_eq_true, zero_pow, abs_zero]
    have := abs_pos.2 hne; positivity

/-- **C45**, circle and circle, completeness. Every common point of two circles whose centres differ by
at least the tolerance is found: exactly if two points are returned, and within `√(3·tol·r)` (`r` the
smaller radius) if the circles are recognised as touching. -/
theorem intersectCC_complete (c1 c2 : Arc) (h1 : 0 ≤ c1.radius) (h2 : 0 ≤ c2.radius) (old : List P2)
    (tol : ℝ) (hd0 : 0 < eucl c2.center c1.center) (hd : |tol| ≤ eucl c2.center c1.center) (z : P2)
    (z1 : eucl z c1.center = c1.radius) (z2 : eucl z c2.center = c2.radius) :
    ∃ res, intersectCC c1 c2 old tol = .ok res ∧
      (z ∈ res ∨ ∃ p, res = [p] ∧
        (eucl z p ≤ |tol| ∨ eucl z p ≤ Real.sqrt (3 * |tol| * min c1.radius c2.radius))) := by
  have ht := abs_nonneg tol
  obtain ⟨o1, o2⟩ := radA_other c1 c2 hd0
  obtain ⟨h, hz, hh⟩ := common_coord hd0 z1 z2
  have hzA : z = axPt c1.center c2.center (radA c1 c2) h := hz
  have hH : h ^ 2 = radH c1 c2 := hh
  have hH0 : 0 ≤ radH c1 c2 := by rw [← hH]; positivity
  have tri1 := eucl_triangle c2.center z c1.center
  rw [eucl_comm c2.center z, z1, z2] at tri1
  have tri2 := eucl_triangle z c2.center c1.center
  have tri3 := eucl_triangle z c1.center c2.center
  rw [z1, z2] at tri2 tri3
  rw [eucl_comm c1.center] at tri3
  have hzp : eucl z (axPt c1.center c2.center (radA c1 c2) 0) = |h| := by
    rw [hzA, axPt_dist hd0, sub_zero]
  rw [intersectCC_eq, if_neg (not_lt.2 hd), if_neg (by linarith), if_neg]
  swap
  · rw [not_lt]
    have : |c1.radius - c2.radius| ≤ eucl c2.center c1.center := abs_le.2 ⟨by linarith, by linarith⟩
    linarith
  by_cases b3 : |c1.radius + c2.radius - eucl c2.center c1.center| < |tol|
  · rw [if_pos b3]
    refine ⟨_, rfl, Or.inr ⟨_, rfl, Or.inr ?_⟩⟩
    rw [hzp]
    apply Real.le_sqrt_of_sq_le
    rw [sq_abs]
    have k1 := radA_touch hd0 h1 h2 hd b3
    have k2 := radA_touch hd0 h2 h1 hd (by rwa [add_comm])
    rw [← o1] at k2
    have a1 : |radA c1 c2| ≤ c1.radius := abs_le_of_sq_le_sq (by
      have : radH c1 c2 = c1.radius ^ 2 - radA c1 c2 ^ 2 := by unfold radH; ring
      nlinarith) h1
    have a2 : |eucl c2.center c1.center - radA c1 c2| ≤ c2.radius := abs_le_of_sq_le_sq (by
      nlinarith) h2
    have k1' : |radA c1 c2 - c1.radius| ≤ 3 / 2 * |tol| := k1
    rw [abs_le] at a1 a2 k1' k2
    have m1 : h ^ 2 ≤ 3 * |tol| * c1.radius := by
      rw [hH]; unfold radH; nlinarith
    have m2 : h ^ 2 ≤ 3 * |tol| * c2.radius := by
      rw [hH, o2]; nlinarith
    rcases min_choice c1.radius c2.radius with hm | hm <;> rw [hm] <;> assumption
  rw [if_neg b3]
  by_cases b4 : |radH c1 c2| < |tol| * |tol|
  · rw [if_pos b4]
    refine ⟨_, rfl, Or.inr ⟨_, rfl, Or.inl ?_⟩⟩
    rw [hzp]
    rw [abs_of_nonneg hH0, ← hH, ← sq_abs] at b4
    by_contra hc
    push Not at hc
    nlinarith
  rw [if_neg b4, if_neg (by nlinarith), if_neg (not_lt.2 hH0)]
  refine ⟨_, rfl, Or.inl ?_⟩
  rw [hzA]
  have hs : Real.sqrt (radH c1 c2) = |h| := by rw [← hH, Real.sqrt_sq_eq_abs]
  rw [hs]
  rcases abs_cases h with ⟨e, _⟩ | ⟨e, _⟩ <;> rw [e] <;> simp

/-- **C45 (finding).** For (nearly) concentric circles the function returns before clearing its output
vector: whatever an earlier call left there is reported as the intersection. -/
theorem intersectCC_stale (c1 c2 : Arc) (tol : ℝ) (hd : eucl c2.center c1.center < |tol|)
    (old : List P2) : intersectCC c1 c2 old tol = .ok old := by
  rw [intersectCC_eq, if_pos hd]

/-- **C45 (finding).** The tolerance does not work for circles that touch from inside (the test
`d + |r1 - r2| < tol` cannot succeed after `d < tol` was excluded): if the smaller circle lies inside the
larger one with a gap `e ≤ tol`, nothing is returned as soon as `tol² d < 2 e r1 r2`, whereas circles
that touch from outside with the same gap yield a point. -/
theorem intersectCC_inner_missed (c1 c2 : Arc) (old : List P2) (tol e : ℝ)
    (h2 : 0 < c2.radius) (he : 0 < e) (het : e ≤ |tol|)
    (hd : |tol| ≤ eucl c2.center c1.center)
    (hgap : eucl c2.center c1.center = c1.radius - c2.radius - e) (hlt : |tol| < 2 * c2.radius + e)
    (hbig : |tol| * |tol| * eucl c2.center c1.center < 2 * e * c1.radius * c2.radius) :
    intersectCC c1 c2 old tol = .ok [] := by
  have ht := abs_nonneg tol
  set d := eucl c2.center c1.center with hdd
  have hd0 : 0 < d := lt_of_lt_of_le (lt_of_lt_of_le he het) hd
  have hr : c1.radius = d + c2.radius + e := by linarith
  have hH : radH c1 c2 < -(|tol| * |tol|) := by
    unfold radH radA
    rw [← hdd]
    have ea : (c1.radius * c1.radius - c2.radius * c2.radius + d * d) / (2 * d) =
        c1.radius + e * (2 * c2.radius + e) / (2 * d) := by
      rw [hr]; field_simp; ring
    rw [ea]
    have hx : 0 < e * (2 * c2.radius + e) / (2 * d) := by positivity
    have hx2 : e * c2.radius / d ≤ e * (2 * c2.radius + e) / (2 * d) := by
      rw [div_le_div_iff₀ hd0 (by linarith)]; nlinarith [mul_pos he he]
    have hb : |tol| * |tol| < 2 * c1.radius * (e * c2.radius / d) := by
      rw [← mul_div_assoc, lt_div_iff₀ hd0]; linarith
    have hc1 : 0 < c1.radius := by linarith
    nlinarith
  rw [intersectCC_eq, if_neg (not_lt.2 hd), if_neg (by linarith), if_neg, if_neg, if_neg, if_pos hH]
  · rw [not_lt, abs_of_neg (a := radH c1 c2) (by nlinarith)]; linarith
  · rw [not_lt]
    have : c1.radius + c2.radius - d = 2 * c2.radius + e := by linarith
    rw [← hdd, this, abs_of_pos (a := 2 * c2.radius + e) (by linarith)]; exact hlt.le
  · rw [not_lt, ← hdd]
    rw [abs_of_pos (a := c1.radius - c2.radius) (by linarith)]; linarith

/-! ### Line and circle -/

/-- The discriminant: `(2·len·h)²` for a chord of half length `h`. -/
def lcD (l : Ln) (k : Arc) : ℝ :=
  4 * dist2 l.e l.s * (k.radius * k.radius - dist2 k.center (l.foot k.center))

theorem lc_quad (l : Ln) (h : l.s ≠ l.e) (k : Arc) (t : ℝ) :
    dist2 (lerp l.s l.e t) k.center = dist2 k.center (l.foot k.center) +
      (t - footParam l k.center) ^ 2 * dist2 l.e l.s := by
  rw [← dist2_foot l h]; unfold dist2; ring

theorem intersectLC_eq (l : Ln) (h : l.s ≠ l.e) (k : Arc) (tol : ℝ) :
    intersectLC l k tol =
      if lcD l k < -(|tol| * |tol|) then []
      else if |lcD l k| < |tol| * |tol| then
        if footParam l k.center ≥ 0 ∧ footParam l k.center ≤ 1 then [l.foot k.center] else []
      else if lcD l k < 0 then []
      else
        let m1 := footParam l k.center - Real.sqrt (lcD l k) / (2 * dist2 l.e l.s)
        let m2 := footParam l k.center + Real.sqrt (lcD l k) / (2 * dist2 l.e l.s)
        if m1 < 0 ∧ m2 < 0 then []
        else (if m1 ≥ 0 ∧ m1 ≤ 1 then [lerp l.s l.e m1] else []) ++
          (if m2 ≥ 0 ∧ m2 ≤ 1 then [lerp l.s l.e m2] else []) := by
  have hd : 0 < dist2 l.e l.s := by rw [← eucl_sq]; have : 0 < eucl l.e l.s := len_pos h; positivity
  have hdv : dist2 l.e l.s = (l.e.x - l.s.x) ^ 2 + (l.e.y - l.s.y) ^ 2 := rfl
  have hs : ∀ mu : ℝ, l.s + (l.e - l.s).smul mu = lerp l.s l.e mu := by
    intro mu; unfold P2.smul lerp; ext <;> simp <;> ring
  have ha : (l.e - l.s).x * (l.e - l.s).x + (l.e - l.s).y * (l.e - l.s).y = dist2 l.e l.s := by
    simp only [P2.sub_x, P2.sub_y]; rw [hdv]; ring
  have hb : 2 * ((l.e - l.s).x * (l.s - k.center).x + (l.e - l.s).y * (l.s - k.center).y) =
      -(2 * dist2 l.e l.s * footParam l k.center) := by
    unfold footParam
    rw [mul_assoc, mul_div_cancel₀ _ hd.ne']
    simp only [P2.sub_x, P2.sub_y]; ring
  have hc : k.center.x * k.center.x + k.center.y * k.center.y + (l.s.x * l.s.x + l.s.y * l.s.y) -
      2 * (k.center.x * l.s.x + k.center.y * l.s.y) - k.radius * k.radius =
      dist2 k.center (l.foot k.center) + footParam l k.center ^ 2 * dist2 l.e l.s - k.radius * k.radius := by
    have := lc_quad l h k 0
    rw [lerp_zero, zero_sub, neg_sq] at this
    rw [← this]; unfold dist2; ring
  have hD : (-(2 * dist2 l.e l.s * footParam l k.center)) * (-(2 * dist2 l.e l.s * footParam l k.center)) -
      4 * dist2 l.e l.s * (dist2 k.center (l.foot k.center) + footParam l k.center ^ 2 * dist2 l.e l.s -
        k.radius * k.radius) = lcD l k := by unfold lcD; ring
  have m0 : -(-(2 * dist2 l.e l.s * footParam l k.center)) / (2 * dist2 l.e l.s) = footParam l k.center := by
    field_simp
  have m1 : (-(-(2 * dist2 l.e l.s * footParam l k.center)) - Real.sqrt (lcD l k)) / (2 * dist2 l.e l.s) =
      footParam l k.center - Real.sqrt (lcD l k) / (2 * dist2 l.e l.s) := by field_simp
  have m2 : (-(-(2 * dist2 l.e l.s * footParam l k.center)) + Real.sqrt (lcD l k)) / (2 * dist2 l.e l.s) =
      footParam l k.center + Real.sqrt (lcD l k) / (2 * dist2 l.e l.s) := by field_simp
  unfold intersectLC
  simp only [hs, ha, hb, hc, hD, m0, m1, m2]
  rw [foot_eq l h]

/-- **C45**, line and circle, soundness. Every point returned lies on the segment. It lies exactly on
the circle, or it is the only point, the foot point of the centre, and its squared distance from the
centre differs from `r²` by less than `tol²/(4·len²)`. -/
theorem intersectLC_sound (l : Ln) (h : l.s ≠ l.e) (k : Arc) (hr : 0 ≤ k.radius) (tol : ℝ) :
    (intersectLC l k tol).length ≤ 2 ∧ ∀ p ∈ intersectLC l k tol, OnSeg l.s l.e p ∧
      (eucl p k.center = k.radius ∨
        (intersectLC l k tol = [p] ∧ p = l.foot k.center ∧
          |eucl p k.center ^ 2 - k.radius ^ 2| < tol ^ 2 / (4 * eucl l.e l.s ^ 2))) := by
  have hd : 0 < dist2 l.e l.s := by rw [← eucl_sq]; have : 0 < eucl l.e l.s := len_pos h; positivity
  have hf := foot_eq l h k.center
  rw [intersectLC_eq l h]
  split_ifs with b1 b2 b3 b4
  · simp
  · refine ⟨by simp, fun p hp => ?_⟩
    simp only [List.mem_singleton] at hp
    subst hp
    refine ⟨⟨_, b3.1, b3.2, hf⟩, Or.inr ⟨rfl, rfl, ?_⟩⟩
    rw [eucl_sq, eucl_sq, lt_div_iff₀ (by positivity)]
    have e : dist2 (l.foot k.center) k.center = dist2 k.center (l.foot k.center) := by unfold dist2; ring
    rw [e]
    unfold lcD at b2
    rw [abs_mul, abs_of_pos (by positivity : 0 < 4 * dist2 l.e l.s), abs_mul_abs_self] at b2
    rw [abs_sub_comm, mul_comm, pow_two, pow_two]; exact b2
  · simp
  · simp
  · have hD := not_lt.1 b4
    have hon : ∀ m : ℝ, (m - footParam l k.center) ^ 2 = (Real.sqrt (lcD l k) / (2 * dist2 l.e l.s)) ^ 2 →
        eucl (lerp l.s l.e m) k.center = k.radius := by
      intro m hm
      unfold eucl
      rw [lc_quad l h, hm, div_pow, Real.sq_sqrt hD, ← Real.sqrt_sq hr]
      congr 1
      unfold lcD
      field_simp; ring
    simp only
    split_ifs with b5 b6 b7 b7
    · simp
    · refine ⟨by simp, fun p hp => ?_⟩
      simp only [List.cons_append, List.nil_append, List.mem_cons, List.not_mem_nil, or_false] at hp
      rcases hp with rfl | rfl
      · exact ⟨⟨_, b6.1, b6.2, rfl⟩, Or.inl (hon _ (by ring))⟩
      · exact ⟨⟨_, b7.1, b7.2, rfl⟩, Or.inl (hon _ (by ring))⟩
    · refine ⟨by simp, fun p hp => ?_⟩
      simp only [List.append_nil, List.mem_singleton] at hp
      subst hp
      exact ⟨⟨_, b6.1, b6.2, rfl⟩, Or.inl (hon _ (by ring))⟩
    · refine ⟨by simp, fun p hp => ?_⟩
      simp only [List.nil_append, List.mem_singleton] at hp
      subst hp
      exact ⟨⟨_, b7.1, b7.2, rfl⟩, Or.inl (hon _ (by ring))⟩
    · simp

/-- **C45**, line and circle, completeness. Every common point of the segment and the circle is returned,
except that a point within `tol/(2·len)` of the foot point of the centre (a nearly tangential line) may be
represented by the foot point — which is returned if it lies on the segment. -/
theorem intersectLC_complete (l : Ln) (h : l.s ≠ l.e) (k : Arc) (tol : ℝ) (q : P2)
    (q1 : OnSeg l.s l.e q) (q2 : eucl q k.center = k.radius) :
    q ∈ intersectLC l k tol ∨ (eucl q (l.foot k.center) < |tol| / (2 * eucl l.e l.s) ∧
      (OnSeg l.s l.e (l.foot k.center) → intersectLC l k tol = [l.foot k.center])) := by
  have hl : 0 < eucl l.e l.s := len_pos h
  have hd : 0 < dist2 l.e l.s := by rw [← eucl_sq]; positivity
  have hf := foot_eq l h k.center
  obtain ⟨m, m0, m1, rfl⟩ := q1
  have hq := lc_quad l h k m
  rw [← eucl_sq, q2] at hq
  have hDm : lcD l k = (2 * dist2 l.e l.s * (m - footParam l k.center)) ^ 2 := by
    unfold lcD; rw [← pow_two, hq]; ring
  have hD : 0 ≤ lcD l k := by rw [hDm]; positivity
  have hs : Real.sqrt (lcD l k) / (2 * dist2 l.e l.s) = |m - footParam l k.center| := by
    rw [hDm, Real.sqrt_sq_eq_abs, abs_mul, abs_of_pos (by linarith : 0 < 2 * dist2 l.e l.s)]
    field_simp
  rw [intersectLC_eq l h, if_neg (by nlinarith [abs_nonneg tol])]
  by_cases b2 : |lcD l k| < |tol| * |tol|
  · right
    rw [if_pos b2]
    constructor
    · rw [hf, eucl_lerp, lt_div_iff₀ (by positivity)]
      rw [abs_of_nonneg hD, hDm, ← pow_two] at b2
      have := lt_of_pow_lt_pow_left₀ 2 (abs_nonneg tol) (by rwa [sq_abs (2 * _ * _)] : |2 * dist2 l.e l.s * (m - footParam l k.center)| ^ 2 < _)
      rw [abs_mul, abs_of_pos (by linarith : 0 < 2 * dist2 l.e l.s), ← eucl_sq] at this
      nlinarith
    · rintro ⟨u, u0, u1, hu⟩
      have : footParam l k.center = u := by
        have e3 := eucl_lerp l.s l.e (footParam l k.center) u
        rw [← hf, hu, eucl_self] at e3
        rcases mul_eq_zero.1 e3.symm with h | h
        · linarith [abs_eq_zero.1 h]
        · linarith
      rw [if_pos ⟨by rw [this]; exact u0, by rw [this]; exact u1⟩]
  · left
    rw [if_neg b2, if_neg (not_lt.2 hD)]
    simp only [hs]
    rcases abs_cases (m - footParam l k.center) with ⟨e, _⟩ | ⟨e, _⟩ <;> rw [e]
    · rw [show footParam l k.center + (m - footParam l k.center) = m by ring]
      rw [if_neg (fun h => by linarith [h.2]), if_pos (⟨m0, m1⟩ : m ≥ 0 ∧ m ≤ 1)]
      simp
    · rw [show footParam l k.center - -(m - footParam l k.center) = m by ring]
      rw [if_neg (fun h => by linarith [h.1]), if_pos (⟨m0, m1⟩ : m ≥ 0 ∧ m ≤ 1)]
      simp

/-! ### Arcs -/

/-- **C45**, arcs: every point returned is one of the points of the circles and lies, within `1e-5`, on
both arcs. -/
theorem intersectArcs_sound (c1 c2 : Arc) (h1 : c1.WF) (h2 : c2.WF) (tol : ℝ) {res : List P2}
    (hres : intersectArcs c1 c2 tol = .ok res) : ∃ full, intersectCC c1 c2 [] tol = .ok full ∧
      ∀ p ∈ res, p ∈ full ∧ |eucl p c1.center - c1.radius| ≤ distEps ∧
        |eucl p c2.center - c2.radius| ≤ distEps ∧ InRange c1 p ∧ InRange c2 p := by
  unfold intersectArcs at hres
  obtain ⟨full, hf, hres⟩ := CRes.bind_eq_ok.1 hres
  rw [CRes.pure_eq] at hres
  injection hres with hres
  subst hres
  refine ⟨full, hf, fun p hp => ?_⟩
  obtain ⟨a, b⟩ := List.mem_filter.1 hp
  simp only [Bool.and_eq_true] at b
  obtain ⟨x1, x2⟩ := onArc_sound c1 h1 p _ b.1
  obtain ⟨y1, y2⟩ := onArc_sound c2 h2 p _ b.2
  exact ⟨a, x1, y1, x2, y2⟩

/-- **C45**, arcs, completeness: of the points found for the circles, all those on both arcs are returned
(unless they hit the seam of one of the arcs, see C46). -/
theorem intersectArcs_complete (c1 c2 : Arc) (h1 : c1.WF) (h2 : c2.WF) (tol : ℝ) {full : List P2}
    (hf : intersectCC c1 c2 [] tol = .ok full) (p : P2) (hp : p ∈ full)
    (p1 : OnArcS c1.center c1.radius c1.dir c1.start c1.arc p)
    (p2 : OnArcS c2.center c2.radius c2.dir c2.start c2.arc p)
    (s1 : ¬ Seam c1 p) (s2 : ¬ Seam c2 p) : ∃ res, intersectArcs c1 c2 tol = .ok res ∧ p ∈ res := by
  have key : ∀ c : Arc, c.WF → OnArcS c.center c.radius c.dir c.start c.arc p → ¬ Seam c p →
      c.onArc p = true := by
    intro c h hp hs
    have hpr : eucl p c.center = c.radius := by
      obtain ⟨t, _, _, rfl⟩ := hp; exact circPt_eucl _ _ _ h.r.le
    apply onArc_complete c h p
    · rw [hpr, sub_self, abs_zero]; unfold distEps; norm_num
    · rw [inRange_iff (by rw [hpr]; exact h.r), hpr]; exact hp
    · exact hs
  refine ⟨full.filter (fun p => c1.onArc p && c2.onArc p), ?_, ?_⟩
  · unfold intersectArcs; rw [hf]; rfl
  · rw [List.mem_filter]; exact ⟨hp, by rw [key c1 h1 p1 s1, key c2 h2 p2 s2]; rfl⟩

/-- Non-vacuity: the circles of radius 5 around `(0,0)` and `(6,0)` meet in `(3,4)`; the segment from
`(3,0)` to `(3,10)` meets the first one there. -/
theorem inter_example : ∃ c1 c2 : Arc, c1.WF ∧ c2.WF ∧ 0 < eucl c2.center c1.center ∧
    |distEps| ≤ eucl c2.center c1.center ∧ eucl (⟨3, 4⟩ : P2) c1.center = c1.radius ∧
    eucl (⟨3, 4⟩ : P2) c2.center = c2.radius ∧ OnSeg ⟨3, 0⟩ ⟨3, 10⟩ (⟨3, 4⟩ : P2) := by
  have hp := Real.pi_pos
  have h6 : eucl (⟨6, 0⟩ : P2) ⟨0, 0⟩ = 6 := by
    unfold eucl dist2; rw [Real.sqrt_eq_iff_mul_self_eq] <;> norm_num
  refine ⟨⟨⟨0, 0⟩, 5, 1, 2 * pi, 0⟩, ⟨⟨6, 0⟩, 5, 1, 2 * pi, 0⟩,
    ⟨by norm_num, Or.inl rfl, by linarith, le_rfl, le_rfl, by linarith⟩,
    ⟨by norm_num, Or.inl rfl, by linarith, le_rfl, le_rfl, by linarith⟩, ?_, ?_, ?_, ?_, ?_⟩
  · rw [h6]; norm_num
  · rw [h6]; unfold distEps; rw [abs_of_pos] <;> norm_num
  · unfold eucl dist2; rw [Real.sqrt_eq_iff_mul_self_eq] <;> norm_num
  · unfold eucl dist2; rw [Real.sqrt_eq_iff_mul_self_eq] <;> norm_num
  · exact ⟨2 / 5, by norm_num, by norm_num, by unfold lerp; norm_num⟩

end PathPlanning.Shapes
