import Verif.Props.ShapeTangent3

/-!
# C63: concrete connections between two circles

A circle of radius 1 around the origin inside a circle of radius 4 around `(-3,0)`, connecting radius 1.
-/

noncomputable section

namespace PathPlanning.Shapes.TanEx

open Real (pi)
open Spec RS

def u : ℝ := Real.arccos (1 / 3)
def v : ℝ := Real.arccos (7 / 9)

theorem sqrt2 : Real.sqrt 2 * Real.sqrt 2 = 2 := Real.mul_self_sqrt (by norm_num)
theorem sqrt2_pos : 0 < Real.sqrt 2 := Real.sqrt_pos.2 (by norm_num)

theorem cos_u : Real.cos u = 1 / 3 := Real.cos_arccos (by norm_num) (by norm_num)
theorem cos_v : Real.cos v = 7 / 9 := Real.cos_arccos (by norm_num) (by norm_num)
theorem sin_u : Real.sin u = 2 * Real.sqrt 2 / 3 := by
  unfold u
  rw [Real.sin_arccos, Real.sqrt_eq_iff_mul_self_eq (by norm_num) (by have := sqrt2_pos; positivity)]
  nlinarith [sqrt2]
theorem sin_v : Real.sin v = 4 * Real.sqrt 2 / 9 := by
  unfold v
  rw [Real.sin_arccos, Real.sqrt_eq_iff_mul_self_eq (by norm_num) (by have := sqrt2_pos; positivity)]
  nlinarith [sqrt2]
theorem u_pos : 0 < u := Real.arccos_pos.2 (by norm_num)
theorem v_pos : 0 < v := Real.arccos_pos.2 (by norm_num)
theorem u_lt : u < pi / 2 := Real.arccos_lt_pi_div_two.2 (by norm_num)
theorem v_lt : v < pi / 2 := Real.arccos_lt_pi_div_two.2 (by norm_num)

/-- The two circles; the small one turns with `-d`, the large one with `d`. -/
def small (d : Int) : Arc := ⟨⟨0, 0⟩, 1, -d, 2 * pi, if -d = -1 then 2 * pi else 0⟩
def large (d : Int) : Arc := ⟨⟨-3, 0⟩, 4, d, 2 * pi, if d = -1 then 2 * pi else 0⟩

theorem small_wf {d : Int} (hd : d = 1 ∨ d = -1) : (small d).WF := by
  have hpi := Real.pi_pos
  rcases hd with rfl | rfl
  · exact ⟨one_pos, Or.inr rfl, by unfold small; positivity, le_rfl, by unfold small; simp; positivity, by unfold small; simp⟩
  · exact ⟨one_pos, Or.inl rfl, by unfold small; positivity, le_rfl, by unfold small; simp, by unfold small; simp; positivity⟩
theorem large_wf {d : Int} (hd : d = 1 ∨ d = -1) : (large d).WF := by
  have hpi := Real.pi_pos
  rcases hd with rfl | rfl
  · exact ⟨by unfold large; norm_num, Or.inl rfl, by unfold large; positivity, le_rfl, by unfold large; simp, by unfold large; simp; positivity⟩
  · exact ⟨by unfold large; norm_num, Or.inr rfl, by unfold large; positivity, le_rfl, by unfold large; simp; positivity, by unfold large; simp⟩

theorem dist_centers (d : Int) : eucl (large d).center (small d).center = 3 := by
  show eucl (⟨-3, 0⟩ : P2) ⟨0, 0⟩ = 3
  unfold eucl dist2; rw [Real.sqrt_eq_iff_mul_self_eq] <;> norm_num

/-- The auxiliary circles cross in two points. -/
theorem general {d : Int} (hd : d = 1 ∨ d = -1) : ∃ c1 c2 p q,
    Arc.new (small d).center ((small d).radius + 1) (small d).dir = .ok c1 ∧
    Arc.new (large d).center ((large d).radius - 1) (large d).dir = .ok c2 ∧
    intersectCC c1 c2 [] distEps = .ok [p, q] := by
  obtain ⟨c1, x1, x2, x3, _⟩ := new_dir (small d).center ((small d).radius + 1) (small d).dir (small_wf hd).dir
  obtain ⟨c2, y1, y2, y3, _⟩ := new_dir (large d).center ((large d).radius - 1) (large d).dir (large_wf hd).dir
  have x3' : c1.radius = 2 := by rw [x3]; unfold small; norm_num
  have y3' : c2.radius = 3 := by rw [y3]; unfold large; norm_num
  have hdd : eucl c2.center c1.center = 3 := by rw [x2, y2]; exact dist_centers d
  have hA : radA c1 c2 = 2 / 3 := by unfold radA; rw [hdd, x3', y3']; norm_num
  have hH : radH c1 c2 = 32 / 9 := by unfold radH; rw [hA, x3']; norm_num
  have ht : |distEps| = 1 / 100000 := by unfold distEps; rw [abs_of_pos]; norm_num
  refine ⟨c1, c2, axPt c1.center c2.center (radA c1 c2) (Real.sqrt (radH c1 c2)),
    axPt c1.center c2.center (radA c1 c2) (-Real.sqrt (radH c1 c2)), x1, y1, ?_⟩
  rw [intersectCC_eq, hdd, x3', y3', ht, hH]
  rw [if_neg (by norm_num), if_neg (by norm_num), if_neg (by norm_num), if_neg (by norm_num),
    if_neg (by rw [abs_of_pos] <;> norm_num), if_neg (by norm_num), if_neg (by norm_num)]

/-- The circle above the axis (`s = 1`) or below it (`s = -1`) joins the two circles. -/
def zc (s : ℝ) : P2 := ⟨-(2 / 3), s * (4 * Real.sqrt 2 / 3)⟩

theorem zc_small {s : ℝ} (hs : s * s = 1) (d : Int) : eucl (zc s) (small d).center = (small d).radius + 1 := by
  show eucl (zc s) ⟨0, 0⟩ = 1 + 1
  unfold eucl dist2 zc; rw [Real.sqrt_eq_iff_mul_self_eq (by positivity) (by norm_num)]
  simp only
  linear_combination ((16 / 9 : ℝ) * (Real.sqrt 2 * Real.sqrt 2)) * hs + (16 / 9 : ℝ) * sqrt2
theorem zc_large {s : ℝ} (hs : s * s = 1) (d : Int) : eucl (zc s) (large d).center = (large d).radius - 1 := by
  show eucl (zc s) ⟨-3, 0⟩ = 4 - 1
  unfold eucl dist2 zc; rw [Real.sqrt_eq_iff_mul_self_eq (by positivity) (by norm_num)]
  simp only
  linear_combination ((16 / 9 : ℝ) * (Real.sqrt 2 * Real.sqrt 2)) * hs + (16 / 9 : ℝ) * sqrt2

/-- **C63**, non-vacuity of `pathCircleCircle_best`: a path from the large to the small circle is found. -/
theorem pathCircleCircle_example : ∃ a t e, pathCircleCircle (small (-1)) (large (-1)) 1 false distEps =
    .ok [.arc a, .arc t, .arc e] ∧ t.arc ≤ u + v := by
  have hpi := Real.pi_pos
  have hd : (-1 : Int) = 1 ∨ (-1 : Int) = -1 := Or.inr rfl
  obtain ⟨c1, c2, p, q, n1, n2, hg⟩ := general hd
  have := u_pos; have := v_pos; have := u_lt; have := v_lt
  refine pathCircleCircle_best (small (-1)) (large (-1)) (small_wf hd) (large_wf hd) 1 distEps one_pos
    (by unfold distEps; norm_num) (by unfold distEps large; norm_num) (by unfold distEps small; norm_num)
    c1 c2 p q (by rw [dist_centers]; unfold distEps; norm_num) n1 n2 hg (zc 1) (zc_small (by norm_num) _)
    (zc_large (by norm_num) _) _ _ rfl rfl ⟨2 * pi - v, by linarith, by show 2 * pi - v ≤ 2 * pi; linarith, ?_⟩
    ?_ ⟨pi - u, by linarith, by show pi - u ≤ 2 * pi; linarith, ?_⟩ ?_ v (u + v) (by linarith) (by linarith) ?_ ?_
  · unfold large lerp circPt zc
    simp only [if_true]
    rw [show 2 * pi + ((-1 : Int) : ℝ) * (2 * pi - v) = v by push_cast; ring, cos_v, sin_v]
    norm_num; ring
  · rintro ⟨_, ⟨h, _⟩ | ⟨_, _, h⟩⟩
    · exact absurd h (by decide)
    · exact lt_irrefl _ h
  · unfold small lerp circPt zc
    simp only [show ¬ (-(-1 : Int) = -1) by decide, if_false]
    rw [show 0 + ((-(-1) : Int) : ℝ) * (pi - u) = pi - u by push_cast; ring, Real.cos_pi_sub, Real.sin_pi_sub, cos_u, sin_u]
    norm_num; ring
  · rintro ⟨_, ⟨_, _, h⟩ | ⟨h, _⟩⟩
    · exact lt_irrefl _ h
    · exact absurd h (by decide)
  · unfold large lerp circPt zc
    simp only
    rw [cos_v, sin_v]; norm_num; ring
  · unfold small large lerp circPt zc
    simp only
    rw [show v + ((-1 : Int) : ℝ) * (u + v) = -u by push_cast; ring, Real.cos_neg, Real.sin_neg, cos_u, sin_u]
    norm_num; ring

/-- **C63 (finding).** `tangentInnerArcs` does not always return the shortest connection. Here it returns
an arc of more than half a turn, although the other circle joins the two full circles with an arc of less
than half a turn; that arc crosses the angle zero. -/
theorem tangentInnerArcs_not_shortest (dmax : ℝ) (hdmax : 2 * pi < dmax) :
    (∃ t, tangentInnerArcs dmax (small 1) (large 1) 1 distEps = .ok [t] ∧ pi < t.arc) ∧
    ∃ s : Arc, Between (small 1) (large 1) 1 s ∧ s.startPoint = outPt (small 1) s ∧
      s.endPoint = innPt (large 1) s ∧ s.arc < pi ∧
      OnArcS (small 1).center (small 1).radius (small 1).dir (small 1).start (small 1).arc s.startPoint ∧
      OnArcS (large 1).center (large 1).radius (large 1).dir (large 1).start (large 1).arc s.endPoint := by
  have hpi := Real.pi_pos
  have hd : (1 : Int) = 1 ∨ (1 : Int) = -1 := Or.inl rfl
  obtain ⟨c1, c2, p, q, n1, n2, hg⟩ := general hd
  have hu := u_pos; have hv := v_pos; have hu2 := u_lt; have hv2 := v_lt
  have w0 := sqrt2_pos
  have e1 : (0 : ℝ) < distEps := by unfold distEps; norm_num
  have e2 : distEps ≤ (large 1).radius - 1 := by unfold distEps large; norm_num
  have e3 : distEps ≤ (small 1).radius + 1 := by unfold distEps small; norm_num
  have e4 : distEps ≤ eucl (large 1).center (small 1).center := by rw [dist_centers]; unfold distEps; norm_num
  constructor
  · obtain ⟨t, ht, -⟩ := tangentInnerArcs_best (small 1) (large 1) (small_wf hd) (large_wf hd) 1 distEps dmax hdmax
      one_pos e1 e2 e3 (by decide) c1 c2 p q e4 n1 n2 hg (zc (-1)) (zc_small (by norm_num) _)
      (zc_large (by norm_num) _) _ _ rfl rfl
      ⟨2 * pi - v, by linarith, by show 2 * pi - v ≤ 2 * pi; linarith, by
        unfold large lerp circPt zc
        simp only [show ¬ ((1 : Int) = -1) by decide, if_false]
        rw [show 0 + ((1 : Int) : ℝ) * (2 * pi - v) = 2 * pi - v by push_cast; ring, Real.cos_two_pi_sub, Real.sin_two_pi_sub, cos_v, sin_v]
        norm_num; ring⟩
      (by
        rintro ⟨_, ⟨_, _, h⟩ | ⟨h, _⟩⟩
        · exact lt_irrefl _ h
        · exact absurd h (by decide))
      ⟨pi - u, by linarith, by show pi - u ≤ 2 * pi; linarith, by
        unfold small lerp circPt zc
        simp only [if_true]
        rw [show 2 * pi + ((-1 : Int) : ℝ) * (pi - u) = u + pi by push_cast; ring, Real.cos_add_pi, Real.sin_add_pi, cos_u, sin_u]
        norm_num; ring⟩
      (by
        rintro ⟨_, ⟨h, _⟩ | ⟨_, _, h⟩⟩
        · exact absurd h (by decide)
        · exact lt_irrefl _ h)
      u (2 * pi - v - u) (by linarith)
      (by
        unfold small lerp circPt zc
        simp only
        rw [cos_u, sin_u]; norm_num; ring)
      (by
        unfold large lerp circPt zc
        simp only
        rw [show u + ((1 : Int) : ℝ) * (2 * pi - v - u) = 2 * pi - v by push_cast; ring, Real.cos_two_pi_sub, Real.sin_two_pi_sub, cos_v, sin_v]
        norm_num; ring)
      hu.le (by linarith)
      (by rw [show (large 1).dir = 1 from rfl]; push_cast; linarith)
      (by rw [show (large 1).dir = 1 from rfl]; push_cast; linarith)
    refine ⟨t, ht, ?_⟩
    obtain ⟨b, t1, t2, t3, t4, t5, t6⟩ := tangentInnerArcs_seam (small 1) (large 1) (small_wf hd) (large_wf hd) 1 distEps
      dmax hdmax one_pos e1 e2 e3 c1 c2 p q e4 n1 n2 hg ht
    have o := b.out
    have i := b.inn
    have hdir : t.dir = 1 := b.dir
    rw [startPoint_eq, b.rad] at t1
    rw [endPoint_eq t b.wf.dir, b.rad] at t2
    rw [hdir] at t2 t5 t6
    have o2 : t.center.x ^ 2 + t.center.y ^ 2 = 4 := by
      have h2 := eucl_sq t.center (small 1).center
      rw [o] at h2
      unfold small dist2 at h2
      norm_num at h2
      linarith
    have i2 : (t.center.x + 3) ^ 2 + t.center.y ^ 2 = 9 := by
      have h2 := eucl_sq t.center (large 1).center
      rw [i] at h2
      unfold large dist2 at h2
      norm_num at h2
      linarith
    have hx : t.center.x = -(2 / 3) := by nlinarith
    have sx := congrArg P2.x t1
    have sy := congrArg P2.y t1
    have ex := congrArg P2.x t2
    have ey := congrArg P2.y t2
    unfold outPt circPt lerp small at sx sy
    unfold innPt circPt lerp large at ex ey
    rw [b.rad] at sx sy ex ey
    push_cast at ex ey t5 t6
    rw [one_mul] at t5 t6 ex ey
    simp only [hx] at sx sy ex ey
    have cs : Real.cos t.start = 1 / 3 := by linarith
    have ss : Real.sin t.start = -(t.center.y / 2) := by linarith
    have ce : Real.cos (t.start + t.arc) = 7 / 9 := by norm_num at ex ⊢; linarith
    have se : Real.sin (t.start + t.arc) = t.center.y / 3 := by norm_num at ey ⊢; linarith
    have a0 := b.wf.arc0
    have neg_of : ∀ x : ℝ, pi < x → x < 2 * pi → Real.sin x < 0 := by
      intro x h1 h2
      have := Real.sin_pos_of_pos_of_lt_pi (x := x - pi) (by linarith) (by linarith)
      rw [Real.sin_sub_pi] at this; linarith
    have y2 : t.center.y ^ 2 = 32 / 9 := by rw [hx] at o2; linarith
    by_cases hy : 0 < t.center.y
    · exfalso
      have h1 : pi < t.start := by
        by_contra hc
        have := Real.sin_nonneg_of_nonneg_of_le_pi t3 (not_lt.1 hc)
        rw [ss] at this; linarith
      have := neg_of (t.start + t.arc) (by linarith) t6
      rw [se] at this; linarith
    · have hy' : t.center.y < 0 := by
        rcases (not_lt.1 hy).lt_or_eq with h | h
        · exact h
        · rw [h] at y2; norm_num at y2
      have h1 : t.start < pi / 2 := by
        by_contra hc
        push Not at hc
        by_cases h2 : pi < t.start
        · have := neg_of _ h2 t4; rw [ss] at this; linarith
        · have := Real.cos_nonpos_of_pi_div_two_le_of_le hc (by linarith)
          rw [cs] at this; linarith
      have h2 : pi + pi / 2 < t.start + t.arc := by
        by_contra hc
        push Not at hc
        by_cases h3 : t.start + t.arc ≤ pi
        · have := Real.sin_nonneg_of_nonneg_of_le_pi t5 h3
          rw [se] at this; linarith
        · have := Real.cos_nonpos_of_pi_div_two_le_of_le (x := t.start + t.arc) (by linarith) (by linarith)
          rw [ce] at this; linarith
      linarith
  · obtain ⟨ts, hT, hb, hn, t0, ht0, hz⟩ := inner_mem (small 1) (large 1) (small_wf hd) (large_wf hd) 1 distEps one_pos
      (by unfold large; norm_num) c1 c2 p q (by rw [dist_centers]; norm_num) (by rw [abs_of_pos e1]; exact e4) n1 n2 hg
      (zc 1) (zc_small (by norm_num) _) (zc_large (by norm_num) _)
    have b := hb t0 ht0
    obtain ⟨s1, s2, s3⟩ := between_small (small 1) (large 1) t0 (small_wf hd) one_pos b distEps e1 e3
    obtain ⟨l1, l2, l3⟩ := between_large (small 1) (large 1) t0 one_pos b distEps e1 e2
    obtain ⟨w1, w2, w3, w4, w5, w6⟩ := setSE_spec t0 b.wf _ _ s3 l3
    have harc := setSE_arc_min t0 b.wf _ _ s3 l3 (φ := -u) (α := u + v) (by linarith)
      (by
        unfold outPt; rw [hz, b.rad]
        unfold small lerp circPt zc
        simp only
        rw [Real.cos_neg, Real.sin_neg, cos_u, sin_u]; norm_num; ring)
      (by
        unfold innPt; rw [hz, b.rad, b.dir]
        unfold large lerp circPt zc
        simp only
        rw [show -u + ((1 : Int) : ℝ) * (u + v) = v by push_cast; ring, cos_v, sin_v]; norm_num; ring)
    refine ⟨_, ⟨w1, by rw [w4, b.rad], by rw [w6, b.dir], by rw [w5, b.out], by rw [w5, b.inn]⟩, ?_, ?_, by linarith, ?_, ?_⟩
    · exact w2
    · exact w3
    · rw [w2]
      refine ⟨pi + u, by linarith, by show pi + u ≤ 2 * pi; linarith, ?_⟩
      unfold outPt; rw [hz, b.rad]
      unfold small lerp circPt zc
      simp only [if_true]
      rw [show 2 * pi + ((-1 : Int) : ℝ) * (pi + u) = pi - u by push_cast; ring, Real.cos_pi_sub, Real.sin_pi_sub, cos_u, sin_u]
      norm_num; ring
    · rw [w3]
      refine ⟨v, by linarith, by show v ≤ 2 * pi; linarith, ?_⟩
      unfold innPt; rw [hz, b.rad]
      unfold large lerp circPt zc
      simp only [show ¬ ((1 : Int) = -1) by decide, if_false]
      rw [show 0 + ((1 : Int) : ℝ) * v = v by push_cast; ring, cos_v, sin_v]
      norm_num; ring

end PathPlanning.Shapes.TanEx
