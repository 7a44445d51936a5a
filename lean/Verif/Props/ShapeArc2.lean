import Verif.Props.ShapeArc
import Mathlib.Algebra.Order.ToIntervalMod

/-!
# C46, C47: points on arcs, distances to arcs, sampling of arcs
-/

noncomputable section

namespace PathPlanning.Shapes
open Spec RS
open Real (pi)

/-- The direction of `p` seen from the centre lies within the angular range of the arc. -/
def InRange (c : Arc) (p : P2) : Prop :=
  ∃ t : ℝ, 0 ≤ t ∧ t ≤ c.arc ∧ ∃ k : Int, c.angleOf p = c.start + c.dir * t + k * (2 * pi)

theorem onArcS_of_inRange {c : Arc} {p : P2} (h : InRange c p) :
    OnArcS c.center (eucl p c.center) c.dir c.start c.arc p := by
  obtain ⟨t, h0, h1, hk⟩ := h
  refine ⟨t, h0, h1, ?_⟩
  rw [← circPt_congr _ _ hk]; exact (angleOf_spec c p).2.2.symm

theorem angle_unique {c : P2} {r a b : ℝ} (hr : 0 < r) (h : circPt c r a = circPt c r b) :
    ∃ k : Int, a = b + k * (2 * pi) := by
  have hx := congrArg P2.x h
  have hy := congrArg P2.y h
  simp only [circPt] at hx hy
  have hc : Real.cos a = Real.cos b := by
    have : r * (Real.cos a - Real.cos b) = 0 := by linarith
    rcases mul_eq_zero.1 this with h | h
    · linarith
    · linarith
  have hs : Real.sin a = Real.sin b := by
    have : r * (Real.sin a - Real.sin b) = 0 := by linarith
    rcases mul_eq_zero.1 this with h | h
    · linarith
    · linarith
  exact angle_cong hc hs

theorem inRange_iff {c : Arc} {p : P2} (hp : 0 < eucl p c.center) : InRange c p ↔
    OnArcS c.center (eucl p c.center) c.dir c.start c.arc p := by
  refine ⟨onArcS_of_inRange, ?_⟩
  rintro ⟨t, h0, h1, hq⟩
  refine ⟨t, h0, h1, angle_unique hp (c := c.center) ?_⟩
  rw [← hq]; exact (angleOf_spec c p).2.2

theorem int_zero_of {k : Int} {x : ℝ} (h : x = k * (2 * pi)) (h1 : -(2 * pi) < x) (h2 : x < 2 * pi) :
    k = 0 := by
  have hp := Real.two_pi_pos
  have a1 : (-1 : ℝ) < k := by
    by_contra hc; push Not at hc
    nlinarith
  have a2 : (k : ℝ) < 1 := by
    by_contra hc; push Not at hc
    nlinarith
  have b1 : (-1 : Int) < k := by exact_mod_cast a1
  have b2 : k < 1 := by exact_mod_cast a2
  omega

/-- **C46.** `isPointOnArc` accepts only points within the tolerance of the circle whose direction lies
in the range of the arc. -/
theorem onArc_sound (c : Arc) (h : c.WF) (p : P2) (tol : ℝ) (ht : c.onArc p tol = true) :
    |eucl p c.center - c.radius| ≤ tol ∧ InRange c p := by
  obtain ⟨a0, a1, _⟩ := angleOf_spec c p
  unfold Arc.onArc at ht
  simp only at ht
  rw [len_eq, eucl_comm] at ht
  split_ifs at ht with h1 h2 h3 h3
  · simp only [decide_eq_true_eq] at ht
    refine ⟨not_lt.1 h1, c.angleOf p - c.start, by linarith [ht.1], by linarith [ht.2], 0, ?_⟩
    rw [h2]; push_cast; ring
  · simp only [decide_eq_true_eq] at ht
    refine ⟨not_lt.1 h1, ?_⟩
    rcases ht with ht | ht
    · refine ⟨c.angleOf p - c.start, by linarith, by linarith, 0, ?_⟩
      rw [h2]; push_cast; ring
    · refine ⟨c.angleOf p - c.start + 2 * pi, by linarith [h.st1], by linarith, -1, ?_⟩
      rw [h2]; push_cast; ring
  · simp only [decide_eq_true_eq] at ht
    have hd : c.dir = -1 := h.dir.resolve_left h2
    refine ⟨not_lt.1 h1, c.start - c.angleOf p, by linarith [ht.2], by linarith [ht.1], 0, ?_⟩
    rw [hd]; push_cast; ring
  · simp only [decide_eq_true_eq] at ht
    have hd : c.dir = -1 := h.dir.resolve_left h2
    push Not at h3
    refine ⟨not_lt.1 h1, ?_⟩
    rcases ht with ht | ht
    · refine ⟨c.start - c.angleOf p + 2 * pi, by linarith [h.st0], by linarith, 1, ?_⟩
      rw [hd]; push_cast; ring
    · refine ⟨c.start - c.angleOf p, by linarith, by linarith, 0, ?_⟩
      rw [hd]; push_cast; ring

/-- The one case `isPointOnArc` gets wrong: the direction is exactly angle 0 and it is the end of a left
arc stored as `2π`, or the start of a right arc stored as `2π`. -/
def Seam (c : Arc) (p : P2) : Prop :=
  c.angleOf p = 0 ∧ ((c.dir = 1 ∧ c.start + c.arc = 2 * pi ∧ 0 < c.start) ∨
    (c.dir = -1 ∧ c.start = 2 * pi ∧ c.arc < 2 * pi))

/-- **C46.** Apart from the seam `isPointOnArc` accepts all such points. -/
theorem onArc_complete (c : Arc) (h : c.WF) (p : P2) (tol : ℝ)
    (h1 : |eucl p c.center - c.radius| ≤ tol) (hr : InRange c p) (hs : ¬ Seam c p) :
    c.onArc p tol = true := by
  obtain ⟨a0, a1, _⟩ := angleOf_spec c p
  obtain ⟨t, t0, t1, k, hk⟩ := hr
  have hp := Real.two_pi_pos
  unfold Arc.onArc
  simp only
  rw [len_eq, eucl_comm, if_neg (not_lt.2 h1)]
  have hst0 := h.st0
  have hst1 := h.st1
  have harc1 := h.arc1
  -- bounds on `k`
  rcases h.dir with hd | hd
  · rw [if_pos hd]
    rw [hd] at hk
    push_cast at hk
    have hk' : k = 0 ∨ k = -1 ∨ k = -2 := by
      have b1 : (-3 : ℝ) < k := by
        by_contra hc; push Not at hc; nlinarith
      have b2 : (k : ℝ) < 1 := by
        by_contra hc; push Not at hc; nlinarith
      have b3 : (-3 : Int) < k := by exact_mod_cast b1
      have b4 : k < 1 := by exact_mod_cast b2
      omega
    split_ifs with h3
    · simp only [decide_eq_true_eq]
      rcases hk' with rfl | rfl | rfl
      · push_cast at hk; constructor <;> linarith
      · push_cast at hk
        -- the angle is 0
        have e0 : c.angleOf p = 0 := by linarith
        have e1 : c.start + c.arc = 2 * pi := by linarith
        by_cases hz : 0 < c.start
        · exact absurd ⟨e0, Or.inl ⟨hd, e1, hz⟩⟩ hs
        · constructor <;> linarith
      · push_cast at hk; exfalso; linarith
    · simp only [decide_eq_true_eq]
      push Not at h3
      rcases hk' with rfl | rfl | rfl
      · left; push_cast at hk; linarith
      · right; push_cast at hk; linarith
      · right; push_cast at hk; linarith
  · rw [if_neg (by rw [hd]; decide)]
    rw [hd] at hk
    push_cast at hk
    have hk' : k = 0 ∨ k = 1 ∨ k = -1 := by
      have b1 : (-2 : ℝ) < k := by
        by_contra hc; push Not at hc; nlinarith
      have b2 : (k : ℝ) < 2 := by
        by_contra hc; push Not at hc; nlinarith
      have b3 : (-2 : Int) < k := by exact_mod_cast b1
      have b4 : k < 2 := by exact_mod_cast b2
      omega
    split_ifs with h3
    · simp only [decide_eq_true_eq]
      rcases hk' with rfl | rfl | rfl
      · push_cast at hk; constructor <;> linarith
      · push_cast at hk; exfalso; linarith
      · push_cast at hk
        have e0 : c.angleOf p = 0 := by linarith
        have e1 : c.start = 2 * pi := by linarith
        by_cases hz : c.arc < 2 * pi
        · exact absurd ⟨e0, Or.inr ⟨hd, e1, hz⟩⟩ hs
        · constructor <;> linarith
    · simp only [decide_eq_true_eq]
      push Not at h3
      rcases hk' with rfl | rfl | rfl
      · right; push_cast at hk; linarith
      · left; push_cast at hk; linarith
      · right; push_cast at hk; linarith

theorem angleOf_circPt (c : Arc) {r a : ℝ} (hr : 0 < r) (h0 : 0 ≤ a) (h1 : a < 2 * pi) :
    c.angleOf (circPt c.center r a) = a := by
  obtain ⟨a0, a1, a2⟩ := angleOf_spec c (circPt c.center r a)
  rw [circPt_eucl _ _ _ hr.le] at a2
  obtain ⟨k, hk⟩ := angle_unique hr a2
  have := int_zero_of (k := k) (x := c.angleOf (circPt c.center r a) - a) (by linarith) (by linarith)
    (by linarith)
  subst this
  simpa using hk

/-- **C46 (finding).** The seam is real: the left half circle from angle `π` to `2π` does not contain its
own end point according to `isPointOnArc`. -/
theorem onArc_misses_own_end : ∃ c : Arc, c.WF ∧ c.startPoint ≠ c.endPoint ∧
    c.onArc c.startPoint = true ∧ c.onArc c.endPoint = false := by
  have hp := Real.pi_pos
  let c : Arc := { center := ⟨0, 0⟩, radius := 1, dir := 1, arc := pi, start := pi }
  have hw : c.WF := ⟨one_pos, Or.inl rfl, hp.le, by simp only [c]; linarith, hp.le, by simp only [c]; linarith⟩
  have hs : c.startPoint = circPt c.center 1 pi := startPoint_eq c
  have he : c.endPoint = circPt c.center 1 0 := by
    rw [endPoint_eq c (Or.inl rfl)]
    apply circPt_congr
    exact ⟨1, by simp only [c]; push_cast; ring⟩
  have as : c.angleOf c.startPoint = pi := by
    rw [hs]; exact angleOf_circPt c one_pos hp.le (by linarith)
  have ae : c.angleOf c.endPoint = 0 := by
    rw [he]; exact angleOf_circPt c one_pos le_rfl (by linarith)
  refine ⟨c, hw, ?_, ?_, ?_⟩
  · intro h; rw [h, ae] at as; linarith
  · apply onArc_complete c hw
    · rw [hs, circPt_eucl _ _ _ zero_le_one]; simp only [c, sub_self, abs_zero]; unfold distEps; norm_num
    · refine ⟨0, le_rfl, hp.le, 0, ?_⟩
      rw [as]; simp [c]
    · rintro ⟨h, _⟩; rw [as] at h; linarith
  · unfold Arc.onArc
    simp only
    rw [ae]
    split_ifs with g1 g2 g3
    · rfl
    · simp only [c, decide_eq_false_iff_not]; intro hh; linarith [hh.1]
    · exfalso; apply g3; simp only [c]; linarith
    · exfalso; exact g2 rfl
    · exfalso; exact g2 rfl

/-! ### Distance -/

theorem law_of_cosines (c : P2) (ρ r α φ : ℝ) : dist2 (circPt c ρ α) (circPt c r φ) =
    ρ ^ 2 + r ^ 2 - 2 * (ρ * r) * Real.cos (φ - α) := by
  unfold dist2 circPt
  rw [Real.cos_sub]
  linear_combination ρ ^ 2 * Real.sin_sq_add_cos_sq α + r ^ 2 * Real.sin_sq_add_cos_sq φ

theorem cos_le_max {u v x : ℝ} (hu : 0 ≤ u) (h1 : u ≤ x) (h2 : x ≤ v) (hv : v ≤ 2 * pi) :
    Real.cos x ≤ max (Real.cos u) (Real.cos v) := by
  rcases le_total x pi with h | h
  · exact (Real.cos_le_cos_of_nonneg_of_le_pi hu h h1).trans (le_max_left _ _)
  · refine le_trans ?_ (le_max_right _ _)
    have e1 : Real.cos x = Real.cos (2 * pi - x) := by rw [Real.cos_two_pi_sub]
    have e2 : Real.cos v = Real.cos (2 * pi - v) := by rw [Real.cos_two_pi_sub]
    rw [e1, e2]
    exact Real.cos_le_cos_of_nonneg_of_le_pi (by linarith) (by linarith) (by linarith)

/-- The ends of an arc are the nearest points for a point whose direction is outside the range. -/
theorem ends_nearest (c : Arc) (h : c.WF) (p q : P2) (hn : ¬ InRange c p)
    (hq : OnArcS c.center c.radius c.dir c.start c.arc q) :
    min (eucl p c.startPoint) (eucl p c.endPoint) ≤ eucl p q := by
  obtain ⟨t, t0, t1, rfl⟩ := hq
  obtain ⟨a0, a1, a2⟩ := angleOf_spec c p
  set α := c.angleOf p with hα
  set ρ := eucl p c.center with hρ
  have hρ0 : 0 ≤ ρ := eucl_nonneg _ _
  set u := toIcoMod Real.two_pi_pos 0 (c.dir * (α - c.start)) with hu
  have hum := toIcoMod_mem_Ico Real.two_pi_pos 0 (c.dir * (α - c.start))
  rw [← hu] at hum
  obtain ⟨hu0, hu1⟩ := hum
  have huk : u = c.dir * (α - c.start) - toIcoDiv Real.two_pi_pos 0 (c.dir * (α - c.start)) * (2 * pi) := by
    have := toIcoMod_add_toIcoDiv_zsmul Real.two_pi_pos 0 (c.dir * (α - c.start))
    rw [zsmul_eq_mul] at this
    linarith
  set m := toIcoDiv Real.two_pi_pos 0 (c.dir * (α - c.start))
  have hdd : (c.dir : ℝ) * c.dir = 1 := by
    rcases h.dir with hd | hd <;> rw [hd] <;> norm_num
  have hαu : α = c.start + c.dir * u + (c.dir * m : Int) * (2 * pi) := by
    rw [huk]; push_cast; linear_combination (c.start - α) * hdd
  have hua : c.arc < u := by
    by_contra hc
    push Not at hc
    exact hn ⟨u, hu0, hc, c.dir * m, hαu⟩
  -- distances in terms of `u`
  have hd2 : ∀ s : ℝ, dist2 p (circPt c.center c.radius (c.start + c.dir * s)) =
      ρ ^ 2 + c.radius ^ 2 - 2 * (ρ * c.radius) * Real.cos (u - s) := by
    intro s
    conv_lhs => rw [← a2]
    rw [law_of_cosines]
    congr 2
    rw [hαu]
    rw [show c.start + c.dir * s - (c.start + c.dir * u + ((c.dir * m : Int) : ℝ) * (2 * pi)) =
      c.dir * (s - u) + ((-(c.dir * m) : Int) : ℝ) * (2 * pi) by push_cast; ring]
    rw [Real.cos_add_int_mul_two_pi]
    rcases h.dir with hd | hd <;> rw [hd]
    · rw [← Real.cos_neg]; congr 1; push_cast; ring
    · congr 1; push_cast; ring
  have hmono : ∀ s s' : ℝ, Real.cos (u - s') ≤ Real.cos (u - s) →
      eucl p (circPt c.center c.radius (c.start + c.dir * s)) ≤
      eucl p (circPt c.center c.radius (c.start + c.dir * s')) := by
    intro s s' hc
    apply Real.sqrt_le_sqrt
    rw [hd2, hd2]
    have : 0 ≤ 2 * (ρ * c.radius) := by have := h.r; positivity
    nlinarith
  have key := cos_le_max (u := u - c.arc) (v := u) (x := u - t) (by linarith) (by linarith) (by linarith)
    (by linarith)
  rw [startPoint_eq, endPoint_eq c h.dir]
  rcases le_max_iff.1 key with hk | hk
  · exact (min_le_right _ _).trans (hmono c.arc t hk)
  · refine (min_le_left _ _).trans ?_
    have := hmono 0 t (by simpa using hk)
    simpa using this

theorem start_onArcS (c : Arc) (h : c.WF) : OnArcS c.center c.radius c.dir c.start c.arc c.startPoint :=
  ⟨0, le_rfl, h.arc0, by rw [startPoint_eq]; simp⟩

theorem end_onArcS (c : Arc) (h : c.WF) : OnArcS c.center c.radius c.dir c.start c.arc c.endPoint :=
  ⟨c.arc, h.arc0, le_rfl, endPoint_eq c h.dir⟩

theorem radial_eq (c : Arc) (p : P2) (hp : 0 < eucl p c.center) :
    c.center + (unit (p - c.center)).smul c.radius = circPt c.center c.radius (c.angleOf p) := by
  obtain ⟨_, _, a2⟩ := angleOf_spec c p
  have hx := congrArg P2.x a2
  have hy := congrArg P2.y a2
  simp only [circPt] at hx hy
  have hl : (p - c.center).length = eucl p c.center := rfl
  unfold unit P2.smul circPt
  rw [hl]
  have hne := hp.ne'
  ext
  · simp only [P2.add_x, P2.sub_x]
    rw [show p.x - c.center.x = eucl p c.center * Real.cos (c.angleOf p) by linarith]
    field_simp
  · simp only [P2.add_y, P2.sub_y]
    rw [show p.y - c.center.y = eucl p c.center * Real.sin (c.angleOf p) by linarith]
    field_simp

theorem circle_dist_ge (c : P2) (p : P2) (r φ : ℝ) (hr : 0 ≤ r) :
    |eucl p c - r| ≤ eucl p (circPt c r φ) := by
  have h1 := eucl_triangle p (circPt c r φ) c
  have h2 := eucl_triangle (circPt c r φ) p c
  rw [circPt_eucl _ _ _ hr] at h1 h2
  rw [eucl_comm (circPt c r φ) p] at h2
  rw [abs_le]; constructor <;> linarith

/-- **C46.** `nearestPointTo` returns a point of the arc, `distanceTo` is the distance to it, and no point
of the arc is nearer (for points within `1e-5` of the centre: nearer by more than `2e-5`). The seam of
`isPointOnArc` does no harm here. -/
theorem arc_nearest_spec (c : Arc) (h : c.WF) (p : P2) :
    OnArcS c.center c.radius c.dir c.start c.arc (c.nearest p) ∧
    c.distanceTo p = eucl p (c.nearest p) ∧
    (distEps < eucl p c.center → ∀ q, OnArcS c.center c.radius c.dir c.start c.arc q →
      c.distanceTo p ≤ eucl p q) ∧
    (∀ q, OnArcS c.center c.radius c.dir c.start c.arc q → c.distanceTo p ≤ eucl p q + 2 * distEps) := by
  have hr := h.r
  have heps : (0 : ℝ) < distEps := by unfold distEps; norm_num
  have hmin : ∀ x y : P2, min (eucl p x) (eucl p y) = eucl p (if eucl p x < eucl p y then x else y) := by
    intro x y
    split_ifs with hc
    · exact min_eq_left hc.le
    · exact min_eq_right (not_lt.1 hc)
  by_cases hcase : eucl p c.center > distEps ∧
      c.onArc (c.center + (unit (p - c.center)).smul c.radius) = true
  · have e1 : c.distanceTo p = |eucl p c.center - c.radius| := by
      exact if_pos hcase
    have e2 : c.nearest p = c.center + (unit (p - c.center)).smul c.radius := by
      exact if_pos hcase
    have hpos : 0 < eucl p c.center := heps.trans hcase.1
    have hon := hcase.2
    rw [radial_eq c p hpos] at hon e2
    have hin := (onArc_sound c h _ _ hon).2
    have hOA := onArcS_of_inRange hin
    rw [circPt_eucl _ _ _ hr.le] at hOA
    have hd : eucl p (circPt c.center c.radius (c.angleOf p)) = |eucl p c.center - c.radius| := by
      have := eucl_circPt_same c.center (eucl p c.center) c.radius (c.angleOf p)
      rw [(angleOf_spec c p).2.2] at this; exact this
    have hall : ∀ q, OnArcS c.center c.radius c.dir c.start c.arc q → c.distanceTo p ≤ eucl p q := by
      rintro q ⟨t, _, _, rfl⟩
      rw [e1]; exact circle_dist_ge _ _ _ _ hr.le
    exact ⟨e2 ▸ hOA, by rw [e1, e2, hd], fun _ => hall, fun q hq => by linarith [hall q hq]⟩
  · have e1 : c.distanceTo p = min (eucl p c.startPoint) (eucl p c.endPoint) := by
      exact if_neg hcase
    have e2 : c.nearest p = if eucl p c.startPoint < eucl p c.endPoint then c.startPoint else c.endPoint := by
      exact if_neg hcase
    have hfar' : distEps < eucl p c.center → ∀ q, OnArcS c.center c.radius c.dir c.start c.arc q →
        c.distanceTo p ≤ eucl p q := by
      intro hfar q hq
      have hpos : 0 < eucl p c.center := heps.trans hfar
      rw [e1]
      by_cases hin : InRange c p
      · -- the seam: the radial point is an end of the arc
        set a := circPt c.center c.radius (c.angleOf p) with ha
        have haa : c.angleOf a = c.angleOf p :=
          angleOf_circPt c hr (angleOf_spec c p).1 (angleOf_spec c p).2.1
        have hina : InRange c a := by
          obtain ⟨t, t0, t1, hk⟩ := hin
          exact ⟨t, t0, t1, by rw [haa]; exact hk⟩
        have hnon : c.onArc a ≠ true := by
          intro hc; apply hcase
          rw [radial_eq c p hpos]; exact ⟨hfar, hc⟩
        have hseam : Seam c a := by
          by_contra hs
          apply hnon
          apply onArc_complete c h a _ _ hina hs
          rw [ha, circPt_eucl _ _ _ hr.le, sub_self, abs_zero]; exact heps.le
        have hd : eucl p a = |eucl p c.center - c.radius| := by
          have := eucl_circPt_same c.center (eucl p c.center) c.radius (c.angleOf p)
          rw [(angleOf_spec c p).2.2] at this; exact this
        obtain ⟨t, _, _, rfl⟩ := hq
        have hge := circle_dist_ge c.center p c.radius (c.start + c.dir * t) hr.le
        rw [← hd] at hge
        refine le_trans ?_ hge
        obtain ⟨hz, hs⟩ := hseam
        rw [haa] at hz
        rcases hs with ⟨hd1, hd2, _⟩ | ⟨hd1, hd2, _⟩
        · refine (min_le_right _ _).trans (le_of_eq ?_)
          congr 1
          rw [endPoint_eq c h.dir, ha, hz]
          apply circPt_congr
          exact ⟨1, by rw [hd1]; push_cast; linarith⟩
        · refine (min_le_left _ _).trans (le_of_eq ?_)
          congr 1
          rw [startPoint_eq, ha, hz, hd2]
          apply circPt_congr
          exact ⟨1, by push_cast; ring⟩
      · exact ends_nearest c h p q hin hq
    refine ⟨?_, by rw [e1, e2, hmin], hfar', ?_⟩
    · rw [e2]; split_ifs
      · exact start_onArcS c h
      · exact end_onArcS c h
    · intro q hq
      by_cases hfar : distEps < eucl p c.center
      · linarith [hfar' hfar q hq]
      · push Not at hfar
        obtain ⟨t, _, _, rfl⟩ := hq
        have hge := circle_dist_ge c.center p c.radius (c.start + c.dir * t) hr.le
        have h1 := neg_le_of_abs_le hge
        have h2 := eucl_triangle p c.center c.startPoint
        rw [eucl_comm c.center, startPoint_eq, circPt_eucl _ _ _ hr.le] at h2
        rw [e1, startPoint_eq]
        have := min_le_left (eucl p (circPt c.center c.radius c.start)) (eucl p c.endPoint)
        linarith

end PathPlanning.Shapes
