import Verif.Props.ShapeInter

/-!
# C63: tangential paths between lines and circles
-/

noncomputable section

namespace PathPlanning.Shapes

open Real (pi)
open Spec RS

theorem _root_.PathPlanning.Spec.AngEq.trans {a b c : ℝ} (h1 : AngEq a b) (h2 : AngEq b c) : AngEq a c := by
  obtain ⟨k, rfl⟩ := h1
  obtain ⟨m, rfl⟩ := h2
  exact ⟨m + k, by push_cast; ring⟩

theorem _root_.PathPlanning.Spec.AngEq.symm {a b : ℝ} (h1 : AngEq a b) : AngEq b a := by
  obtain ⟨k, rfl⟩ := h1
  exact ⟨-k, by push_cast; ring⟩

theorem _root_.PathPlanning.Spec.AngEq.heading {a b : ℝ} (d : Int) (h1 : AngEq a b) :
    AngEq (circHeading d a) (circHeading d b) := by
  obtain ⟨k, rfl⟩ := h1
  exact ⟨k, by unfold circHeading; ring⟩

theorem wrap_angEq (a : ℝ) : AngEq (wrap a) a := (wrap_spec a).2.2.1

/-! ### Auxiliary facts about arcs -/

theorem new_dir (p : P2) (r : ℝ) (d : Int) (hd : d = 1 ∨ d = -1) : ∃ c, Arc.new p r d = .ok c ∧
    c.center = p ∧ c.radius = |r| ∧ c.dir = d ∧ c.arc = 2 * pi ∧ 0 ≤ c.start ∧ c.start ≤ 2 * pi := by
  have hp := Real.pi_pos
  rcases hd with rfl | rfl
  · exact ⟨_, rfl, rfl, rfl, rfl, rfl, by simp, by simp; positivity⟩
  · exact ⟨_, rfl, rfl, rfl, rfl, rfl, by simp; positivity, by simp⟩

theorem circlesAt_ok (r : ℝ) (d : Int) (hd : d = 1 ∨ d = -1) (ps : List P2) :
    ∃ cs, circlesAt r d ps = .ok cs ∧ cs.map Arc.center = ps ∧
      ∀ c ∈ cs, c.radius = |r| ∧ c.dir = d ∧ c.arc = 2 * pi ∧ 0 ≤ c.start ∧ c.start ≤ 2 * pi := by
  induction ps with
  | nil => exact ⟨[], rfl, rfl, by simp⟩
  | cons p ps ih =>
    obtain ⟨cs, h1, h2, h3⟩ := ih
    obtain ⟨c, c1, c2, c3, c4, c5⟩ := new_dir p r d hd
    refine ⟨c :: cs, ?_, by simp [c2, h2], ?_⟩
    · unfold circlesAt; rw [c1, h1]; rfl
    · intro x hx
      rcases List.mem_cons.1 hx with rfl | hx
      · exact ⟨c3, c4, c5⟩
      · exact h3 x hx

theorem minArc_spec : ∀ (as : List Arc) (m : Arc), minArc m as ∈ m :: as ∧
    ∀ a ∈ m :: as, |(minArc m as).arc| ≤ |a.arc| := by
  intro as
  induction as with
  | nil => intro m; simp [minArc]
  | cons b bs ih =>
    intro m
    unfold minArc
    obtain ⟨h1, h2⟩ := ih (if b.less m then b else m)
    have hle : ∀ x, x = b ∨ x = m → |(minArc (if b.less m then b else m) bs).arc| ≤ |x.arc| := by
      intro x hx
      refine (h2 _ (List.mem_cons_self)).trans ?_
      unfold Arc.less Arc.getArc
      rcases hx with rfl | rfl
      · split_ifs with hc
        · exact le_rfl
        · simp only [decide_eq_true_eq, not_lt] at hc; exact hc
      · split_ifs with hc
        · simp only [decide_eq_true_eq] at hc; exact hc.le
        · exact le_rfl
    constructor
    · rcases List.mem_cons.1 h1 with h | h
      · rw [h]; split_ifs <;> simp
      · exact List.mem_cons_of_mem _ (List.mem_cons_of_mem _ h)
    · intro a ha
      rcases List.mem_cons.1 ha with rfl | ha
      · exact hle _ (Or.inr rfl)
      rcases List.mem_cons.1 ha with rfl | ha
      · exact hle _ (Or.inl rfl)
      · exact h2 a (List.mem_cons_of_mem _ ha)

/-- Setting start and end to points of the circle. -/
theorem setSE_spec (t : Arc) (h : t.WF) (p q : P2) (hp : eucl p t.center = t.radius)
    (hq : eucl q t.center = t.radius) :
    ((t.setStartP p).setEndP q).WF ∧ ((t.setStartP p).setEndP q).startPoint = p ∧
    ((t.setStartP p).setEndP q).endPoint = q ∧ ((t.setStartP p).setEndP q).radius = t.radius ∧
    ((t.setStartP p).setEndP q).center = t.center ∧ ((t.setStartP p).setEndP q).dir = t.dir := by
  have w1 := setStart_wf t h (t.angleOf p)
  have w2 := setEnd_wf (t.setStart (t.angleOf p)) w1 ((t.setStartP p).angleOf q)
  obtain ⟨e1, e2, _⟩ := setEnd_spec (t.setStart (t.angleOf p)) w1.dir ((t.setStartP p).angleOf q)
  obtain ⟨s1, _⟩ := setStart_spec t h.dir (t.angleOf p)
  refine ⟨w2, ?_, ?_, rfl, rfl, rfl⟩
  · show ((t.setStart (t.angleOf p)).setEnd _).startPoint = p
    rw [e2, s1, ← hp]; exact (angleOf_spec t p).2.2
  · show ((t.setStart (t.angleOf p)).setEnd _).endPoint = q
    rw [e1]
    show circPt t.center t.radius (t.angleOf q) = q
    rw [← hq]; exact (angleOf_spec t q).2.2

/-- The heading of an arc in terms of the point it passes. -/
theorem heading_of_point (c : P2) {r : ℝ} (hr : 0 < r) (d : Int) (hd : d = 1 ∨ d = -1) {φ θ : ℝ} {p : P2}
    (hp : p = circPt c r φ) (hx : p.x - c.x = r * (d * Real.sin θ))
    (hy : p.y - c.y = -(r * (d * Real.cos θ))) : AngEq (circHeading d φ) θ := by
  subst hp
  simp only [circPt] at hx hy
  have h1 : Real.cos φ = d * Real.sin θ := by
    apply mul_left_cancel₀ hr.ne'; linarith
  have h2 : Real.sin φ = -(d * Real.cos θ) := by
    apply mul_left_cancel₀ hr.ne'; linarith
  apply angle_cong
  · unfold circHeading
    rcases hd with rfl | rfl
    · rw [show φ + ((1 : Int) : ℝ) * (pi / 2) = φ + pi / 2 by push_cast; ring, Real.cos_add_pi_div_two, h2]
      push_cast; ring
    · rw [show φ + ((-1 : Int) : ℝ) * (pi / 2) = φ - pi / 2 by push_cast; ring, Real.cos_sub_pi_div_two, h2]
      push_cast; ring
  · unfold circHeading
    rcases hd with rfl | rfl
    · rw [show φ + ((1 : Int) : ℝ) * (pi / 2) = φ + pi / 2 by push_cast; ring, Real.sin_add_pi_div_two, h1]
      push_cast; ring
    · rw [show φ + ((-1 : Int) : ℝ) * (pi / 2) = φ - pi / 2 by push_cast; ring, Real.sin_sub_pi_div_two, h1]
      push_cast; ring

/-! ### The line from the centre of a circle -/

/-- The line from the centre to a point outside meets the circle in exactly one point. -/
theorem intersectLC_radial (t : Arc) (hr : 0 < t.radius) (z : P2) (hz : t.radius ≤ eucl z t.center)
    (tol : ℝ) (ht : |tol| ≤ 2 * eucl z t.center * t.radius) :
    intersectLC ⟨t.center, z⟩ t tol = [lerp t.center z (t.radius / eucl z t.center)] := by
  have hD : 0 < eucl z t.center := lt_of_lt_of_le hr hz
  have hne : (⟨t.center, z⟩ : Ln).s ≠ (⟨t.center, z⟩ : Ln).e := by
    intro he; simp only at he; rw [← he, eucl_self] at hD; exact lt_irrefl _ hD
  have hfp : footParam ⟨t.center, z⟩ t.center = 0 := by unfold footParam; simp
  have hfoot : (⟨t.center, z⟩ : Ln).foot t.center = t.center := by
    rw [foot_eq _ hne, hfp]; exact lerp_zero _ _
  have hself : dist2 t.center t.center = 0 := by unfold dist2; ring
  have hd2 : dist2 z t.center = eucl z t.center ^ 2 := (eucl_sq _ _).symm
  have hlc : lcD ⟨t.center, z⟩ t = (2 * eucl z t.center * t.radius) ^ 2 := by
    unfold lcD; rw [hfoot]; simp only; rw [hself, hd2]; ring
  have hsq : Real.sqrt (lcD ⟨t.center, z⟩ t) = 2 * eucl z t.center * t.radius := by
    rw [hlc, Real.sqrt_sq (by positivity)]
  have hq : 2 * eucl z t.center * t.radius / (2 * dist2 z t.center) = t.radius / eucl z t.center := by
    rw [hd2]; field_simp
  have h0 := abs_nonneg tol
  have hpos : 0 < t.radius / eucl z t.center := by positivity
  rw [intersectLC_eq _ hne, if_neg (by rw [hlc]; nlinarith [sq_nonneg (2 * eucl z t.center * t.radius)]),
    if_neg, if_neg (by rw [hlc]; exact not_lt.2 (sq_nonneg _))]
  · simp only [hsq, hq, hfp, zero_sub, zero_add]
    rw [if_neg (fun h => by linarith [h.2]), if_neg (fun h => by linarith [h.1]),
      if_pos ⟨hpos.le, by rw [div_le_one hD]; exact hz⟩]
    rfl
  · rw [hlc, abs_of_nonneg (sq_nonneg _), not_lt, pow_two]
    exact mul_le_mul ht ht h0 (by positivity)

/-! ### Circles tangential to a line and a circle -/

/-- **C63.** `tangentCircles`: the call is defined; every circle returned has the given radius and the
direction opposite to the circle's, touches the line in a point of the segment (its centre is at signed
distance `±radius` from it), and touches the circle from outside: the distance of the centres is the sum
of the radii up to `tol/(2·len)`. -/
theorem tangentCircles_spec (l : Ln) (h : l.s ≠ l.e) (k : Arc) (hk : k.WF) (r : ℝ) (hr : 0 < r) (tol : ℝ) :
    ∃ ts, tangentCircles l k r tol = .ok ts ∧ ∀ t ∈ ts, t.WF ∧ t.radius = r ∧ t.dir = -k.dir ∧
      OnSeg l.s l.e (l.foot t.center) ∧ (l.signedDist t.center = r ∨ l.signedDist t.center = -r) ∧
      |eucl t.center k.center - (k.radius + r)| ≤ |tol| / (2 * eucl l.e l.s) := by
  have hl : 0 < eucl l.e l.s := len_pos h
  have hkr := hk.r
  obtain ⟨c2, k1, k2, k3, k4, _⟩ := new_dir k.center (k.radius + r) k.dir hk.dir
  have hdir : k.dir * (-1) = 1 ∨ k.dir * (-1) = -1 := by rcases hk.dir with h | h <;> rw [h] <;> simp
  rw [abs_of_pos (by linarith)] at k3
  have side : ∀ d : ℝ, |d| = r → ∃ ts, circlesAt r (k.dir * (-1)) (intersectLC (l.parallel d) c2 tol) = .ok ts ∧
      ∀ t ∈ ts, t.WF ∧ t.radius = r ∧ t.dir = -k.dir ∧
      OnSeg l.s l.e (l.foot t.center) ∧ l.signedDist t.center = d ∧
      |eucl t.center k.center - (k.radius + r)| ≤ |tol| / (2 * eucl l.e l.s) := by
    intro d hd
    obtain ⟨p1, p2⟩ := parallel_spec l h d
    have hne : (l.parallel d).s ≠ (l.parallel d).e := by
      intro he
      apply h
      have hx := congrArg P2.x p1
      have hy := congrArg P2.y p1
      rw [he] at hx hy
      simp only [P2.sub_x, P2.sub_y, sub_self] at hx hy
      ext <;> linarith
    have hlen : eucl (l.parallel d).e (l.parallel d).s = eucl l.e l.s := by
      show ((l.parallel d).e - (l.parallel d).s).length = (l.e - l.s).length
      rw [p1]
    obtain ⟨_, ls⟩ := intersectLC_sound (l.parallel d) hne c2 (by rw [k3]; linarith) tol
    obtain ⟨cs, c1, c2', c3⟩ := circlesAt_ok r (k.dir * (-1)) hdir (intersectLC (l.parallel d) c2 tol)
    refine ⟨cs, c1, fun t ht => ?_⟩
    obtain ⟨t1, t2, t3, t4, t5⟩ := c3 t ht
    rw [abs_of_pos hr] at t1
    have hc : t.center ∈ intersectLC (l.parallel d) c2 tol := by
      rw [← c2']; exact List.mem_map_of_mem ht
    obtain ⟨q1, q2⟩ := ls _ hc
    have hp := Real.pi_pos
    have hon : OnLine (l.parallel d).s (l.parallel d).e t.center := by
      obtain ⟨u, _, _, hu⟩ := q1; exact ⟨u, hu⟩
    have hsd := (p2 _ hon).1
    refine ⟨⟨by rw [t1]; exact hr, t2 ▸ hdir, by rw [t3]; positivity, t3.le, t4, t5⟩, t1, by rw [t2]; ring, ?_, hsd, ?_⟩
    · obtain ⟨u, u0, u1, hu⟩ := q1
      refine ⟨u, u0, u1, ?_⟩
      rw [foot_eq l h]
      congr 1
      unfold footParam
      have hdd : 0 < dist2 l.e l.s := by rw [← eucl_sq]; positivity
      rw [div_eq_iff hdd.ne', hu]
      unfold lerp Ln.parallel dist2
      simp only [P2.add_x, P2.add_y]
      unfold unit
      simp only [P2.sub_x, P2.sub_y]
      ring
    · rw [k2, k3] at q2
      rcases q2 with q2 | ⟨_, _, q2⟩
      · rw [q2, sub_self, abs_zero]; positivity
      · rw [hlen] at q2
        refine (near_of_sq (by linarith) (eucl_nonneg _ _) (by positivity) ?_).le
        rw [abs_sub_comm]
        have e : |tol| / (2 * eucl l.e l.s) * (|tol| / (2 * eucl l.e l.s)) = tol ^ 2 / (4 * eucl l.e l.s ^ 2) := by
          rw [div_mul_div_comm, abs_mul_abs_self]; congr 1 <;> ring
        rw [e, ← pow_two, ← pow_two]; exact q2
  obtain ⟨ts1, a1, a2⟩ := side r (abs_of_pos hr)
  obtain ⟨ts2, b1, b2⟩ := side (-r) (by rw [abs_neg, abs_of_pos hr])
  refine ⟨ts1 ++ ts2, ?_, ?_⟩
  · unfold tangentCircles; rw [k1]; simp only [CRes.ok_bind]; rw [a1]; simp only [CRes.ok_bind]; rw [b1]; rfl
  · intro t ht
    rcases List.mem_append.1 ht with ht | ht
    · obtain ⟨x1, x2, x3, x4, x5, x6⟩ := a2 t ht; exact ⟨x1, x2, x3, x4, Or.inl x5, x6⟩
    · obtain ⟨x1, x2, x3, x4, x5, x6⟩ := b2 t ht; exact ⟨x1, x2, x3, x4, Or.inr x5, x6⟩

/-- A circle that joins the line and the circle: what `tangentCircles_spec` establishes. -/
structure Joins (l : Ln) (k : Arc) (r ε : ℝ) (t : Arc) : Prop where
  wf : t.WF
  rad : t.radius = r
  dir : t.dir = -k.dir
  seg : OnSeg l.s l.e (l.foot t.center)
  side : l.signedDist t.center = r ∨ l.signedDist t.center = -r
  gap : |eucl t.center k.center - (k.radius + r)| ≤ ε

/-- The direction of a line. -/
def lineHeading (a b : P2) : ℝ := atan2 (b.y - a.y) (b.x - a.x)

/-- The foot point seen from the centre, in terms of the direction of the line. -/
theorem foot_polar (l : Ln) (h : l.s ≠ l.e) (c : P2) :
    (l.foot c).x - c.x = l.signedDist c * Real.sin (lineHeading l.s l.e) ∧
    (l.foot c).y - c.y = -(l.signedDist c * Real.cos (lineHeading l.s l.e)) := by
  have hl : 0 < (l.e - l.s).length := len_pos h
  have hx := polar_x (l.e - l.s)
  have hy := polar_y (l.e - l.s)
  have ea : (l.e - l.s).angle = lineHeading l.s l.e := rfl
  rw [ea] at hx hy
  unfold Ln.foot unit
  simp only [P2.sub_x, P2.sub_y] at hx hy ⊢
  have cx : (l.e.x - l.s.x) / (l.e - l.s).length = Real.cos (lineHeading l.s l.e) := by
    rw [hx]; field_simp
  have cy : (l.e.y - l.s.y) / (l.e - l.s).length = Real.sin (lineHeading l.s l.e) := by
    rw [hy]; field_simp
  rw [cx, cy]
  constructor <;> ring

theorem foot_eucl (l : Ln) (h : l.s ≠ l.e) (c : P2) : eucl (l.foot c) c = |l.signedDist c| := by
  obtain ⟨h1, h2⟩ := foot_polar l h c
  unfold eucl dist2
  rw [h1, h2]
  have := Real.sin_sq_add_cos_sq (lineHeading l.s l.e)
  rw [show (l.signedDist c * Real.sin (lineHeading l.s l.e)) ^ 2 +
    (-(l.signedDist c * Real.cos (lineHeading l.s l.e))) ^ 2 = l.signedDist c ^ 2 by
    linear_combination l.signedDist c ^ 2 * this]
  exact Real.sqrt_sq_eq_abs _

/-- The side test of `tangentArc`. -/
theorem side_iff (l : Ln) (h : l.s ≠ l.e) (t : Arc) (ht : t.WF) (tol : ℝ)
    (hside : l.signedDist t.center = t.radius ∨ l.signedDist t.center = -t.radius) :
    (l.relPos t.center tol ≠ 0 ∧
      ((t.dir > 0 ∧ l.relPos t.center tol > 0) ∨ (t.dir < 0 ∧ l.relPos t.center tol < 0))) ↔
    (|tol| / eucl l.e l.s < t.radius ∧ l.signedDist t.center = t.dir * t.radius) := by
  obtain ⟨a1, a2, a3⟩ := relPos_spec l h t.center tol
  have hl : 0 < eucl l.e l.s := len_pos h
  have h0 : 0 ≤ |tol| / eucl l.e l.s := by positivity
  have hr := ht.r
  have hvals : l.relPos t.center tol = 1 ∨ l.relPos t.center tol = -1 ∨ l.relPos t.center tol = 0 := by
    unfold Ln.relPos; simp only; split_ifs <;> simp
  constructor
  · rintro ⟨h1, h2⟩
    rcases hvals with hv | hv | hv
    · have := a1.1 hv
      rcases h2 with h2 | h2
      · have hd : t.dir = 1 := by rcases ht.dir with h | h <;> omega
        rw [hd]
        rcases hside with h | h
        · exact ⟨by linarith, by rw [h]; simp⟩
        · linarith
      · omega
    · have := a2.1 hv
      rcases h2 with h2 | h2
      · omega
      · have hd : t.dir = -1 := by rcases ht.dir with h | h <;> omega
        rw [hd]
        rcases hside with h | h
        · linarith
        · exact ⟨by linarith, by rw [h]; simp⟩
    · exact absurd hv h1
  · rintro ⟨h1, h2⟩
    rcases ht.dir with hd | hd <;> rw [hd] at h2 ⊢
    · have := a1.2 (by rw [h2]; push_cast; linarith)
      rw [this]; simp
    · have := a2.2 (by rw [h2]; push_cast; linarith)
      rw [this]; simp

/-- The joint between two circles that touch from outside and turn in opposite directions. -/
theorem opposite_heading (t k : P2) {r D : ℝ} (hr : 0 < r) (hD : D = eucl k t) (hrD : r < D) (d : Int)
    (hd : d = 1 ∨ d = -1) {φ ψ : ℝ} (h1 : lerp t k (r / D) = circPt t r φ)
    (h2 : lerp t k (r / D) = circPt k (D - r) ψ) : AngEq (circHeading (-d) φ) (circHeading d ψ) := by
  have hD0 : 0 < D := hr.trans hrD
  have hx := congrArg P2.x h2
  have hy := congrArg P2.y h2
  simp only [lerp, circPt] at hx hy
  have cx : k.x - t.x = -(D * Real.cos ψ) := by
    have : (k.x - t.x) * (r / D - 1) = (D - r) * Real.cos ψ := by linarith
    have h3 : r / D - 1 = -((D - r) / D) := by field_simp; ring
    rw [h3] at this
    have h4 : (D - r) ≠ 0 := by linarith
    field_simp at this
    linarith
  have cy : k.y - t.y = -(D * Real.sin ψ) := by
    have : (k.y - t.y) * (r / D - 1) = (D - r) * Real.sin ψ := by linarith
    have h3 : r / D - 1 = -((D - r) / D) := by field_simp; ring
    rw [h3] at this
    have h4 : (D - r) ≠ 0 := by linarith
    field_simp at this
    linarith
  refine heading_of_point t hr (-d) (by rcases hd with h | h <;> rw [h] <;> simp) h1 ?_ ?_
  · simp only [lerp, circHeading]
    rw [cx]
    rcases hd with rfl | rfl
    · rw [show ψ + ((1 : Int) : ℝ) * (pi / 2) = ψ + pi / 2 by push_cast; ring, Real.sin_add_pi_div_two]
      push_cast; field_simp; ring
    · rw [show ψ + ((-1 : Int) : ℝ) * (pi / 2) = ψ - pi / 2 by push_cast; ring, Real.sin_sub_pi_div_two]
      push_cast; field_simp; ring
  · simp only [lerp, circHeading]
    rw [cy]
    rcases hd with rfl | rfl
    · rw [show ψ + ((1 : Int) : ℝ) * (pi / 2) = ψ + pi / 2 by push_cast; ring, Real.cos_add_pi_div_two]
      push_cast; field_simp; ring
    · rw [show ψ + ((-1 : Int) : ℝ) * (pi / 2) = ψ - pi / 2 by push_cast; ring, Real.cos_sub_pi_div_two]
      push_cast; field_simp; ring

/-- The point where a joining circle touches the circle. -/
def touchPt (k t : Arc) : P2 := lerp t.center k.center (t.radius / eucl k.center t.center)

theorem touchPt_spec (l : Ln) (k t : Arc) {r ε : ℝ} (hr : 0 < r) (hε : ε < k.radius)
    (j : Joins l k r ε t) : r < eucl k.center t.center ∧ eucl (touchPt k t) t.center = t.radius ∧
      eucl (touchPt k t) k.center = eucl k.center t.center - r ∧
      |eucl (touchPt k t) k.center - k.radius| ≤ ε := by
  have hg := j.gap
  have hg' := hg
  rw [eucl_comm t.center] at hg
  rw [abs_le] at hg
  have hD : r < eucl k.center t.center := by linarith
  have hD0 : 0 < eucl k.center t.center := hr.trans hD
  have e1 : eucl (touchPt k t) t.center = t.radius := by
    have := eucl_lerp t.center k.center (t.radius / eucl k.center t.center) 0
    rw [lerp_zero] at this
    unfold touchPt
    rw [this, sub_zero, j.rad, abs_of_pos (by positivity)]; field_simp
  have e2 : eucl (touchPt k t) k.center = eucl k.center t.center - r := by
    have := eucl_lerp t.center k.center (t.radius / eucl k.center t.center) 1
    rw [lerp_one] at this
    unfold touchPt
    rw [this, j.rad, abs_of_neg (by rw [sub_neg, div_lt_one hD0]; exact hD)]; field_simp; ring
  refine ⟨hD, e1, e2, ?_⟩
  rw [e2, abs_le]; constructor <;> linarith

/-- The arc `tangentArc(line, circle)` makes of a joining circle. -/
theorem arcFromLine_eq (l : Ln) (h : l.s ≠ l.e) (k t : Arc) {r ε tol : ℝ} (hr : 0 < r) (hε : ε < k.radius)
    (htol : |tol| ≤ 2 * r ^ 2) (hlen : |tol| / eucl l.e l.s < r) (j : Joins l k r ε t) :
    arcFromLine l k tol t = if l.signedDist t.center = t.dir * r then
      some ((t.setStartP (l.foot t.center)).setEndP (touchPt k t)) else none := by
  obtain ⟨hD, e1, e2, e3⟩ := touchPt_spec l k t hr hε j
  have hi : intersectLC ⟨t.center, k.center⟩ (t.setStartP (l.foot t.center)) tol = [touchPt k t] := by
    refine intersectLC_radial (t.setStartP (l.foot t.center)) j.wf.r k.center ?_ tol ?_
    · show t.radius ≤ eucl k.center t.center; rw [j.rad]; exact hD.le
    · show |tol| ≤ 2 * eucl k.center t.center * t.radius
      rw [j.rad]; nlinarith
  have hs := side_iff l h t j.wf tol (by rw [j.rad]; exact j.side)
  rw [j.rad] at hs
  unfold arcFromLine
  simp only
  by_cases hc : l.signedDist t.center = t.dir * r
  · obtain ⟨s1, s2⟩ := hs.2 ⟨hlen, hc⟩
    rw [if_neg s1, if_pos s2, if_pos hc]
    rw [show (t.setStartP (l.foot t.center)).center = t.center from rfl, hi]
  · rw [if_neg hc]
    by_cases s1 : l.relPos t.center tol = 0
    · rw [if_pos s1]
    · rw [if_neg s1, if_neg (fun s2 => hc (hs.1 ⟨s1, s2⟩).2)]

/-- The arc `tangentArc(circle, line)` makes of a joining circle. -/
theorem arcToLine_eq (l : Ln) (h : l.s ≠ l.e) (k t : Arc) {r ε tol : ℝ} (hr : 0 < r) (hε : ε < k.radius)
    (htol : |tol| ≤ 2 * r ^ 2) (hlen : |tol| / eucl l.e l.s < r) (j : Joins l k r ε t) :
    arcToLine l k tol t = if l.signedDist t.center = t.dir * r then
      some ((t.setStartP (touchPt k t)).setEndP (l.foot t.center)) else none := by
  obtain ⟨hD, e1, e2, e3⟩ := touchPt_spec l k t hr hε j
  have hi : intersectLC ⟨t.center, k.center⟩ t tol = [touchPt k t] := by
    refine intersectLC_radial t j.wf.r k.center ?_ tol ?_
    · rw [j.rad]; exact hD.le
    · rw [j.rad]; nlinarith
  have hs := side_iff l h t j.wf tol (by rw [j.rad]; exact j.side)
  rw [j.rad] at hs
  unfold arcToLine
  simp only
  by_cases hc : l.signedDist t.center = t.dir * r
  · obtain ⟨s1, s2⟩ := hs.2 ⟨hlen, hc⟩
    rw [if_neg s1, if_pos s2, if_pos hc, hi]
    rfl
  · rw [if_neg hc]
    by_cases s1 : l.relPos t.center tol = 0
    · rw [if_pos s1]
    · rw [if_neg s1, if_neg (fun s2 => hc (hs.1 ⟨s1, s2⟩).2)]

/-- Joint between a line and an arc of a joining circle, and between that arc and the circle. -/
theorem joint_headings (l : Ln) (h : l.s ≠ l.e) (k t : Arc) (hk : k.WF) {r ε : ℝ} (hr : 0 < r)
    (hε : ε < k.radius) (j : Joins l k r ε t) (hs : l.signedDist t.center = t.dir * r) {φ ψ : ℝ}
    (hφ : l.foot t.center = circPt t.center t.radius φ) (hψ : touchPt k t = circPt t.center t.radius ψ) :
    AngEq (circHeading t.dir φ) (lineHeading l.s l.e) ∧
    AngEq (circHeading t.dir ψ) (circHeading k.dir (k.angleOf (touchPt k t))) := by
  obtain ⟨hD, e1, e2, e3⟩ := touchPt_spec l k t hr hε j
  obtain ⟨f1, f2⟩ := foot_polar l h t.center
  constructor
  · refine heading_of_point t.center j.wf.r t.dir j.wf.dir hφ ?_ ?_
    · rw [f1, hs, j.rad]; ring
    · rw [f2, hs, j.rad]; ring
  · have := opposite_heading t.center k.center (r := t.radius) (D := eucl k.center t.center) j.wf.r rfl
      (by rw [j.rad]; exact hD) k.dir hk.dir (φ := ψ) (ψ := k.angleOf (touchPt k t)) hψ (by
        have := (angleOf_spec k (touchPt k t)).2.2
        rw [e2, ← j.rad] at this; exact this.symm)
    rw [← j.dir] at this; exact this

/-- A circle as the end of a path from a line, or the start of a path to it: the same circle, starting
(ending) opposite to the given point. -/
def SameCircle (a k : Arc) : Prop := a.center = k.center ∧ a.radius = k.radius ∧ a.dir = k.dir

theorem sameCircle_setStart (k : Arc) (p : P2) (a : ℝ) : SameCircle ((k.setStartP p).setArcAngle a) k ∧
    ((k.setStartP p).setArcAngle a).arc = wrap a ∧
    ((k.setStartP p).setArcAngle a).startPoint = circPt k.center k.radius (wrap (k.angleOf p)) ∧
    ((k.setStartP p).setArcAngle a).start = wrap (k.angleOf p) :=
  ⟨⟨rfl, rfl, rfl⟩, rfl, startPoint_eq _, rfl⟩

/-- **C63.** A path from a line to a circle (`tangentPath(line, circle)`): the call is defined, and the
result is empty or consists of the line from its start to a point `P` of the segment, an arc of the given
radius and the whole circle. The arc starts in `P` with the heading of the line; it ends, up to
`1e-5/(2·len)`, in the first point of the circle, with the heading of the circle there. -/
theorem pathLineCircle_smooth (l : Ln) (h : l.s ≠ l.e) (k : Arc) (hk : k.WF) (r : ℝ) (hr : 0 < r)
    (hε : distEps / (2 * eucl l.e l.s) < k.radius) (htol : distEps ≤ 2 * r ^ 2)
    (hlen : distEps / eucl l.e l.s < r) :
    ∃ path, pathLineCircle l k r = .ok path ∧ (path = [] ∨ ∃ P t e,
      path = [.line ⟨l.s, P⟩, .arc t, .arc e] ∧ OnSeg l.s l.e P ∧ t.WF ∧ t.radius = r ∧ SameCircle e k ∧
      e.arc = 2 * pi ∧ t.startPoint = P ∧ AngEq (circHeading t.dir t.start) (lineHeading l.s l.e) ∧
      eucl t.endPoint e.startPoint ≤ distEps / (2 * eucl l.e l.s) ∧
      AngEq (circHeading t.dir (t.start + t.dir * t.arc)) (circHeading e.dir e.start)) := by
  have heps : |distEps| = distEps := abs_of_pos (by unfold distEps; norm_num)
  obtain ⟨ts, h1, h2⟩ := tangentCircles_spec l h k hk r hr distEps
  rw [heps] at h2
  have hj : ∀ t ∈ ts, Joins l k r (distEps / (2 * eucl l.e l.s)) t := fun t ht => by
    obtain ⟨a, b, c, d, e, f⟩ := h2 t ht; exact ⟨a, b, c, d, e, f⟩
  have hT : tangentArcFromLine l k r = .ok (ts.filterMap (arcFromLine l k distEps)) := by
    unfold tangentArcFromLine; rw [h1]; rfl
  unfold pathLineCircle
  rw [hT, CRes.ok_bind]
  rcases hts : ts.filterMap (arcFromLine l k distEps) with _ | ⟨a, as⟩
  · exact ⟨[], rfl, Or.inl rfl⟩
  · have hm := (minArc_spec as a).1
    rw [← hts] at hm
    obtain ⟨t0, ht0, hA⟩ := List.mem_filterMap.1 hm
    have j := hj t0 ht0
    rw [arcFromLine_eq l h k t0 hr hε (by rw [heps]; exact htol) (by rw [heps]; exact hlen) j] at hA
    split_ifs at hA with hs
    injection hA with hA
    obtain ⟨hD, e1, e2, e3⟩ := touchPt_spec l k t0 hr hε j
    have hfr : eucl (l.foot t0.center) t0.center = t0.radius := by
      rw [foot_eucl l h, j.rad, hs]
      rcases j.wf.dir with hd | hd <;> rw [hd] <;> simp [abs_of_pos hr]
    obtain ⟨w1, w2, w3, w4, w5, w6⟩ := setSE_spec t0 j.wf _ _ hfr e1
    rw [hA] at w1 w2 w3 w4 w5 w6
    simp only [CRes.pure_eq]
    set t := minArc a as with ht
    have hst := startPoint_eq t
    have hen := endPoint_eq t w1.dir
    rw [w2, w5, w4] at hst
    rw [w3, w5, w4] at hen
    obtain ⟨x1, x2⟩ := joint_headings l h k t0 hk hr hε j hs hst hen
    rw [← w6] at x1 x2
    obtain ⟨c1, c2, c3, c4⟩ := sameCircle_setStart k t.endPoint (2 * pi)
    refine ⟨_, rfl, Or.inr ⟨t.startPoint, t, _, rfl, ?_, w1, by rw [w4, j.rad], c1, ?_, rfl, x1, ?_, ?_⟩⟩
    · rw [w2]; exact j.seg
    · rw [c2]; exact (wrap_spec _).2.2.2 (by positivity) le_rfl
    · rw [c3, w3, circPt_congr k.center k.radius (wrap_angEq _)]
      have := eucl_circPt_same k.center (eucl (touchPt k t0) k.center) k.radius (k.angleOf (touchPt k t0))
      rw [(angleOf_spec k (touchPt k t0)).2.2] at this
      rw [this]; exact e3
    · rw [c4, c1.2.2, w3]
      exact x2.trans ((wrap_angEq _).symm.heading _)

/-- **C63.** A path from a circle to a line (`tangentPath(circle, line)`), for lines longer than `1/2`
(otherwise the end of the circle may not be moved to the joint): part of the circle from its start, an
arc of the given radius, and a part of the line to its end, with matching positions and headings. -/
theorem pathCircleLine_smooth (l : Ln) (h : l.s ≠ l.e) (k : Arc) (hk : k.WF) (r : ℝ) (hr : 0 < r)
    (hε : distEps / (2 * eucl l.e l.s) < k.radius) (htol : distEps ≤ 2 * r ^ 2)
    (hlen : distEps / eucl l.e l.s < r) (hlong : 1 / 2 < eucl l.e l.s) :
    ∃ path, pathCircleLine k l r = .ok path ∧ (path = [] ∨ ∃ P t e,
      path = [.arc e, .arc t, .line ⟨P, l.e⟩] ∧ OnSeg l.s l.e P ∧ t.WF ∧ t.radius = r ∧ SameCircle e k ∧
      e.startPoint = k.startPoint ∧ t.endPoint = P ∧
      AngEq (circHeading t.dir (t.start + t.dir * t.arc)) (lineHeading l.s l.e) ∧
      eucl t.startPoint e.endPoint ≤ distEps / (2 * eucl l.e l.s) ∧
      AngEq (circHeading t.dir t.start) (circHeading e.dir (e.start + e.dir * e.arc))) := by
  have heps0 : 0 < distEps := by unfold distEps; norm_num
  have heps : |distEps| = distEps := abs_of_pos heps0
  obtain ⟨ts, h1, h2⟩ := tangentCircles_spec l h k hk r hr distEps
  rw [heps] at h2
  have hj : ∀ t ∈ ts, Joins l k r (distEps / (2 * eucl l.e l.s)) t := fun t ht => by
    obtain ⟨a, b, c, d, e, f⟩ := h2 t ht; exact ⟨a, b, c, d, e, f⟩
  have hT : tangentArcToLine k l r = .ok (ts.filterMap (arcToLine l k distEps)) := by
    unfold tangentArcToLine; rw [h1]; rfl
  unfold pathCircleLine
  rw [hT, CRes.ok_bind]
  rcases hts : ts.filterMap (arcToLine l k distEps) with _ | ⟨a, as⟩
  · exact ⟨[], rfl, Or.inl rfl⟩
  · have hm := (minArc_spec as a).1
    rw [← hts] at hm
    obtain ⟨t0, ht0, hA⟩ := List.mem_filterMap.1 hm
    have j := hj t0 ht0
    rw [arcToLine_eq l h k t0 hr hε (by rw [heps]; exact htol) (by rw [heps]; exact hlen) j] at hA
    split_ifs at hA with hs
    injection hA with hA
    obtain ⟨hD, e1, e2, e3⟩ := touchPt_spec l k t0 hr hε j
    have hfr : eucl (l.foot t0.center) t0.center = t0.radius := by
      rw [foot_eucl l h, j.rad, hs]
      rcases j.wf.dir with hd | hd <;> rw [hd] <;> simp [abs_of_pos hr]
    obtain ⟨w1, w2, w3, w4, w5, w6⟩ := setSE_spec t0 j.wf _ _ e1 hfr
    rw [hA] at w1 w2 w3 w4 w5 w6
    simp only [CRes.pure_eq]
    set t := minArc a as with ht
    have hst := startPoint_eq t
    have hen := endPoint_eq t w1.dir
    rw [w2, w5, w4] at hst
    rw [w3, w5, w4] at hen
    obtain ⟨x1, x2⟩ := joint_headings l h k t0 hk hr hε j hs hen hst
    rw [← w6] at x1 x2
    have hlt : |eucl (touchPt k t0) k.center - k.radius| < distEps := by
      refine lt_of_le_of_lt e3 ?_
      rw [div_lt_iff₀ (by linarith)]; nlinarith
    have hsel : (k.selectEnd t.startPoint).2 = k.setEnd (k.angleOf (touchPt k t0)) := by
      rw [w2]; unfold Arc.selectEnd; rw [len_eq, if_pos hlt]; rfl
    obtain ⟨y1, y2, _⟩ := setEnd_spec k hk.dir (k.angleOf (touchPt k t0))
    have ye := endPoint_eq (k.setEnd (k.angleOf (touchPt k t0))) hk.dir
    refine ⟨_, rfl, Or.inr ⟨t.endPoint, t, _, rfl, ?_, w1, by rw [w4, j.rad], ?_, ?_, rfl, x1, ?_, ?_⟩⟩
    · rw [w3]; exact j.seg
    · rw [hsel]; exact ⟨rfl, rfl, rfl⟩
    · rw [hsel, y2]
    · rw [hsel, y1, w2]
      have := eucl_circPt_same k.center (eucl (touchPt k t0) k.center) k.radius (k.angleOf (touchPt k t0))
      rw [(angleOf_spec k (touchPt k t0)).2.2] at this
      rw [this]; exact e3
    · rw [hsel]
      rw [y1] at ye
      exact x2.trans (AngEq.heading _ (angle_unique hk.r ye))

end PathPlanning.Shapes
