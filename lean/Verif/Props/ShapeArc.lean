import Verif.Props.ShapeLine2

/-!
# C46: arcs of `path_geom`
-/

noncomputable section

namespace PathPlanning.Shapes
open Spec RS
open Real (pi)

/-! ### Reduction of angles -/

theorem loopDown_spec : ∀ (n : Nat) (a : ℝ), a ≤ 2 * pi * (n + 1) →
    ∃ (k : Nat), loopDown n a = some (a - k * (2 * pi)) ∧ a - k * (2 * pi) ≤ 2 * pi ∧
      (k ≠ 0 → 0 < a - k * (2 * pi)) := by
  intro n
  induction n with
  | zero =>
    intro a h
    refine ⟨0, ?_, ?_, fun h => absurd rfl h⟩
    · unfold loopDown; rw [if_neg (by push_cast at h; linarith)]; simp
    · push_cast at h ⊢; linarith
  | succ n ih =>
    intro a h
    unfold loopDown
    by_cases ha : a > 2 * pi
    · rw [if_pos ha]
      obtain ⟨k, h1, h2, h3⟩ := ih (a - 2 * pi) (by push_cast at h; nlinarith)
      refine ⟨k + 1, ?_, ?_, ?_⟩
      · rw [h1]; congr 1; push_cast; ring
      · push_cast; linarith
      · intro _
        by_cases hk : k = 0
        · subst hk; push_cast; linarith
        · have := h3 hk; push_cast; linarith
    · rw [if_neg ha]
      exact ⟨0, by simp, by push_cast; linarith, fun h => absurd rfl h⟩

theorem loopUp_spec : ∀ (n : Nat) (a : ℝ), -(2 * pi * n) ≤ a →
    ∃ (k : Nat), loopUp n a = some (a + k * (2 * pi)) ∧ 0 ≤ a + k * (2 * pi) ∧
      (k ≠ 0 → a + k * (2 * pi) < 2 * pi) := by
  intro n
  induction n with
  | zero =>
    intro a h
    refine ⟨0, ?_, ?_, fun h => absurd rfl h⟩
    · unfold loopUp; rw [if_neg (by push_cast at h; linarith)]; simp
    · push_cast at h ⊢; linarith
  | succ n ih =>
    intro a h
    unfold loopUp
    by_cases ha : a < 0
    · rw [if_pos ha]
      obtain ⟨k, h1, h2, h3⟩ := ih (a + 2 * pi) (by push_cast at h; nlinarith)
      refine ⟨k + 1, ?_, ?_, ?_⟩
      · rw [h1]; congr 1; push_cast; ring
      · push_cast; linarith
      · intro _
        by_cases hk : k = 0
        · subst hk; push_cast; linarith
        · have := h3 hk; push_cast; linarith
    · rw [if_neg ha]
      exact ⟨0, by simp, by push_cast; linarith, fun h => absurd rfl h⟩

theorem loopDown_mono : ∀ (n : Nat) (a b : ℝ), loopDown n a = some b →
    ∀ m, n ≤ m → loopDown m a = some b := by
  intro n
  induction n with
  | zero =>
    intro a b h m _
    unfold loopDown at h
    split_ifs at h with hc
    injection h with h; subst h
    cases m <;> (unfold loopDown; rw [if_neg hc])
  | succ n ih =>
    intro a b h m hm
    obtain ⟨m, rfl⟩ : ∃ k, m = k + 1 := ⟨m - 1, by omega⟩
    unfold loopDown at h ⊢
    split_ifs at h ⊢ with hc
    · exact ih _ _ h m (by omega)
    · exact h

theorem loopUp_mono : ∀ (n : Nat) (a b : ℝ), loopUp n a = some b →
    ∀ m, n ≤ m → loopUp m a = some b := by
  intro n
  induction n with
  | zero =>
    intro a b h m _
    unfold loopUp at h
    split_ifs at h with hc
    injection h with h; subst h
    cases m <;> (unfold loopUp; rw [if_neg hc])
  | succ n ih =>
    intro a b h m hm
    obtain ⟨m, rfl⟩ : ∃ k, m = k + 1 := ⟨m - 1, by omega⟩
    unfold loopUp at h ⊢
    split_ifs at h ⊢ with hc
    · exact ih _ _ h m (by omega)
    · exact h

theorem wrapLoop_spec (a : ℝ) : ∃ k : Int, wrapLoop (⌈|a| / (2 * pi)⌉₊ + 1) a = some (a + k * (2 * pi)) ∧
    0 ≤ a + k * (2 * pi) ∧ a + k * (2 * pi) ≤ 2 * pi ∧ (0 ≤ a → a ≤ 2 * pi → k = 0) := by
  have hp := Real.two_pi_pos
  set n := ⌈|a| / (2 * pi)⌉₊ with hn
  have hna : |a| ≤ 2 * pi * n := by
    have := Nat.le_ceil (|a| / (2 * pi))
    rw [div_le_iff₀ hp] at this; linarith
  have h1 := le_abs_self a
  have h2 := neg_abs_le a
  obtain ⟨k, d1, d2, d3⟩ := loopDown_spec (n + 1) a (by push_cast; nlinarith)
  obtain ⟨j, u1, u2, u3⟩ := loopUp_spec (n + 1) (a - k * (2 * pi)) (by
    by_cases hk : k = 0
    · subst hk; push_cast; nlinarith
    · have := d3 hk; push_cast
      have : 0 ≤ 2 * pi * ((n : ℝ) + 1) := by positivity
      linarith)
  refine ⟨(j : Int) - k, ?_, ?_, ?_, ?_⟩
  · unfold wrapLoop; rw [d1]; simp only [Option.bind_some, u1]; congr 1; push_cast; ring
  · push_cast; linarith
  · push_cast
    by_cases hj : j = 0
    · subst hj; push_cast; linarith
    · have := u3 hj; linarith
  · intro ha0 ha1
    have hk0 : k = 0 := by
      by_contra hk
      have h := d3 hk
      have : (1:ℝ) ≤ k := by exact_mod_cast Nat.one_le_iff_ne_zero.2 hk
      have hd : loopDown (n + 1) a = some a := by unfold loopDown; rw [if_neg (by linarith)]
      rw [d1] at hd; injection hd with hd
      nlinarith
    have hj0 : j = 0 := by
      by_contra hj
      subst hk0
      have hd : loopUp (n + 1) a = some a := by unfold loopUp; rw [if_neg (by linarith)]
      have : (1:ℝ) ≤ j := by exact_mod_cast Nat.one_le_iff_ne_zero.2 hj
      simp only [Nat.cast_zero, zero_mul, sub_zero] at u1
      rw [u1] at hd; injection hd with hd
      nlinarith
    rw [hk0, hj0]; simp

/-- The loops of the code terminate, for every start value, with the value `wrap a`. -/
theorem wrap_loop (a : ℝ) : ∃ n, ∀ m, n ≤ m → wrapLoop m a = some (wrap a) := by
  obtain ⟨k, h, _⟩ := wrapLoop_spec a
  refine ⟨⌈|a| / (2 * pi)⌉₊ + 1, fun m hm => ?_⟩
  have hw : wrap a = a + k * (2 * pi) := by unfold wrap; rw [h]; rfl
  rw [hw]
  unfold wrapLoop at h ⊢
  cases hd : loopDown (⌈|a| / (2 * pi)⌉₊ + 1) a with
  | none => rw [hd] at h; cases h
  | some b =>
    rw [hd] at h
    rw [loopDown_mono _ _ _ hd m hm]
    exact loopUp_mono _ _ _ h m hm

/-- The reduced angle lies in `[0, 2π]` and differs by full turns; an angle in that range is kept. -/
theorem wrap_spec (a : ℝ) : 0 ≤ wrap a ∧ wrap a ≤ 2 * pi ∧ (∃ k : Int, wrap a = a + k * (2 * pi)) ∧
    (0 ≤ a → a ≤ 2 * pi → wrap a = a) := by
  obtain ⟨k, h, h0, h1, h2⟩ := wrapLoop_spec a
  have hw : wrap a = a + k * (2 * pi) := by unfold wrap; rw [h]; rfl
  rw [hw]
  exact ⟨h0, h1, ⟨k, rfl⟩, fun ha hb => by rw [h2 ha hb]; simp⟩

theorem wrap_cos (a : ℝ) : Real.cos (wrap a) = Real.cos a := by
  obtain ⟨k, h⟩ := (wrap_spec a).2.2.1; rw [h]; exact Real.cos_add_int_mul_two_pi a k

theorem wrap_sin (a : ℝ) : Real.sin (wrap a) = Real.sin a := by
  obtain ⟨k, h⟩ := (wrap_spec a).2.2.1; rw [h]; exact Real.sin_add_int_mul_two_pi a k

theorem circPt_congr (c : P2) (r : ℝ) {a b : ℝ} (h : ∃ k : Int, a = b + k * (2 * pi)) :
    circPt c r a = circPt c r b := by
  obtain ⟨k, rfl⟩ := h
  unfold circPt
  rw [Real.cos_add_int_mul_two_pi, Real.sin_add_int_mul_two_pi]

/-! ### Arcs -/

/-- What the constructor and the setters maintain: a positive radius, a direction `±1`, the arc and the
start angle within one turn. -/
structure Arc.WF (c : Arc) : Prop where
  r : 0 < c.radius
  dir : c.dir = 1 ∨ c.dir = -1
  arc0 : 0 ≤ c.arc
  arc1 : c.arc ≤ 2 * pi
  st0 : 0 ≤ c.start
  st1 : c.start ≤ 2 * pi

theorem startPoint_eq (c : Arc) : c.startPoint = circPt c.center c.radius c.start := by
  unfold Arc.startPoint circPt; ext <;> simp [P2.smul] <;> ring

/-- The end point is the point reached by covering the arc angle in the driving direction. -/
theorem endPoint_eq (c : Arc) (hd : c.dir = 1 ∨ c.dir = -1) :
    c.endPoint = circPt c.center c.radius (c.start + c.dir * c.arc) := by
  have : c.endPoint = circPt c.center c.radius c.endAngle := by
    unfold Arc.endPoint circPt; ext <;> simp [P2.smul] <;> ring
  rw [this]
  apply circPt_congr
  unfold Arc.endAngle
  rcases hd with h | h
  · rw [h, if_pos rfl]; obtain ⟨k, hk⟩ := (wrap_spec (c.start + c.arc)).2.2.1
    exact ⟨k, by rw [hk]; push_cast; ring⟩
  · rw [h, if_neg (by decide)]; obtain ⟨k, hk⟩ := (wrap_spec (c.start - c.arc)).2.2.1
    exact ⟨k, by rw [hk]; push_cast; ring⟩

/-- The end angle is in `[0, 2π]`. -/
theorem endAngle_range (c : Arc) : 0 ≤ c.endAngle ∧ c.endAngle ≤ 2 * pi :=
  ⟨(wrap_spec _).1, (wrap_spec _).2.1⟩

theorem new_spec (p : P2) (r : ℝ) (hr : r ≠ 0) (d : Int) (hd : d ≠ 0) :
    ∃ c, Arc.new p r d = .ok c ∧ c.WF ∧ c.center = p ∧ c.radius = |r| ∧ c.dir = d.sign ∧
      c.arc = 2 * pi := by
  have hn : dirNorm d = .ok d.sign := by
    unfold dirNorm; rw [if_neg hd]
    congr 1
    rcases lt_or_gt_of_ne hd with h | h
    · rw [abs_of_neg h, Int.sign_eq_neg_one_of_neg h, Int.tdiv_neg, Int.tdiv_self hd]
    · rw [abs_of_pos h, Int.sign_eq_one_of_pos h, Int.tdiv_self hd]
  unfold Arc.new
  rw [hn]
  refine ⟨_, rfl, ⟨abs_pos.2 hr, ?_, Real.two_pi_pos.le, le_rfl, ?_, ?_⟩, rfl, rfl, rfl, rfl⟩
  · rcases lt_or_gt_of_ne hd with h | h
    · right; exact Int.sign_eq_neg_one_of_neg h
    · left; exact Int.sign_eq_one_of_pos h
  · simp only; split_ifs
    · exact Real.two_pi_pos.le
    · exact le_rfl
  · simp only; split_ifs
    · exact le_rfl
    · exact Real.two_pi_pos.le

/-- **C46 (finding).** A direction of `0` is undefined behaviour (integer division by zero). -/
theorem new_zero (p : P2) (r : ℝ) : Arc.new p r 0 = .ub := rfl

/-- **C46.** `setStartAngle` moves the start point to the given angle, keeps the end point, the circle and
the direction, and the new arc lies within one turn. -/
theorem setStart_spec (c : Arc) (hd : c.dir = 1 ∨ c.dir = -1) (a : ℝ) :
    (c.setStart a).startPoint = circPt c.center c.radius a ∧
    (c.setStart a).endPoint = c.endPoint ∧
    0 ≤ (c.setStart a).getArc ∧ (c.setStart a).getArc ≤ 2 * pi ∧
    (c.setStart a).center = c.center ∧ (c.setStart a).radius = c.radius ∧
    (c.setStart a).dir = c.dir ∧ 0 ≤ (c.setStart a).start ∧ (c.setStart a).start ≤ 2 * pi := by
  refine ⟨?_, ?_, (wrap_spec _).1, (wrap_spec _).2.1, rfl, rfl, rfl, (wrap_spec _).1, (wrap_spec _).2.1⟩
  · rw [startPoint_eq]; exact circPt_congr _ _ (wrap_spec a).2.2.1
  · rw [endPoint_eq c hd, endPoint_eq (c.setStart a) hd]
    apply circPt_congr
    show ∃ k : Int, wrap a + (c.dir : ℝ) * wrap _ = _
    rcases hd with h | h
    · simp only [h, if_true]
      obtain ⟨j, hj⟩ := (wrap_spec (c.start + c.arc - wrap a)).2.2.1
      refine ⟨j, ?_⟩
      rw [hj]; push_cast; ring
    · simp only [h, show ((-1 : Int) = 1) = False by simp, if_false]
      obtain ⟨j, hj⟩ := (wrap_spec (wrap a - (c.start - c.arc))).2.2.1
      refine ⟨-j, ?_⟩
      rw [hj]; push_cast; ring

/-- **C46.** `setEndAngle` moves the end point to the given angle and keeps the start point. -/
theorem setEnd_spec (c : Arc) (hd : c.dir = 1 ∨ c.dir = -1) (a : ℝ) :
    (c.setEnd a).endPoint = circPt c.center c.radius a ∧
    (c.setEnd a).startPoint = c.startPoint ∧
    0 ≤ (c.setEnd a).getArc ∧ (c.setEnd a).getArc ≤ 2 * pi ∧
    (c.setEnd a).center = c.center ∧ (c.setEnd a).radius = c.radius ∧
    (c.setEnd a).dir = c.dir ∧ (c.setEnd a).start = c.start := by
  refine ⟨?_, rfl, (wrap_spec _).1, (wrap_spec _).2.1, rfl, rfl, rfl, rfl⟩
  rw [endPoint_eq (c.setEnd a) hd]
  apply circPt_congr
  show ∃ k : Int, c.start + (c.dir : ℝ) * wrap _ = _
  rcases hd with h | h
  · simp only [h, if_true]
    obtain ⟨j, hj⟩ := (wrap_spec (a - c.start)).2.2.1
    exact ⟨j, by rw [hj]; push_cast; ring⟩
  · simp only [h, show ((-1 : Int) = 1) = False by simp, if_false]
    obtain ⟨j, hj⟩ := (wrap_spec (c.start - a)).2.2.1
    exact ⟨-j, by rw [hj]; push_cast; ring⟩

theorem setStart_wf (c : Arc) (h : c.WF) (a : ℝ) : (c.setStart a).WF :=
  ⟨h.r, h.dir, (wrap_spec _).1, (wrap_spec _).2.1, (wrap_spec _).1, (wrap_spec _).2.1⟩

theorem setEnd_wf (c : Arc) (h : c.WF) (a : ℝ) : (c.setEnd a).WF :=
  ⟨h.r, h.dir, (wrap_spec _).1, (wrap_spec _).2.1, h.st0, h.st1⟩

theorem setArcAngle_wf (c : Arc) (h : c.WF) (a : ℝ) : (c.setArcAngle a).WF :=
  ⟨h.r, h.dir, (wrap_spec _).1, (wrap_spec _).2.1, h.st0, h.st1⟩

/-- **C46.** `createArcFrom`: an arc that starts at the position of the pose, with the heading of the pose
along its tangent, the given radius, arc angle and direction. -/
theorem createFrom_spec (p : PPose) (r arc : ℝ) (hr : 0 < r) (dir : Int) (hd : dir = 1 ∨ dir = -1) :
    ∃ c, Arc.createFrom p r arc dir = .ok c ∧ c.startPoint = p.pos ∧ c.radius = r ∧ c.dir = dir ∧
      c.getArc = arc ∧ (∃ k : Int, circHeading c.dir c.start = p.theta + k * (2 * pi)) := by
  obtain ⟨c0, h0, hw, h1, h2, h3, h4⟩ := new_spec
    (p.pos - ⟨r * Real.cos (if dir = 1 then p.theta - pi / 2 else p.theta + pi / 2),
      r * Real.sin (if dir = 1 then p.theta - pi / 2 else p.theta + pi / 2)⟩) r hr.ne' dir (by omega)
  unfold Arc.createFrom
  simp only [h0, CRes.ok_bind, CRes.pure_eq]
  refine ⟨_, rfl, ?_, ?_, ?_, rfl, ?_⟩
  · rw [startPoint_eq]
    show circPt c0.center c0.radius (wrap _) = _
    rw [circPt_congr _ _ (wrap_spec _).2.2.1, h1, h2, abs_of_pos hr]
    unfold circPt
    ext <;> simp
  · show c0.radius = r; rw [h2, abs_of_pos hr]
  · show (if dir ≥ 0 then (1 : Int) else -1) = dir
    rcases hd with h | h <;> rw [h] <;> decide
  · show ∃ k : Int, circHeading (if dir ≥ 0 then (1 : Int) else -1) (wrap _) = _
    unfold circHeading
    rcases hd with h | h
    · rw [h, if_pos rfl, if_pos (by decide)]
      obtain ⟨k, hk⟩ := (wrap_spec (p.theta - pi / 2)).2.2.1
      exact ⟨k, by rw [hk]; push_cast; ring⟩
    · rw [h, if_neg (by decide), if_neg (by decide)]
      obtain ⟨k, hk⟩ := (wrap_spec (p.theta + pi / 2)).2.2.1
      exact ⟨k, by rw [hk]; push_cast; ring⟩

/-- **C46.** `createArcTo`: an arc that ends at the position of the pose with its heading. -/
theorem createTo_spec (p : PPose) (r arc : ℝ) (hr : 0 < r) (dir : Int) (hd : dir = 1 ∨ dir = -1) :
    ∃ c, Arc.createTo p r arc dir = .ok c ∧ c.endPoint = p.pos ∧ c.radius = r ∧ c.dir = dir ∧
      c.getArc = arc ∧ (∃ k : Int, circHeading c.dir c.endAngle = p.theta + k * (2 * pi)) := by
  obtain ⟨c0, h0, hw, h1, h2, h3, h4⟩ := new_spec
    (p.pos - ⟨r * Real.cos (if dir = 1 then p.theta - pi / 2 else p.theta + pi / 2),
      r * Real.sin (if dir = 1 then p.theta - pi / 2 else p.theta + pi / 2)⟩) r hr.ne' dir (by omega)
  unfold Arc.createTo
  simp only [h0, CRes.ok_bind, CRes.pure_eq]
  have hdir : (if dir ≥ 0 then (1 : Int) else -1) = dir := by
    rcases hd with h | h <;> rw [h] <;> decide
  refine ⟨_, rfl, ?_, ?_, ?_, rfl, ?_⟩
  · rw [endPoint_eq _ (by
      show (if dir ≥ 0 then (1 : Int) else -1) = 1 ∨ (if dir ≥ 0 then (1 : Int) else -1) = -1
      rw [hdir]; exact hd)]
    show circPt c0.center c0.radius (wrap _ + ((if dir ≥ 0 then (1 : Int) else -1 : Int) : ℝ) * arc) = _
    rw [hdir, h1, h2, abs_of_pos hr]
    rw [circPt_congr (b := if dir = 1 then p.theta - pi / 2 else p.theta + pi / 2) _ _ (by
      obtain ⟨k, hk⟩ := (wrap_spec (if dir = 1 then (if dir = 1 then p.theta - pi / 2 else p.theta + pi / 2) - arc
        else (if dir = 1 then p.theta - pi / 2 else p.theta + pi / 2) + arc)).2.2.1
      refine ⟨k, ?_⟩
      rw [hk]
      rcases hd with h | h
      · simp only [h, if_true]; push_cast; ring
      · simp only [h, show ((-1 : Int) = 1) = False by simp, if_false]; push_cast; ring)]
    unfold circPt
    ext <;> simp
  · show c0.radius = r; rw [h2, abs_of_pos hr]
  · exact hdir
  · show ∃ k : Int, circHeading (if dir ≥ 0 then (1 : Int) else -1)
      (wrap (if (if dir ≥ 0 then (1 : Int) else -1) = 1 then wrap _ + arc else wrap _ - arc)) = _
    rw [hdir]
    unfold circHeading
    rcases hd with h | h
    · simp only [h, if_true]
      obtain ⟨k, hk⟩ := (wrap_spec (p.theta - pi / 2 - arc)).2.2.1
      obtain ⟨j, hj⟩ := (wrap_spec (wrap (p.theta - pi / 2 - arc) + arc)).2.2.1
      exact ⟨k + j, by rw [hj, hk]; push_cast; ring⟩
    · simp only [h, show ((-1 : Int) = 1) = False by simp, if_false]
      obtain ⟨k, hk⟩ := (wrap_spec (p.theta + pi / 2 + arc)).2.2.1
      obtain ⟨j, hj⟩ := (wrap_spec (wrap (p.theta + pi / 2 + arc) - arc)).2.2.1
      exact ⟨k + j, by rw [hj, hk]; push_cast; ring⟩

/-! ### Angles of points -/

theorem angleOf_spec (c : Arc) (p : P2) : 0 ≤ c.angleOf p ∧ c.angleOf p < 2 * pi ∧
    circPt c.center (eucl p c.center) (c.angleOf p) = p := by
  have hr := angle_range (p - c.center)
  have hp := Real.pi_pos
  have hx := polar_x (p - c.center)
  have hy := polar_y (p - c.center)
  have hl : (p - c.center).length = eucl p c.center := rfl
  rw [hl] at hx hy
  simp only [P2.sub_x, P2.sub_y] at hx hy
  have hang : atan2 (p - c.center).y (p - c.center).x = (p - c.center).angle := rfl
  unfold Arc.angleOf
  simp only [hang]
  split_ifs with h
  · refine ⟨by linarith [hr.1], by linarith, ?_⟩
    rw [circPt_congr (b := (p - c.center).angle) _ _ ⟨1, by push_cast; ring⟩]
    unfold circPt; ext
    · simp only; linarith
    · simp only; linarith
  · refine ⟨by linarith, by linarith [hr.2], ?_⟩
    unfold circPt; ext
    · simp only; linarith
    · simp only; linarith

theorem circPt_eucl (c : P2) (r a : ℝ) (hr : 0 ≤ r) : eucl (circPt c r a) c = r := by
  unfold eucl dist2 circPt
  have := Real.sin_sq_add_cos_sq a
  rw [show (c.x + r * Real.cos a - c.x) ^ 2 + (c.y + r * Real.sin a - c.y) ^ 2 = r ^ 2 by
    linear_combination r ^ 2 * this]
  exact Real.sqrt_sq hr

theorem eucl_circPt_same (c : P2) (r s a : ℝ) : eucl (circPt c r a) (circPt c s a) = |r - s| := by
  unfold eucl dist2 circPt
  have := Real.sin_sq_add_cos_sq a
  rw [show (c.x + r * Real.cos a - (c.x + s * Real.cos a)) ^ 2 +
    (c.y + r * Real.sin a - (c.y + s * Real.sin a)) ^ 2 = (r - s) ^ 2 by
    linear_combination (r - s) ^ 2 * this]
  exact Real.sqrt_sq_eq_abs _

/-- **C46.** Selecting a start point succeeds exactly for points within the tolerance of the circle; then
the arc starts at the point of the circle nearest to it (at the point itself if it lies on the circle),
still ends where it ended. A failed selection changes nothing. -/
theorem selectStart_spec (c : Arc) (h : c.WF) (p : P2) (tol : ℝ) :
    ((c.selectStart p tol).1 = true ↔ |eucl p c.center - c.radius| < tol) ∧
    ((c.selectStart p tol).1 = false → (c.selectStart p tol).2 = c) ∧
    ((c.selectStart p tol).1 = true →
      eucl (c.selectStart p tol).2.startPoint p = |c.radius - eucl p c.center| ∧
      (c.selectStart p tol).2.endPoint = c.endPoint ∧ (c.selectStart p tol).2.WF) := by
  unfold Arc.selectStart
  rw [len_eq]
  split_ifs with ht
  · refine ⟨by simp [ht], by simp, fun _ => ?_⟩
    obtain ⟨a1, a2, a3⟩ := angleOf_spec c p
    obtain ⟨s1, s2, _⟩ := setStart_spec c h.dir (c.angleOf p)
    refine ⟨?_, s2, setStart_wf c h _⟩
    show eucl (c.setStart (c.angleOf p)).startPoint p = _
    rw [s1]
    have e := eucl_circPt_same c.center c.radius (eucl p c.center) (c.angleOf p)
    rw [a3] at e; exact e
  · exact ⟨by simp [ht], fun _ => rfl, by simp⟩

/-- **C46.** The same for the end point. -/
theorem selectEnd_spec (c : Arc) (h : c.WF) (p : P2) (tol : ℝ) :
    ((c.selectEnd p tol).1 = true ↔ |eucl p c.center - c.radius| < tol) ∧
    ((c.selectEnd p tol).1 = false → (c.selectEnd p tol).2 = c) ∧
    ((c.selectEnd p tol).1 = true →
      eucl (c.selectEnd p tol).2.endPoint p = |c.radius - eucl p c.center| ∧
      (c.selectEnd p tol).2.startPoint = c.startPoint ∧ (c.selectEnd p tol).2.WF) := by
  unfold Arc.selectEnd
  rw [len_eq]
  split_ifs with ht
  · refine ⟨by simp [ht], by simp, fun _ => ?_⟩
    obtain ⟨a1, a2, a3⟩ := angleOf_spec c p
    obtain ⟨s1, s2, _⟩ := setEnd_spec c h.dir (c.angleOf p)
    refine ⟨?_, s2, setEnd_wf c h _⟩
    show eucl (c.setEnd (c.angleOf p)).endPoint p = _
    rw [s1]
    have e := eucl_circPt_same c.center c.radius (eucl p c.center) (c.angleOf p)
    rw [a3] at e; exact e
  · exact ⟨by simp [ht], fun _ => rfl, by simp⟩

/-- The setters keep an arc well formed; the constructor produces such arcs. -/
theorem wf_example : ∃ c, Arc.new ⟨3, 4⟩ 2 (-5) = .ok c ∧ c.WF ∧ ((c.setStart 100).setEnd (-7)).WF := by
  obtain ⟨c, h, hw, _⟩ := new_spec ⟨3, 4⟩ 2 (by norm_num) (-5) (by decide)
  exact ⟨c, h, hw, setEnd_wf _ (setStart_wf _ hw _) _⟩

end PathPlanning.Shapes
