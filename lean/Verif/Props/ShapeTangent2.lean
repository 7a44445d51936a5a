import Verif.Props.ShapeTangent

/-!
# C63: the shortest tangential arc; paths between circles
-/

noncomputable section

namespace PathPlanning.Shapes

open Real (pi)
open Spec RS

/-! ### Completeness and minimality for lines -/

/-- The arc set by two points is less than a full turn, and no other way to describe it is shorter. -/
theorem setSE_arc_min (t : Arc) (h : t.WF) (p q : P2) (hp : eucl p t.center = t.radius)
    (hq : eucl q t.center = t.radius) {φ α : ℝ} (hα : 0 ≤ α) (h1 : p = circPt t.center t.radius φ)
    (h2 : q = circPt t.center t.radius (φ + t.dir * α)) : ((t.setStartP p).setEndP q).arc ≤ α := by
  have hpi := Real.pi_pos
  obtain ⟨w1, w2, w3, w4, w5, w6⟩ := setSE_spec t h p q hp hq
  obtain ⟨a0, a1, _⟩ := angleOf_spec t p
  obtain ⟨b0, b1, _⟩ := angleOf_spec t q
  have hwp : wrap (t.angleOf p) = t.angleOf p := (wrap_spec _).2.2.2 a0 a1.le
  have harc : ((t.setStartP p).setEndP q).arc < 2 * pi := by
    show wrap (if t.dir = 1 then t.angleOf q - wrap (t.angleOf p) else wrap (t.angleOf p) - t.angleOf q) < 2 * pi
    rw [hwp]
    have key : ∀ x : ℝ, -(2 * pi) < x → x < 2 * pi → wrap x < 2 * pi := by
      intro x x0 x1
      obtain ⟨y0, y1, ⟨k, hk⟩, y3⟩ := wrap_spec x
      rcases y1.lt_or_eq with hlt | heq
      · exact hlt
      · exfalso
        have hx : x = ((1 - k : Int) : ℝ) * (2 * pi) := by push_cast; linarith
        have := int_zero_of hx x0 x1
        rw [this] at hx
        have hx0 : x = 0 := by rw [hx]; simp
        rw [y3 hx0.ge (by rw [hx0]; positivity), hx0] at heq
        linarith
    split_ifs <;> exact key _ (by linarith) (by linarith)
  set s := (t.setStartP p).setEndP q with hs
  have e1 := startPoint_eq s
  have e2 := endPoint_eq s w1.dir
  rw [w2, w5, w4, h1] at e1
  rw [w3, w5, w4, h2, w6] at e2
  obtain ⟨k1, hk1⟩ := angle_unique h.r e1
  obtain ⟨k2, hk2⟩ := angle_unique h.r e2
  have hd : ∃ m : Int, α = s.arc + m * (2 * pi) := by
    rcases h.dir with hd | hd
    · rw [hd] at hk2
      exact ⟨k2 - k1, by push_cast at hk2 ⊢; linarith⟩
    · rw [hd] at hk2
      exact ⟨k1 - k2, by push_cast at hk2 ⊢; linarith⟩
  obtain ⟨m, hm⟩ := hd
  have hm0 : (0 : Int) ≤ m := by
    by_contra hc
    have : m ≤ -1 := by omega
    have : (m : ℝ) ≤ -1 := by exact_mod_cast this
    nlinarith
  have : (0 : ℝ) ≤ m := by exact_mod_cast hm0
  nlinarith

theorem onSeg_parallel (l : Ln) (h : l.s ≠ l.e) (z : P2) (hseg : OnSeg l.s l.e (l.foot z)) :
    OnSeg (l.parallel (l.signedDist z)).s (l.parallel (l.signedDist z)).e z := by
  obtain ⟨u, u0, u1, hu⟩ := hseg
  refine ⟨u, u0, u1, ?_⟩
  have hx := congrArg P2.x hu
  have hy := congrArg P2.y hu
  unfold Ln.foot lerp at hx hy
  simp only [P2.sub_x, P2.sub_y] at hx hy
  unfold lerp Ln.parallel
  simp only [P2.add_x, P2.add_y]
  ext
  · simp only; linarith
  · simp only; linarith

/-- **C63**, completeness and choice. If a circle of the given radius touches the segment on the right
side and the circle from outside (and is not one of a nearly coinciding pair), then a path is returned,
and its arc is not longer than the arc `α` along that circle. -/
theorem pathLineCircle_best (l : Ln) (h : l.s ≠ l.e) (k : Arc) (hk : k.WF) (r : ℝ) (hr : 0 < r)
    (hε : distEps / (2 * eucl l.e l.s) < k.radius) (htol : distEps ≤ 2 * r ^ 2)
    (hlen : distEps / eucl l.e l.s < r) (z : P2) (z1 : OnSeg l.s l.e (l.foot z))
    (z2 : l.signedDist z = -k.dir * r) (z3 : eucl z k.center = k.radius + r)
    (z4 : distEps / (2 * eucl l.e l.s) ≤ eucl z ((l.parallel (-k.dir * r)).foot k.center))
    (φ α : ℝ) (hα : 0 ≤ α) (h1 : l.foot z = circPt z r φ)
    (h2 : lerp z k.center (r / (k.radius + r)) = circPt z r (φ - k.dir * α)) :
    ∃ P t e, pathLineCircle l k r = .ok [.line ⟨l.s, P⟩, .arc t, .arc e] ∧ t.arc ≤ α := by
  have heps : |distEps| = distEps := abs_of_pos (by unfold distEps; norm_num)
  have hl : 0 < eucl l.e l.s := len_pos h
  have hkr := hk.r
  obtain ⟨ts, q1, q2⟩ := tangentCircles_spec l h k hk r hr distEps
  rw [heps] at q2
  have hj : ∀ t ∈ ts, Joins l k r (distEps / (2 * eucl l.e l.s)) t := fun t ht => by
    obtain ⟨a, b, c, d, e, f⟩ := q2 t ht; exact ⟨a, b, c, d, e, f⟩
  -- `z` is the centre of one of the circles
  have hmem : ∃ t ∈ ts, t.center = z := by
    obtain ⟨c2, k1, k2, k3, k4, _⟩ := new_dir k.center (k.radius + r) k.dir hk.dir
    rw [abs_of_pos (by linarith)] at k3
    have hdir : k.dir * (-1) = 1 ∨ k.dir * (-1) = -1 := by rcases hk.dir with h | h <;> rw [h] <;> simp
    have hpar := onSeg_parallel l h z z1
    obtain ⟨p1, _⟩ := parallel_spec l h (l.signedDist z)
    have hne : (l.parallel (l.signedDist z)).s ≠ (l.parallel (l.signedDist z)).e := by
      intro he
      apply h
      have hx := congrArg P2.x p1
      have hy := congrArg P2.y p1
      rw [he] at hx hy
      simp only [P2.sub_x, P2.sub_y, sub_self] at hx hy
      ext <;> linarith
    have hlen2 : eucl (l.parallel (l.signedDist z)).e (l.parallel (l.signedDist z)).s = eucl l.e l.s := by
      show ((l.parallel _).e - (l.parallel _).s).length = (l.e - l.s).length
      rw [p1]
    have hin : z ∈ intersectLC (l.parallel (l.signedDist z)) c2 distEps := by
      rcases intersectLC_complete (l.parallel (l.signedDist z)) hne c2 distEps z hpar (by rw [k2, k3, z3]) with
        hz | ⟨hz, _⟩
      · exact hz
      · rw [hlen2, heps, k2, z2] at hz; linarith
    obtain ⟨ca, a1, a2, _⟩ := circlesAt_ok r (k.dir * (-1)) hdir (intersectLC (l.parallel r) c2 distEps)
    obtain ⟨cb, b1, b2, _⟩ := circlesAt_ok r (k.dir * (-1)) hdir (intersectLC (l.parallel (-r)) c2 distEps)
    have hts : ts = ca ++ cb := by
      unfold tangentCircles at q1
      rw [k1] at q1; simp only [CRes.ok_bind] at q1
      rw [a1] at q1; simp only [CRes.ok_bind] at q1
      rw [b1] at q1; simp only [CRes.ok_bind, CRes.pure_eq] at q1
      injection q1 with q1; exact q1.symm
    rw [hts]
    rcases hk.dir with hd | hd
    · rw [z2, hd] at hin
      simp only [Int.cast_one, neg_mul, one_mul] at hin
      rw [← b2] at hin
      obtain ⟨t, ht, e⟩ := List.mem_map.1 hin
      exact ⟨t, List.mem_append.2 (Or.inr ht), e⟩
    · rw [z2, hd] at hin
      simp only [Int.cast_neg, Int.cast_one, neg_neg, one_mul] at hin
      rw [← a2] at hin
      obtain ⟨t, ht, e⟩ := List.mem_map.1 hin
      exact ⟨t, List.mem_append.2 (Or.inl ht), e⟩
  obtain ⟨t0, ht0, rfl⟩ := hmem
  have j := hj t0 ht0
  have hs : l.signedDist t0.center = t0.dir * r := by rw [z2, j.dir]; push_cast; ring
  have hA := arcFromLine_eq l h k t0 hr hε (tol := distEps) (by rw [heps]; exact htol)
    (by rw [heps]; exact hlen) j
  rw [if_pos hs] at hA
  have hT : tangentArcFromLine l k r = .ok (ts.filterMap (arcFromLine l k distEps)) := by
    unfold tangentArcFromLine; rw [q1]; rfl
  have hin : (t0.setStartP (l.foot t0.center)).setEndP (touchPt k t0) ∈ ts.filterMap (arcFromLine l k distEps) :=
    List.mem_filterMap.2 ⟨t0, ht0, hA⟩
  unfold pathLineCircle
  rw [hT, CRes.ok_bind]
  rcases hts : ts.filterMap (arcFromLine l k distEps) with _ | ⟨a, as⟩
  · rw [hts] at hin; simp at hin
  rw [hts] at hin
  obtain ⟨_, hle⟩ := minArc_spec as a
  refine ⟨_, minArc a as, _, rfl, ?_⟩
  obtain ⟨hD, e1, e2, e3⟩ := touchPt_spec l k t0 hr hε j
  have hfr : eucl (l.foot t0.center) t0.center = t0.radius := by
    rw [foot_eucl l h, j.rad, hs]
    rcases j.wf.dir with hd | hd <;> rw [hd] <;> simp [abs_of_pos hr]
  have hle1 := hle _ hin
  obtain ⟨w1, _⟩ := setSE_spec t0 j.wf _ _ hfr e1
  rw [abs_of_nonneg w1.arc0] at hle1
  refine (le_abs_self _).trans (hle1.trans ?_)
  refine setSE_arc_min t0 j.wf _ _ hfr e1 hα (by rw [j.rad]; exact h1) ?_
  unfold touchPt
  rw [eucl_comm, z3, j.rad, h2, j.dir]
  congr 1; push_cast; ring

/-! ### Paths between circles -/

/-- **C63 (finding).** `tangentPath(small, large)` with `from_small = true` never returns a path: the
tangential circle keeps its full arc `2π`, which is then rejected as longer than `π`. -/
theorem pathCircleCircle_fromSmall (small large : Arc) (hl : large.dir = 1 ∨ large.dir = -1) (r tol : ℝ)
    {path : List Shape} (hp : pathCircleCircle small large r true tol = .ok path) : path = [] := by
  have inner : ∀ ts as, (∀ t ∈ ts, t.arc = 2 * pi) → innerArcs small large true tol ts = .ok as →
      ∀ t ∈ as, t.arc = 2 * pi := by
    intro ts
    induction ts with
    | nil => intro as _ h; unfold innerArcs at h; injection h with h; subst h; simp
    | cons t ts ih =>
      intro as hts h
      unfold innerArcs at h
      obtain ⟨i1, _, h⟩ := CRes.bind_eq_ok.1 h
      obtain ⟨i2, _, h⟩ := CRes.bind_eq_ok.1 h
      obtain ⟨rest, hr, h⟩ := CRes.bind_eq_ok.1 h
      have hrest := ih rest (fun x hx => hts x (List.mem_cons_of_mem _ hx)) hr
      split at h
      · simp only [if_true, CRes.pure_eq] at h
        injection h with h; subst h
        intro x hx
        rcases List.mem_cons.1 hx with rfl | hx
        · exact hts _ List.mem_cons_self
        · exact hrest x hx
      · rw [CRes.pure_eq] at h; injection h with h; subst h; exact hrest
  unfold pathCircleCircle at hp
  obtain ⟨ts, h1, hp⟩ := CRes.bind_eq_ok.1 hp
  obtain ⟨as, h2, hp⟩ := CRes.bind_eq_ok.1 hp
  have hts : ∀ t ∈ ts, t.arc = 2 * pi := by
    unfold tangentInnerCircles at h1
    split_ifs at h1
    · injection h1 with h1; subst h1; simp
    · obtain ⟨_, _, h1⟩ := CRes.bind_eq_ok.1 h1
      obtain ⟨_, _, h1⟩ := CRes.bind_eq_ok.1 h1
      obtain ⟨ip, _, h1⟩ := CRes.bind_eq_ok.1 h1
      obtain ⟨cs, c1, _, c3⟩ := circlesAt_ok r large.dir hl ip
      rw [c1] at h1; injection h1 with h1; subst h1
      exact fun t ht => (c3 t ht).2.2.1
  have has := inner ts as hts h2
  rcases as with _ | ⟨a, as⟩
  · rw [CRes.pure_eq] at hp; injection hp with hp; exact hp.symm
  · have := has _ (minArc_spec as a).1
    simp only [Arc.getArc, this] at hp
    rw [if_pos (by linarith [Real.pi_pos]), CRes.pure_eq] at hp
    injection hp with hp; exact hp.symm

/-- **C63 (finding).** Consequently a path from a circle to another circle's arc
(`tangentPath(shape, circle, ..., first_to_second = false)`) is never found. -/
theorem pathShapeCircle_arc_backward (c k : Arc) (hc : c.dir = 1 ∨ c.dir = -1) (r : ℝ) {path : List Shape}
    (hp : pathShapeCircle (.arc c) k r false = .ok path) : path = [] :=
  pathCircleCircle_fromSmall k c hc r distEps hp

/-- **C63.** `tangentPath(shape, circle, ..., first_to_second)` for a line: the path runs from the start of
the line to the circle, or from the circle to the end of the line, as requested. -/
theorem pathShapeCircle_line (l : Ln) (h : l.s ≠ l.e) (k : Arc) (hk : k.WF) (r : ℝ) (hr : 0 < r)
    (hε : distEps / (2 * eucl l.e l.s) < k.radius) (htol : distEps ≤ 2 * r ^ 2)
    (hlen : distEps / eucl l.e l.s < r) (hlong : 1 / 2 < eucl l.e l.s) :
    (∃ path, pathShapeCircle (.line l) k r true = .ok path ∧ (path = [] ∨ ∃ P t e,
      path = [.line ⟨l.s, P⟩, .arc t, .arc e] ∧ OnSeg l.s l.e P ∧ t.radius = r ∧ SameCircle e k ∧ t.startPoint = P ∧
      eucl t.endPoint e.startPoint ≤ distEps / (2 * eucl l.e l.s))) ∧
    (∃ path, pathShapeCircle (.line l) k r false = .ok path ∧ (path = [] ∨ ∃ P t e,
      path = [.arc e, .arc t, .line ⟨P, l.e⟩] ∧ OnSeg l.s l.e P ∧ t.radius = r ∧ SameCircle e k ∧ t.endPoint = P ∧
      e.startPoint = k.startPoint ∧ eucl t.startPoint e.endPoint ≤ distEps / (2 * eucl l.e l.s))) := by
  obtain ⟨p1, e1, f1⟩ := pathLineCircle_smooth l h k hk r hr hε htol hlen
  obtain ⟨p2, e2, f2⟩ := pathCircleLine_smooth l h k hk r hr hε htol hlen hlong
  refine ⟨⟨p1, e1, f1.imp id ?_⟩, ⟨p2, e2, f2.imp id ?_⟩⟩
  · rintro ⟨P, t, e, q1, q2, _, q4, q5, _, q7, _, q9, _⟩
    exact ⟨P, t, e, q1, q2, q4, q5, q7, q9⟩
  · rintro ⟨P, t, e, q1, q2, _, q4, q5, q6, q7, _, q9, _⟩
    exact ⟨P, t, e, q1, q2, q4, q5, q7, q6, q9⟩

/-- **C63.** A circle that is not smaller than the large one does not fit into it: nothing is returned. -/
theorem tangentInnerCircles_too_large (small large : Arc) (r tol : ℝ) (h : large.radius ≤ r) :
    tangentInnerCircles small large r tol = .ok [] := by
  unfold tangentInnerCircles
  rw [if_pos h]

/-- A circle between two circles: it touches the small one from outside and the large one from inside. -/
structure Between (small large : Arc) (r : ℝ) (t : Arc) : Prop where
  wf : t.WF
  rad : t.radius = r
  dir : t.dir = large.dir
  out : eucl t.center small.center = small.radius + r
  inn : eucl t.center large.center = large.radius - r

/-- **C63.** In general position (the auxiliary circles cross in two points) `tangentInnerCircles`
returns exactly two circles of the given radius, both touching the small circle from outside and the
large one from inside. -/
theorem tangentInnerCircles_spec (small large : Arc) (hs : small.WF) (hl : large.WF) (r tol : ℝ)
    (hr : 0 < r) (hrl : r < large.radius) (c1 c2 : Arc) (p q : P2)
    (hd0 : 0 < eucl large.center small.center) (hd : |tol| ≤ eucl large.center small.center)
    (n1 : Arc.new small.center (small.radius + r) small.dir = .ok c1)
    (n2 : Arc.new large.center (large.radius - r) large.dir = .ok c2)
    (hgen : intersectCC c1 c2 [] tol = .ok [p, q]) :
    ∃ a b, tangentInnerCircles small large r tol = .ok [a, b] ∧ Between small large r a ∧
      Between small large r b ∧ a.center = p ∧ b.center = q := by
  have hsr := hs.r
  have hpi := Real.pi_pos
  obtain ⟨d1, x1, x2, x3, _⟩ := new_dir small.center (small.radius + r) small.dir hs.dir
  obtain ⟨d2, y1, y2, y3, _⟩ := new_dir large.center (large.radius - r) large.dir hl.dir
  rw [n1] at x1; injection x1 with x1; subst x1
  rw [n2] at y1; injection y1 with y1; subst y1
  rw [abs_of_pos (by linarith)] at x3 y3
  have hso := intersectCC_sound c1 c2 (by rw [x3]; linarith) (by rw [y3]; linarith) [] tol
    (by rw [x2, y2]; exact hd0) (by rw [x2, y2]; exact hd) hgen
  obtain ⟨cs, e1, e2, e3⟩ := circlesAt_ok r large.dir hl.dir [p, q]
  have hT : tangentInnerCircles small large r tol = .ok cs := by
    unfold tangentInnerCircles
    rw [if_neg (by linarith)]
    simp only [n1, n2, CRes.ok_bind, hgen, e1]
  rcases hso with h | ⟨_, h, _⟩ | ⟨p', q', h, _, g1, g2, g3, g4⟩
  · simp at h
  · simp at h
  · simp only [List.cons.injEq, and_true] at h
    obtain ⟨rfl, rfl⟩ := h
    rcases cs with _ | ⟨a, _ | ⟨b, _ | ⟨_, _⟩⟩⟩ <;> simp at e2
    obtain ⟨ea, eb⟩ := e2
    rw [x2, x3] at g1 g3
    rw [y2, y3] at g2 g4
    have mk : ∀ t ∈ [a, b], (t.center = p ∨ t.center = q) → Between small large r t := by
      intro t ht hc
      obtain ⟨t1, t2, t3, t4, t5⟩ := e3 t ht
      rw [abs_of_pos hr] at t1
      refine ⟨⟨by rw [t1]; exact hr, t2 ▸ hl.dir, by rw [t3]; positivity, t3.le, t4, t5⟩, t1, t2, ?_, ?_⟩
      · rcases hc with h | h <;> rw [h] <;> assumption
      · rcases hc with h | h <;> rw [h] <;> assumption
    exact ⟨a, b, hT, mk a (by simp) (Or.inl ea), mk b (by simp) (Or.inr eb), ea, eb⟩

/-- The points where a circle between two circles touches them. -/
def outPt (small t : Arc) : P2 := lerp t.center small.center (t.radius / (small.radius + t.radius))
def innPt (large t : Arc) : P2 := lerp t.center large.center (-(t.radius / (large.radius - t.radius)))

theorem between_small (small large t : Arc) (hs : small.WF) {r : ℝ} (hr : 0 < r)
    (b : Between small large r t) (tol : ℝ) (htol : 0 < tol) (htr : tol ≤ small.radius + r) :
    intersectCC small t [] tol = .ok [outPt small t] ∧ eucl (outPt small t) small.center = small.radius ∧
      eucl (outPt small t) t.center = t.radius := by
  have hsr := hs.r
  have hD : eucl t.center small.center = small.radius + r := b.out
  have hD0 : 0 < small.radius + r := by linarith
  have hA : radA small t = small.radius := by
    unfold radA; rw [hD, b.rad]; field_simp; ring
  have hp : axPt small.center t.center (radA small t) 0 = outPt small t := by
    rw [hA]; unfold axPt outPt lerp; rw [hD, b.rad]
    ext
    · simp only; field_simp; ring
    · simp only; field_simp; ring
  refine ⟨?_, ?_, ?_⟩
  · rw [intersectCC_eq, hD, b.rad, abs_of_pos htol, if_neg (by linarith), if_neg (by linarith), if_neg, if_pos, hp]
    · rw [sub_self, abs_zero]; exact htol
    · rw [not_lt, abs_le]; constructor <;> linarith
  · rw [← hp, axPt_eucl1 (by rw [hD]; exact hD0), hA, abs_of_pos hsr]
  · rw [← hp, axPt_eucl2 (by rw [hD]; exact hD0), hA, hD, b.rad, add_sub_cancel_left, abs_of_pos hr]

theorem between_large (small large t : Arc) {r : ℝ} (hr : 0 < r)
    (b : Between small large r t) (tol : ℝ) (htol : 0 < tol) (htr : tol ≤ large.radius - r) :
    intersectCC t large [] tol = .ok [innPt large t] ∧ eucl (innPt large t) large.center = large.radius ∧
      eucl (innPt large t) t.center = t.radius := by
  have hD : eucl large.center t.center = large.radius - r := by rw [eucl_comm]; exact b.inn
  have hD0 : 0 < large.radius - r := by linarith
  have hne := hD0.ne'
  have hA : radA t large = -r := by
    unfold radA; rw [hD, b.rad]; rw [div_eq_iff (by linarith)]; ring
  have hH : radH t large = 0 := by unfold radH; rw [hA, b.rad]; ring
  have hp : axPt t.center large.center (radA t large) 0 = innPt large t := by
    rw [hA]; unfold axPt innPt lerp; rw [hD, b.rad]
    ext
    · simp only; ring
    · simp only; ring
  refine ⟨?_, ?_, ?_⟩
  · rw [intersectCC_eq, hD, b.rad, hH, abs_of_pos htol, if_neg (by linarith), if_neg (by linarith), if_neg]
    · split_ifs with h1 h2 h3 h4
      · rw [hp]
      · rw [hp]
      · simp only [abs_zero, not_lt] at h2; nlinarith
      · exact absurd h4 (lt_irrefl _)
      · simp only [abs_zero, not_lt] at h2; nlinarith
    · rw [not_lt, abs_le]; constructor <;> linarith
  · rw [← hp, axPt_eucl2 (by rw [hD]; exact hD0), hA, hD, show large.radius - r - -r = large.radius by ring,
      abs_of_pos (by linarith)]
  · rw [← hp, axPt_eucl1 (by rw [hD]; exact hD0), hA, abs_neg, abs_of_pos hr, b.rad]

/-- Two circles that touch from inside and turn in the same direction have the same heading there. -/
theorem inner_heading (small large t : Arc) {r : ℝ} (hr : 0 < r) (hlr : r < large.radius)
    (b : Between small large r t) {φ ψ : ℝ} (h1 : innPt large t = circPt t.center t.radius φ)
    (h2 : innPt large t = circPt large.center large.radius ψ) :
    AngEq (circHeading t.dir φ) (circHeading large.dir ψ) := by
  have hD0 : 0 < large.radius - r := by linarith
  have hne := hD0.ne'
  have hl0 : 0 < large.radius := by linarith
  have hx1 := congrArg P2.x h1
  have hy1 := congrArg P2.y h1
  have hx2 := congrArg P2.x h2
  have hy2 := congrArg P2.y h2
  unfold innPt lerp circPt at hx1 hy1 hx2 hy2
  rw [b.rad] at hx1 hy1 hx2 hy2
  simp only at hx1 hy1 hx2 hy2
  have cx : Real.cos φ = Real.cos ψ := by
    have e1 : (large.radius - r) * Real.cos φ = -(large.center.x - t.center.x) := by
      apply mul_left_cancel₀ hr.ne'
      field_simp at hx1; linarith
    have e2 : (large.radius - r) * Real.cos ψ = -(large.center.x - t.center.x) := by
      apply mul_left_cancel₀ hl0.ne'
      field_simp at hx2; linarith
    exact mul_left_cancel₀ hne (e1.trans e2.symm)
  have cy : Real.sin φ = Real.sin ψ := by
    have e1 : (large.radius - r) * Real.sin φ = -(large.center.y - t.center.y) := by
      apply mul_left_cancel₀ hr.ne'
      field_simp at hy1; linarith
    have e2 : (large.radius - r) * Real.sin ψ = -(large.center.y - t.center.y) := by
      apply mul_left_cancel₀ hl0.ne'
      field_simp at hy2; linarith
    exact mul_left_cancel₀ hne (e1.trans e2.symm)
  rw [b.dir]
  exact AngEq.heading _ (angle_cong cx cy)

/-- Heading at the joint with the small circle: it agrees if the two circles turn in opposite
directions, and is reversed if they turn in the same direction. -/
theorem outer_heading (small large t : Arc) (hs : small.WF) (hl : large.WF) {r : ℝ} (hr : 0 < r)
    (b : Between small large r t) {φ ψ : ℝ} (h1 : outPt small t = circPt t.center t.radius φ)
    (h2 : outPt small t = circPt small.center small.radius ψ) :
    (large.dir = -small.dir → AngEq (circHeading t.dir φ) (circHeading small.dir ψ)) ∧
    (large.dir = small.dir → AngEq (circHeading t.dir φ) (circHeading small.dir ψ + pi)) := by
  have hsr := hs.r
  have hD : eucl small.center t.center = small.radius + r := by rw [eucl_comm]; exact b.out
  have key := opposite_heading t.center small.center (r := t.radius) (D := small.radius + r) b.wf.r
    hD.symm (by rw [b.rad]; linarith) small.dir hs.dir (φ := φ) (ψ := ψ)
    (by rw [← h1, outPt, b.rad]) (by rw [b.rad, add_sub_cancel_right, ← h2, outPt, b.rad])
  constructor
  · intro hd; rw [b.dir, hd]; exact key
  · intro hd; rw [b.dir, hd]
    obtain ⟨m, hm⟩ := key
    unfold circHeading at hm ⊢
    rcases hs.dir with h | h
    · rw [h] at hm ⊢
      push_cast at hm ⊢
      exact ⟨m, by linarith⟩
    · rw [h] at hm ⊢
      push_cast at hm ⊢
      exact ⟨m - 1, by push_cast; linarith⟩

theorem filter_singleton_eq {α : Type} {f : α → Bool} {x y : α} (h : [x].filter f = [y]) : y = x := by
  by_cases hf : f x = true
  · rw [List.filter_cons_of_pos hf] at h; simp at h; exact h.symm
  · rw [List.filter_cons_of_neg hf] at h; simp at h

/-- **C63.** A path from the large to the small circle (`from_small = false`) in general position: the
large circle up to the joint, an arc of the given radius and at most half a turn, the small circle from
the joint. The arc begins on the large circle and ends on the small circle; the headings agree at the
first joint, and at the second one if the circles turn in opposite directions. If they turn in the same
direction (which the function does not check) the heading is reversed there: the path has a cusp. -/
theorem pathCircleCircle_smooth (small large : Arc) (hs : small.WF) (hl : large.WF) (r tol : ℝ)
    (hr : 0 < r) (htol : 0 < tol) (htl : tol ≤ large.radius - r) (hts : tol ≤ small.radius + r)
    (c1 c2 : Arc) (p q : P2)
    (hd : tol ≤ eucl large.center small.center)
    (n1 : Arc.new small.center (small.radius + r) small.dir = .ok c1)
    (n2 : Arc.new large.center (large.radius - r) large.dir = .ok c2)
    (hgen : intersectCC c1 c2 [] tol = .ok [p, q]) {path : List Shape}
    (hp : pathCircleCircle small large r false tol = .ok path) :
    path = [] ∨ ∃ a t e, path = [.arc a, .arc t, .arc e] ∧ SameCircle a large ∧ SameCircle e small ∧
      t.WF ∧ t.radius = r ∧ t.arc ≤ pi ∧ t.startPoint = a.endPoint ∧ t.endPoint = e.startPoint ∧
      a.startPoint = large.startPoint ∧ e.endPoint = small.endPoint ∧
      AngEq (circHeading t.dir t.start) (circHeading a.dir (a.start + a.dir * a.arc)) ∧
      (large.dir = -small.dir →
        AngEq (circHeading t.dir (t.start + t.dir * t.arc)) (circHeading e.dir e.start)) ∧
      (large.dir = small.dir →
        AngEq (circHeading t.dir (t.start + t.dir * t.arc)) (circHeading e.dir e.start + pi)) := by
  obtain ⟨A, B, hT, bA, bB, _⟩ := tangentInnerCircles_spec small large hs hl r tol hr (by linarith) c1 c2 p q
    (by linarith) (by rw [abs_of_pos htol]; exact hd) n1 n2 hgen
  have inner : ∀ ts as, (∀ t ∈ ts, Between small large r t) → innerArcs small large false tol ts = .ok as →
      ∀ x ∈ as, ∃ t, Between small large r t ∧ x = (t.setStartP (innPt large t)).setEndP (outPt small t) := by
    intro ts
    induction ts with
    | nil => intro as _ h; unfold innerArcs at h; injection h with h; subst h; simp
    | cons t ts ih =>
      intro as hb h
      have b := hb t List.mem_cons_self
      obtain ⟨s1, s2, s3⟩ := between_small small large t hs hr b tol htol hts
      obtain ⟨l1, l2, l3⟩ := between_large small large t hr b tol htol htl
      unfold innerArcs at h
      obtain ⟨i1, hi1, h⟩ := CRes.bind_eq_ok.1 h
      obtain ⟨i2, hi2, h⟩ := CRes.bind_eq_ok.1 h
      obtain ⟨rest, hrest, h⟩ := CRes.bind_eq_ok.1 h
      have hr2 := ih rest (fun x hx => hb x (List.mem_cons_of_mem _ hx)) hrest
      unfold intersectArcs at hi1 hi2
      rw [s1, CRes.ok_bind, CRes.pure_eq] at hi1
      rw [l1, CRes.ok_bind, CRes.pure_eq] at hi2
      injection hi1 with hi1
      injection hi2 with hi2
      split at h
      · have ea := filter_singleton_eq hi1
        have eb := filter_singleton_eq hi2
        simp only [Bool.false_eq_true, if_false, CRes.pure_eq] at h
        injection h with h; subst h
        intro x hx
        rcases List.mem_cons.1 hx with rfl | hx
        · refine ⟨t, b, ?_⟩
          have heps : (0 : ℝ) < distEps := by unfold distEps; norm_num
          have f1 : (t.selectStart (innPt large t)).2 = t.setStartP (innPt large t) := by
            unfold Arc.selectStart; rw [len_eq, l3, sub_self, abs_zero, if_pos heps]
          have f2 : ((t.setStartP (innPt large t)).selectEnd (outPt small t)).2 =
              (t.setStartP (innPt large t)).setEndP (outPt small t) := by
            unfold Arc.selectEnd
            rw [show (t.setStartP (innPt large t)).center = t.center from rfl,
              show (t.setStartP (innPt large t)).radius = t.radius from rfl, len_eq, s3, sub_self, abs_zero,
              if_pos heps]
          rw [ea, eb, f1, f2]
        · exact hr2 x hx
      · rw [CRes.pure_eq] at h; injection h with h; subst h; exact hr2
  unfold pathCircleCircle at hp
  rw [hT, CRes.ok_bind] at hp
  obtain ⟨as, has, hp⟩ := CRes.bind_eq_ok.1 hp
  have hin := inner [A, B] as (by intro t ht; simp at ht; rcases ht with rfl | rfl <;> assumption) has
  rcases as with _ | ⟨a, as⟩
  · rw [CRes.pure_eq] at hp; injection hp with hp; exact Or.inl hp.symm
  simp only [Bool.false_eq_true, if_false] at hp
  split_ifs at hp with hgt
  · rw [CRes.pure_eq] at hp; injection hp with hp; exact Or.inl hp.symm
  right
  obtain ⟨t0, b, ht0⟩ := hin _ (minArc_spec as a).1
  obtain ⟨s1, s2, s3⟩ := between_small small large t0 hs hr b tol htol hts
  obtain ⟨l1, l2, l3⟩ := between_large small large t0 hr b tol htol htl
  obtain ⟨w1, w2, w3, w4, w5, w6⟩ := setSE_spec t0 b.wf _ _ l3 s3
  rw [← ht0] at w1 w2 w3 w4 w5 w6
  rw [CRes.pure_eq] at hp
  injection hp with hp
  set t := minArc a as with ht
  have heps : (0 : ℝ) < distEps := by unfold distEps; norm_num
  have f1 : (large.selectEnd t.startPoint).2 = large.setEnd (large.angleOf (innPt large t0)) := by
    rw [w2]; unfold Arc.selectEnd; rw [len_eq, l2, sub_self, abs_zero, if_pos heps]; rfl
  have f2 : (small.selectStart t.endPoint).2 = small.setStart (small.angleOf (outPt small t0)) := by
    rw [w3]; unfold Arc.selectStart; rw [len_eq, s2, sub_self, abs_zero, if_pos heps]; rfl
  obtain ⟨y1, y2, _⟩ := setEnd_spec large hl.dir (large.angleOf (innPt large t0))
  obtain ⟨z1, z2, _⟩ := setStart_spec small hs.dir (small.angleOf (outPt small t0))
  have gl := (angleOf_spec large (innPt large t0)).2.2
  have gs := (angleOf_spec small (outPt small t0)).2.2
  rw [l2] at gl
  rw [s2] at gs
  have ye := endPoint_eq (large.setEnd (large.angleOf (innPt large t0))) hl.dir
  have ze := startPoint_eq (small.setStart (small.angleOf (outPt small t0)))
  have hst := startPoint_eq t
  have hen := endPoint_eq t w1.dir
  rw [w2, w5, w4] at hst
  rw [w3, w5, w4] at hen
  rw [y1, gl] at ye
  rw [z1, gs] at ze
  rw [f1, f2] at hp
  obtain ⟨o1, o2⟩ := outer_heading small large t0 hs hl hr b hen ze
  have i1 := inner_heading small large t0 hr (by linarith) b hst ye
  refine ⟨_, t, _, hp.symm, ⟨rfl, rfl, rfl⟩, ⟨rfl, rfl, rfl⟩, w1, by rw [w4, b.rad], not_lt.1 hgt, ?_, ?_, y2, z2, ?_, ?_, ?_⟩
  · rw [w2, y1, gl]
  · rw [w3, z1, gs]
  · rw [w6]; exact i1
  · rw [← w6] at o1; exact o1
  · rw [← w6] at o2; exact o2

/-! ### `tangentInnerArcs` -/

theorem shortest_spec (dmax : ℝ) : ∀ (as : List Arc) (i best : Nat) (bound : ℝ),
    ∃ v : ℝ, v ≤ bound ∧ (∀ a ∈ as, v ≤ a.arc) ∧
      ((shortest dmax as i best bound = best ∧ v = bound) ∨
        ∃ j a, shortest dmax as i best bound = i + j ∧ as[j]? = some a ∧ a.arc = v) := by
  intro as
  induction as with
  | nil => intro i best bound; exact ⟨bound, le_rfl, by simp, Or.inl ⟨rfl, rfl⟩⟩
  | cons a as ih =>
    intro i best bound
    by_cases hc : a.arc < bound
    · have hdef : shortest dmax (a :: as) i best bound = shortest dmax as (i + 1) i a.arc := if_pos hc
      rw [hdef]
      obtain ⟨v, v1, v2, v3⟩ := ih (i + 1) i a.arc
      refine ⟨v, by linarith, ?_, Or.inr ?_⟩
      · intro x hx
        rcases List.mem_cons.1 hx with rfl | hx
        · exact v1
        · exact v2 x hx
      · rcases v3 with ⟨h1, h2⟩ | ⟨j, b, h1, h2, h3⟩
        · exact ⟨0, a, by rw [h1]; rfl, rfl, h2.symm⟩
        · exact ⟨j + 1, b, by rw [h1]; omega, by simpa using h2, h3⟩
    · have hdef : shortest dmax (a :: as) i best bound = shortest dmax as (i + 1) best bound := if_neg hc
      rw [hdef]
      obtain ⟨v, v1, v2, v3⟩ := ih (i + 1) best bound
      refine ⟨v, v1, ?_, ?_⟩
      · intro x hx
        rcases List.mem_cons.1 hx with rfl | hx
        · linarith
        · exact v2 x hx
      · rcases v3 with h | ⟨j, b, h1, h2, h3⟩
        · exact Or.inl h
        · exact Or.inr ⟨j + 1, b, by rw [h1]; omega, by simpa using h2, h3⟩

theorem intersectCC_congr (a b k : Arc) (h1 : a.center = b.center) (h2 : a.radius = b.radius)
    (old : List P2) (tol : ℝ) : intersectCC a k old tol = intersectCC b k old tol := by
  unfold intersectCC; rw [h1, h2]

/-- **C63.** `tangentInnerArcs` in general position: nothing for circles that turn in the same direction;
otherwise nothing or one arc of the given radius that leads from the first circle to the second one with
matching headings at both ends. -/
theorem tangentInnerArcs_smooth (small large : Arc) (hs : small.WF) (hl : large.WF) (r tol dmax : ℝ)
    (hdmax : 2 * pi < dmax)
    (hr : 0 < r) (htol : 0 < tol) (htl : tol ≤ large.radius - r) (hts : tol ≤ small.radius + r)
    (c1 c2 : Arc) (p q : P2)
    (hd : tol ≤ eucl large.center small.center)
    (n1 : Arc.new small.center (small.radius + r) small.dir = .ok c1)
    (n2 : Arc.new large.center (large.radius - r) large.dir = .ok c2)
    (hgen : intersectCC c1 c2 [] tol = .ok [p, q]) :
    ∃ res, tangentInnerArcs dmax small large r tol = .ok res ∧
      (small.dir = large.dir → res = []) ∧
      (res = [] ∨ ∃ t, res = [t] ∧ t.WF ∧ t.radius = r ∧
        eucl t.startPoint small.center = small.radius ∧ eucl t.endPoint large.center = large.radius ∧
        AngEq (circHeading t.dir t.start) (circHeading small.dir (small.angleOf t.startPoint)) ∧
        AngEq (circHeading t.dir (t.start + t.dir * t.arc))
          (circHeading large.dir (large.angleOf t.endPoint))) := by
  unfold tangentInnerArcs
  by_cases hdir : small.dir = large.dir
  · rw [if_pos hdir]; exact ⟨[], rfl, fun _ => rfl, Or.inl rfl⟩
  rw [if_neg hdir]
  have hopp : large.dir = -small.dir := by
    rcases hs.dir with h | h <;> rcases hl.dir with h' | h' <;> omega
  obtain ⟨A, B, hT, bA, bB, _⟩ := tangentInnerCircles_spec small large hs hl r tol hr (by linarith) c1 c2 p q
    (by linarith) (by rw [abs_of_pos htol]; exact hd) n1 n2 hgen
  have inner : ∀ ts, (∀ t ∈ ts, Between small large r t) → ∃ as, innerArcs2 small large tol ts = .ok as ∧
      ∀ x ∈ as, ∃ t, Between small large r t ∧ x = (t.setStartP (outPt small t)).setEndP (innPt large t) := by
    intro ts
    induction ts with
    | nil => intro _; exact ⟨[], rfl, by simp⟩
    | cons t ts ih =>
      intro hb
      have b := hb t List.mem_cons_self
      obtain ⟨rest, r1, r2⟩ := ih (fun x hx => hb x (List.mem_cons_of_mem _ hx))
      obtain ⟨s1, s2, s3⟩ := between_small small large t hs hr b tol htol hts
      obtain ⟨l1, l2, l3⟩ := between_large small large t hr b tol htol htl
      unfold innerArcs2
      have e1 : intersectArcs small t tol =
          .ok ([outPt small t].filter (fun p => small.onArc p && t.onArc p)) := by
        unfold intersectArcs; rw [s1]; rfl
      have e2 : intersectArcs (t.setStartP (outPt small t)) large tol =
          .ok ([innPt large t].filter (fun p => (t.setStartP (outPt small t)).onArc p && large.onArc p)) := by
        unfold intersectArcs; rw [intersectCC_congr (t.setStartP (outPt small t)) t large rfl rfl, l1]; rfl
      rw [e1, CRes.ok_bind]
      by_cases f1 : (small.onArc (outPt small t) && t.onArc (outPt small t)) = true
      · rw [List.filter_cons_of_pos (by exact f1), List.filter_nil]
        simp only
        rw [e2, CRes.ok_bind, r1, CRes.ok_bind]
        by_cases f2 : ((t.setStartP (outPt small t)).onArc (innPt large t) && large.onArc (innPt large t)) = true
        · rw [List.filter_cons_of_pos (by exact f2), List.filter_nil]
          refine ⟨_, rfl, ?_⟩
          intro x hx
          rcases List.mem_cons.1 hx with rfl | hx
          · exact ⟨t, b, rfl⟩
          · exact r2 x hx
        · rw [List.filter_cons_of_neg (by exact f2), List.filter_nil]
          exact ⟨rest, rfl, r2⟩
      · rw [List.filter_cons_of_neg (by exact f1), List.filter_nil]
        exact ⟨rest, r1, r2⟩
  obtain ⟨as, a1, a2⟩ := inner [A, B] (by intro t ht; simp at ht; rcases ht with rfl | rfl <;> assumption)
  have good : ∀ x ∈ as, x.WF ∧ x.radius = r ∧
        eucl x.startPoint small.center = small.radius ∧ eucl x.endPoint large.center = large.radius ∧
        AngEq (circHeading x.dir x.start) (circHeading small.dir (small.angleOf x.startPoint)) ∧
        AngEq (circHeading x.dir (x.start + x.dir * x.arc))
          (circHeading large.dir (large.angleOf x.endPoint)) := by
    intro x hx
    obtain ⟨t0, b, ht0⟩ := a2 x hx
    obtain ⟨s1, s2, s3⟩ := between_small small large t0 hs hr b tol htol hts
    obtain ⟨l1, l2, l3⟩ := between_large small large t0 hr b tol htol htl
    obtain ⟨w1, w2, w3, w4, w5, w6⟩ := setSE_spec t0 b.wf _ _ s3 l3
    rw [← ht0] at w1 w2 w3 w4 w5 w6
    have hst := startPoint_eq x
    have hen := endPoint_eq x w1.dir
    rw [w2, w5, w4] at hst
    rw [w3, w5, w4] at hen
    have gl := (angleOf_spec large (innPt large t0)).2.2
    have gs := (angleOf_spec small (outPt small t0)).2.2
    rw [l2] at gl
    rw [s2] at gs
    obtain ⟨o1, _⟩ := outer_heading small large t0 hs hl hr b hst gs.symm
    have i1 := inner_heading small large t0 hr (by linarith) b hen gl.symm
    rw [← w6] at o1 i1
    exact ⟨w1, by rw [w4, b.rad], by rw [w2, s2], by rw [w3, l2], by rw [w2]; exact o1 hopp, by rw [w3]; exact i1⟩
  rw [hT, CRes.ok_bind, a1, CRes.ok_bind]
  rcases as with _ | ⟨a, _ | ⟨b, as⟩⟩
  · exact ⟨[], rfl, fun h => absurd h hdir, Or.inl rfl⟩
  · exact ⟨[a], rfl, fun h => absurd h hdir, Or.inr ⟨a, rfl, good a (by simp)⟩⟩
  · simp only
    obtain ⟨v, v1, v2, v3⟩ := shortest_spec dmax (a :: b :: as) 0 0 dmax
    rcases v3 with ⟨_, h2⟩ | ⟨j, x, h1, h2, h3⟩
    · have := v2 a (by simp)
      have := (good a (by simp)).1.arc1
      linarith
    · rw [h1, zero_add]
      have hv : vget (a :: b :: as) j = .ok x := by unfold vget; rw [h2]
      rw [hv, CRes.ok_bind]
      exact ⟨[x], rfl, fun h => absurd h hdir, Or.inr ⟨x, rfl, good x (List.mem_of_getElem? h2)⟩⟩

/-! ### Non-vacuity -/

/-- The line from `(0,0)` to `(10,0)`, the right-turning circle of radius 4 around `(4,5)`, radius 1: the
circle around `(1,1)` joins them, and a path is found. -/
theorem pathLineCircle_example : ∃ (l : Ln) (k : Arc) (P : P2) (t e : Arc), k.WF ∧
    pathLineCircle l k 1 = .ok [.line ⟨l.s, P⟩, .arc t, .arc e] ∧ t.arc ≤ pi / 2 + Real.arcsin (4 / 5) := by
  have hpi := Real.pi_pos
  have hne : (⟨⟨0, 0⟩, ⟨10, 0⟩⟩ : Ln).s ≠ (⟨⟨0, 0⟩, ⟨10, 0⟩⟩ : Ln).e := by
    intro h; have := congrArg P2.x h; norm_num at this
  have hlen : eucl (⟨10, 0⟩ : P2) ⟨0, 0⟩ = 10 := by
    unfold eucl dist2; rw [Real.sqrt_eq_iff_mul_self_eq] <;> norm_num
  have hlen' : ((⟨10, 0⟩ : P2) - ⟨0, 0⟩).length = 10 := hlen
  have hw : (⟨⟨4, 5⟩, 4, -1, 2 * pi, 0⟩ : Arc).WF :=
    ⟨by norm_num, Or.inr rfl, by positivity, le_rfl, le_rfl, by positivity⟩
  have hsd : (⟨⟨0, 0⟩, ⟨10, 0⟩⟩ : Ln).signedDist ⟨1, 1⟩ = 1 := by
    rw [signedDist_eq]; simp only; rw [hlen]; unfold leftOf; norm_num
  have hfoot : (⟨⟨0, 0⟩, ⟨10, 0⟩⟩ : Ln).foot ⟨1, 1⟩ = ⟨1, 0⟩ := by
    rw [foot_eq _ hne]; unfold footParam lerp dist2; norm_num
  have hpar : (⟨⟨0, 0⟩, ⟨10, 0⟩⟩ : Ln).parallel 1 = ⟨⟨0, 1⟩, ⟨10, 1⟩⟩ := by
    unfold Ln.parallel unit; simp only; rw [hlen']
    ext <;> simp
  have hne2 : (⟨⟨0, 1⟩, ⟨10, 1⟩⟩ : Ln).s ≠ (⟨⟨0, 1⟩, ⟨10, 1⟩⟩ : Ln).e := by
    intro h; have := congrArg P2.x h; norm_num at this
  have hfoot2 : (⟨⟨0, 1⟩, ⟨10, 1⟩⟩ : Ln).foot ⟨4, 5⟩ = ⟨4, 1⟩ := by
    rw [foot_eq _ hne2]; unfold footParam lerp dist2; norm_num
  obtain ⟨P, t, e, h1, h2⟩ := pathLineCircle_best ⟨⟨0, 0⟩, ⟨10, 0⟩⟩ hne ⟨⟨4, 5⟩, 4, -1, 2 * pi, 0⟩ hw 1 one_pos
    (by simp only; rw [hlen]; unfold distEps; norm_num) (by unfold distEps; norm_num)
    (by simp only; rw [hlen]; unfold distEps; norm_num) ⟨1, 1⟩
    (by rw [hfoot]; exact ⟨1 / 10, by norm_num, by norm_num, by unfold lerp; norm_num⟩)
    (by rw [hsd]; norm_num)
    (by unfold eucl dist2; rw [Real.sqrt_eq_iff_mul_self_eq] <;> norm_num)
    (by
      rw [show (-((-1 : Int) : ℝ) * 1) = 1 by norm_num, hpar, hfoot2]
      simp only; rw [hlen]
      have : eucl (⟨1, 1⟩ : P2) ⟨4, 1⟩ = 3 := by
        unfold eucl dist2; rw [Real.sqrt_eq_iff_mul_self_eq] <;> norm_num
      rw [this]; unfold distEps; norm_num)
    (-(pi / 2)) (pi / 2 + Real.arcsin (4 / 5))
    (by
      have : 0 ≤ Real.arcsin (4 / 5) := Real.arcsin_nonneg.2 (by norm_num)
      positivity)
    (by rw [hfoot]; unfold circPt; simp)
    (by
      rw [show -(pi / 2) - ((-1 : Int) : ℝ) * (pi / 2 + Real.arcsin (4 / 5)) = Real.arcsin (4 / 5) by
        push_cast; ring]
      unfold lerp circPt
      rw [Real.sin_arcsin (by norm_num) (by norm_num), Real.cos_arcsin]
      have : Real.sqrt (1 - (4 / 5) ^ 2) = 3 / 5 := by
        rw [Real.sqrt_eq_iff_mul_self_eq] <;> norm_num
      rw [this]; norm_num)
  exact ⟨_, _, P, t, e, hw, h1, h2⟩

/-- A small circle of radius 1 around the origin, a large one of radius 4 around `(3,0)` and connecting
radius 1 are in general position. -/
theorem between_example : ∃ c1 c2 p q, Arc.new ⟨0, 0⟩ (1 + 1) 1 = .ok c1 ∧ Arc.new ⟨3, 0⟩ (4 - 1) (-1) = .ok c2 ∧
    intersectCC c1 c2 [] = .ok [p, q] := by
  obtain ⟨c1, x1, x2, x3, _⟩ := new_dir ⟨0, 0⟩ (1 + 1) 1 (Or.inl rfl)
  obtain ⟨c2, y1, y2, y3, _⟩ := new_dir ⟨3, 0⟩ (4 - 1) (-1) (Or.inr rfl)
  rw [abs_of_pos (by norm_num)] at x3 y3
  have hd : eucl c2.center c1.center = 3 := by
    rw [x2, y2]; unfold eucl dist2; rw [Real.sqrt_eq_iff_mul_self_eq] <;> norm_num
  have hA : radA c1 c2 = 2 / 3 := by unfold radA; rw [hd, x3, y3]; norm_num
  have hH : radH c1 c2 = 32 / 9 := by unfold radH; rw [hA, x3]; norm_num
  have ht : |distEps| = 1 / 100000 := by unfold distEps; rw [abs_of_pos]; norm_num
  refine ⟨c1, c2, axPt c1.center c2.center (radA c1 c2) (Real.sqrt (radH c1 c2)),
    axPt c1.center c2.center (radA c1 c2) (-Real.sqrt (radH c1 c2)), x1, y1, ?_⟩
  rw [intersectCC_eq, hd, x3, y3, ht, hH]
  rw [if_neg (by norm_num), if_neg (by norm_num), if_neg (by norm_num), if_neg (by norm_num),
    if_neg (by rw [abs_of_pos] <;> norm_num), if_neg (by norm_num), if_neg (by norm_num)]

end PathPlanning.Shapes
