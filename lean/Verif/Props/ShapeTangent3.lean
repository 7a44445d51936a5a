import Verif.Props.ShapeTangent2

/-!
# C63: the shortest connection from a circle to a line and between circles
-/

noncomputable section

namespace PathPlanning.Shapes

open Real (pi)
open Spec RS

/-- The circle around `z` is among those found by `tangentCircles`. -/
theorem joining_mem (l : Ln) (h : l.s ≠ l.e) (k : Arc) (hk : k.WF) (r : ℝ) (hr : 0 < r) (z : P2)
    (z1 : OnSeg l.s l.e (l.foot z)) (z2 : l.signedDist z = -k.dir * r) (z3 : eucl z k.center = k.radius + r)
    (z4 : distEps / (2 * eucl l.e l.s) ≤ eucl z ((l.parallel (-k.dir * r)).foot k.center))
    {ts : List Arc} (q1 : tangentCircles l k r distEps = .ok ts) : ∃ t ∈ ts, t.center = z := by
  have heps : |distEps| = distEps := abs_of_pos (by unfold distEps; norm_num)
  have hl : 0 < eucl l.e l.s := len_pos h
  have hkr := hk.r
  obtain ⟨c2, k1, k2, k3, k4, _⟩ := new_dir k.center (k.radius + r) k.dir hk.dir
  rw [abs_of_pos (by linarith)] at k3
  have hdir : k.dir * (-1) = 1 ∨ k.dir * (-1) = -1 := by rcases hk.dir with h | h <;> rw [h] <;> simp
  have hpar := onSeg_parallel l h z z1
  obtain ⟨p1, _⟩ := parallel_spec l h (l.signedDist z)
  have hne : (l.parallel (l.signedDist z)).s ≠ (l.parallel (l.signedDist z)).e := by
    intro he
    apply h
    have hx := congrArg P2.x p1
    have hy := congrArg P2.y p1
    rw [he] at hx hy
    simp only [P2.sub_x, P2.sub_y, sub_self] at hx hy
    ext <;> linarith
  have hlen2 : eucl (l.parallel (l.signedDist z)).e (l.parallel (l.signedDist z)).s = eucl l.e l.s := by
    show ((l.parallel _).e - (l.parallel _).s).length = (l.e - l.s).length
    rw [p1]
  have hin : z ∈ intersectLC (l.parallel (l.signedDist z)) c2 distEps := by
    rcases intersectLC_complete (l.parallel (l.signedDist z)) hne c2 distEps z hpar (by rw [k2, k3, z3]) with
      hz | ⟨hz, _⟩
    · exact hz
    · rw [hlen2, heps, k2, z2] at hz; linarith
  obtain ⟨ca, a1, a2, _⟩ := circlesAt_ok r (k.dir * (-1)) hdir (intersectLC (l.parallel r) c2 distEps)
  obtain ⟨cb, b1, b2, _⟩ := circlesAt_ok r (k.dir * (-1)) hdir (intersectLC (l.parallel (-r)) c2 distEps)
  have hts : ts = ca ++ cb := by
    unfold tangentCircles at q1
    rw [k1] at q1; simp only [CRes.ok_bind] at q1
    rw [a1] at q1; simp only [CRes.ok_bind] at q1
    rw [b1] at q1; simp only [CRes.ok_bind, CRes.pure_eq] at q1
    injection q1 with q1; exact q1.symm
  rw [hts]
  rcases hk.dir with hd | hd
  · rw [z2, hd] at hin
    simp only [Int.cast_one, neg_mul, one_mul] at hin
    rw [← b2] at hin
    obtain ⟨t, ht, e⟩ := List.mem_map.1 hin
    exact ⟨t, List.mem_append.2 (Or.inr ht), e⟩
  · rw [z2, hd] at hin
    simp only [Int.cast_neg, Int.cast_one, neg_neg, one_mul] at hin
    rw [← a2] at hin
    obtain ⟨t, ht, e⟩ := List.mem_map.1 hin
    exact ⟨t, List.mem_append.2 (Or.inl ht), e⟩

/-- **C63**, completeness and choice for paths from a circle to a line. If a circle of the given radius
touches the segment on the right side and the circle from outside (and is not one of a nearly coinciding
pair), then a path is returned, and its arc is not longer than the arc `α` along that circle. -/
theorem pathCircleLine_best (l : Ln) (h : l.s ≠ l.e) (k : Arc) (hk : k.WF) (r : ℝ) (hr : 0 < r)
    (hε : distEps / (2 * eucl l.e l.s) < k.radius) (htol : distEps ≤ 2 * r ^ 2)
    (hlen : distEps / eucl l.e l.s < r) (z : P2) (z1 : OnSeg l.s l.e (l.foot z))
    (z2 : l.signedDist z = -k.dir * r) (z3 : eucl z k.center = k.radius + r)
    (z4 : distEps / (2 * eucl l.e l.s) ≤ eucl z ((l.parallel (-k.dir * r)).foot k.center))
    (φ α : ℝ) (hα : 0 ≤ α) (h1 : lerp z k.center (r / (k.radius + r)) = circPt z r φ)
    (h2 : l.foot z = circPt z r (φ - k.dir * α)) :
    ∃ P t e, pathCircleLine k l r = .ok [.arc e, .arc t, .line ⟨P, l.e⟩] ∧ t.arc ≤ α := by
  have heps : |distEps| = distEps := abs_of_pos (by unfold distEps; norm_num)
  obtain ⟨ts, q1, q2⟩ := tangentCircles_spec l h k hk r hr distEps
  rw [heps] at q2
  have hj : ∀ t ∈ ts, Joins l k r (distEps / (2 * eucl l.e l.s)) t := fun t ht => by
    obtain ⟨a, b, c, d, e, f⟩ := q2 t ht; exact ⟨a, b, c, d, e, f⟩
  obtain ⟨t0, ht0, rfl⟩ := joining_mem l h k hk r hr z z1 z2 z3 z4 q1
  have j := hj t0 ht0
  have hs : l.signedDist t0.center = t0.dir * r := by rw [z2, j.dir]; push_cast; ring
  have hA := arcToLine_eq l h k t0 hr hε (tol := distEps) (by rw [heps]; exact htol)
    (by rw [heps]; exact hlen) j
  rw [if_pos hs] at hA
  have hT : tangentArcToLine k l r = .ok (ts.filterMap (arcToLine l k distEps)) := by
    unfold tangentArcToLine; rw [q1]; rfl
  have hin : (t0.setStartP (touchPt k t0)).setEndP (l.foot t0.center) ∈ ts.filterMap (arcToLine l k distEps) :=
    List.mem_filterMap.2 ⟨t0, ht0, hA⟩
  unfold pathCircleLine
  rw [hT, CRes.ok_bind]
  rcases hts : ts.filterMap (arcToLine l k distEps) with _ | ⟨a, as⟩
  · rw [hts] at hin; simp at hin
  rw [hts] at hin
  obtain ⟨_, hle⟩ := minArc_spec as a
  refine ⟨_, minArc a as, _, rfl, ?_⟩
  obtain ⟨hD, e1, e2, e3⟩ := touchPt_spec l k t0 hr hε j
  have hfr : eucl (l.foot t0.center) t0.center = t0.radius := by
    rw [foot_eucl l h, j.rad, hs]
    rcases j.wf.dir with hd | hd <;> rw [hd] <;> simp [abs_of_pos hr]
  have hle1 := hle _ hin
  obtain ⟨w1, _⟩ := setSE_spec t0 j.wf _ _ e1 hfr
  rw [abs_of_nonneg w1.arc0] at hle1
  refine (le_abs_self _).trans (hle1.trans ?_)
  refine setSE_arc_min t0 j.wf _ _ e1 hfr hα (φ := φ) ?_ (by rw [j.rad, h2, j.dir]; congr 1; push_cast; ring)
  unfold touchPt
  rw [eucl_comm, z3, j.rad, h1]

/-! ### Connections between two circles -/

/-- Every point of the circle lies on the arc of a newly built circle. -/
theorem full_onArc (p : P2) (r : ℝ) (d : Int) (hd : d = 1 ∨ d = -1) {c : Arc} (hc : Arc.new p r d = .ok c)
    (q : P2) (hq : eucl q c.center = c.radius) : c.onArc q = true := by
  have hpi := Real.pi_pos
  obtain ⟨a0, a1, _⟩ := angleOf_spec c q
  have ht : ¬ (|(c.center - q).length - c.radius| > distEps) := by
    rw [len_eq, eucl_comm, hq, sub_self, abs_zero, gt_iff_lt, not_lt]; unfold distEps; norm_num
  unfold Arc.onArc
  simp only
  rw [if_neg ht]
  rcases hd with rfl | rfl
  · have : c = ⟨p, |r|, 1, 2 * pi, 0⟩ := by
      have h' : Arc.new p r 1 = .ok ⟨p, |r|, 1, 2 * pi, if (1 : Int) = -1 then 2 * pi else 0⟩ := rfl
      rw [h'] at hc; injection hc with hc; rw [← hc]; simp
    have e1 : c.dir = 1 := by rw [this]
    have e2 : c.start = 0 := by rw [this]
    have e3 : c.arc = 2 * pi := by rw [this]
    rw [if_pos e1, e2, e3, if_pos (by linarith)]
    exact decide_eq_true ⟨a0, by linarith⟩
  · have : c = ⟨p, |r|, -1, 2 * pi, 2 * pi⟩ := by
      have h' : Arc.new p r (-1) = .ok ⟨p, |r|, -1, 2 * pi, if (-1 : Int) = -1 then 2 * pi else 0⟩ := rfl
      rw [h'] at hc; injection hc with hc; rw [← hc]; simp
    have e1 : c.dir = -1 := by rw [this]
    have e2 : c.start = 2 * pi := by rw [this]
    have e3 : c.arc = 2 * pi := by rw [this]
    rw [if_neg (by rw [e1]; decide), e2, e3, if_pos (by linarith)]
    exact decide_eq_true ⟨by linarith, by linarith⟩

theorem circlesAt_new (r : ℝ) (d : Int) : ∀ (ps : List P2) {cs : List Arc}, circlesAt r d ps = .ok cs →
    ∀ c ∈ cs, ∃ p, Arc.new p r d = .ok c := by
  intro ps
  induction ps with
  | nil => intro cs h; unfold circlesAt at h; injection h with h; subst h; simp
  | cons p ps ih =>
    intro cs h c hc
    unfold circlesAt at h
    obtain ⟨c0, h0, h⟩ := CRes.bind_eq_ok.1 h
    obtain ⟨rs, h1, h⟩ := CRes.bind_eq_ok.1 h
    rw [CRes.pure_eq] at h; injection h with h; subst h
    rcases List.mem_cons.1 hc with rfl | hc
    · exact ⟨p, h0⟩
    · exact ih h1 c hc

/-- A point on an arc is recognised as such, unless it lies on the seam (see C46). -/
theorem onArc_of (c : Arc) (h : c.WF) {p : P2} (hp : OnArcS c.center c.radius c.dir c.start c.arc p)
    (hs : ¬ Seam c p) : c.onArc p = true := by
  have hpr : eucl p c.center = c.radius := by
    obtain ⟨t, _, _, rfl⟩ := hp; exact circPt_eucl _ _ _ h.r.le
  apply onArc_complete c h p
  · rw [hpr, sub_self, abs_zero]; unfold distEps; norm_num
  · rw [inRange_iff (by rw [hpr]; exact h.r), hpr]; exact hp
  · exact hs

/-- In general position every circle that touches the small circle from outside and the large one from
inside is among those found. -/
theorem inner_mem (small large : Arc) (hs : small.WF) (hl : large.WF) (r tol : ℝ)
    (hr : 0 < r) (hrl : r < large.radius) (c1 c2 : Arc) (p q : P2)
    (hd0 : 0 < eucl large.center small.center) (hd : |tol| ≤ eucl large.center small.center)
    (n1 : Arc.new small.center (small.radius + r) small.dir = .ok c1)
    (n2 : Arc.new large.center (large.radius - r) large.dir = .ok c2)
    (hgen : intersectCC c1 c2 [] tol = .ok [p, q]) (z : P2)
    (z1 : eucl z small.center = small.radius + r) (z2 : eucl z large.center = large.radius - r) :
    ∃ ts, tangentInnerCircles small large r tol = .ok ts ∧ (∀ t ∈ ts, Between small large r t) ∧
      (∀ t ∈ ts, ∃ p, Arc.new p r large.dir = .ok t) ∧ ∃ t ∈ ts, t.center = z := by
  have hsr := hs.r
  obtain ⟨A, B, hT, bA, bB, eA, eB⟩ := tangentInnerCircles_spec small large hs hl r tol hr hrl c1 c2 p q
    hd0 hd n1 n2 hgen
  obtain ⟨d1, x1, x2, x3, _⟩ := new_dir small.center (small.radius + r) small.dir hs.dir
  obtain ⟨d2, y1, y2, y3, _⟩ := new_dir large.center (large.radius - r) large.dir hl.dir
  rw [n1] at x1; injection x1 with x1; subst x1
  rw [n2] at y1; injection y1 with y1; subst y1
  rw [abs_of_pos (by linarith)] at x3 y3
  refine ⟨[A, B], hT, by intro t ht; simp at ht; rcases ht with rfl | rfl <;> assumption, ?_, ?_⟩
  · unfold tangentInnerCircles at hT
    rw [if_neg (by linarith), n1, CRes.ok_bind, n2, CRes.ok_bind, hgen, CRes.ok_bind] at hT
    exact circlesAt_new r large.dir _ hT
  · obtain ⟨res, hres, hz⟩ := intersectCC_complete c1 c2 (by rw [x3]; linarith) (by rw [y3]; linarith) [] tol
      (by rw [x2, y2]; exact hd0) (by rw [x2, y2]; exact hd) z (by rw [x2, x3, z1]) (by rw [y2, y3, z2])
    rw [hgen] at hres; injection hres with hres; subst hres
    rcases hz with hz | ⟨_, hz, _⟩
    · simp only [List.mem_cons, List.not_mem_nil, or_false] at hz
      rcases hz with rfl | rfl
      · exact ⟨A, by simp, eA⟩
      · exact ⟨B, by simp, eB⟩
    · simp at hz

/-- **C63**, completeness and choice for paths from the large to the small circle, in general position.
If the circle around `z` touches the small circle from outside and the large one from inside, in points
of the two arcs, and the arc `α` along it from the large to the small circle is at most half a turn, then
a path is returned and its connecting arc is not longer than `α`. -/
theorem pathCircleCircle_best (small large : Arc) (hs : small.WF) (hl : large.WF) (r tol : ℝ)
    (hr : 0 < r) (htol : 0 < tol) (htl : tol ≤ large.radius - r) (hts : tol ≤ small.radius + r)
    (c1 c2 : Arc) (p q : P2) (hd : tol ≤ eucl large.center small.center)
    (n1 : Arc.new small.center (small.radius + r) small.dir = .ok c1)
    (n2 : Arc.new large.center (large.radius - r) large.dir = .ok c2)
    (hgen : intersectCC c1 c2 [] tol = .ok [p, q]) (z : P2)
    (z1 : eucl z small.center = small.radius + r) (z2 : eucl z large.center = large.radius - r) (P Q : P2)
    (hP : P = lerp z large.center (-(r / (large.radius - r))))
    (hQ : Q = lerp z small.center (r / (small.radius + r)))
    (p1 : OnArcS large.center large.radius large.dir large.start large.arc P) (p2 : ¬ Seam large P)
    (q1 : OnArcS small.center small.radius small.dir small.start small.arc Q) (q2 : ¬ Seam small Q)
    (φ α : ℝ) (hα : 0 ≤ α) (hαpi : α ≤ pi) (h1 : P = circPt z r φ)
    (h2 : Q = circPt z r (φ + large.dir * α)) :
    ∃ a t e, pathCircleCircle small large r false tol = .ok [.arc a, .arc t, .arc e] ∧ t.arc ≤ α := by
  obtain ⟨ts, hT, hb, hn, t0, ht0, rfl⟩ := inner_mem small large hs hl r tol hr (by linarith) c1 c2 p q
    (by linarith) (by rw [abs_of_pos htol]; exact hd) n1 n2 hgen z z1 z2
  have inner : ∀ ts : List Arc, (∀ t ∈ ts, Between small large r t) →
      (∀ t ∈ ts, ∃ p, Arc.new p r large.dir = .ok t) → ∃ as, innerArcs small large false tol ts = .ok as ∧
      ∀ t ∈ ts, small.onArc (outPt small t) = true → large.onArc (innPt large t) = true →
        (t.setStartP (innPt large t)).setEndP (outPt small t) ∈ as := by
    intro ts
    induction ts with
    | nil => intro _ _; exact ⟨[], rfl, by simp⟩
    | cons t ts ih =>
      intro hb hn
      have b := hb t List.mem_cons_self
      obtain ⟨c, hc⟩ := hn t List.mem_cons_self
      obtain ⟨rest, r1, r2⟩ := ih (fun x hx => hb x (List.mem_cons_of_mem _ hx))
        (fun x hx => hn x (List.mem_cons_of_mem _ hx))
      obtain ⟨s1, s2, s3⟩ := between_small small large t hs hr b tol htol hts
      obtain ⟨l1, l2, l3⟩ := between_large small large t hr b tol htol htl
      have to1 := full_onArc c r large.dir hl.dir hc _ s3
      have to2 := full_onArc c r large.dir hl.dir hc _ l3
      have i1 : intersectArcs small t tol =
          .ok ([outPt small t].filter (fun p => small.onArc p && t.onArc p)) := by
        unfold intersectArcs; rw [s1]; rfl
      have i2 : intersectArcs t large tol =
          .ok ([innPt large t].filter (fun p => t.onArc p && large.onArc p)) := by
        unfold intersectArcs; rw [l1]; rfl
      unfold innerArcs
      rw [i1, CRes.ok_bind, i2, CRes.ok_bind, r1, CRes.ok_bind]
      have heps : (0 : ℝ) < distEps := by unfold distEps; norm_num
      by_cases f1 : (small.onArc (outPt small t) && t.onArc (outPt small t)) = true
      · rw [List.filter_cons_of_pos (by exact f1), List.filter_nil]
        by_cases f2 : (t.onArc (innPt large t) && large.onArc (innPt large t)) = true
        · rw [List.filter_cons_of_pos (by exact f2), List.filter_nil]
          refine ⟨_, rfl, ?_⟩
          intro x hx o1 o2
          rcases List.mem_cons.1 hx with rfl | hx
          · have g1 : (x.selectStart (innPt large x)).2 = x.setStartP (innPt large x) := by
              unfold Arc.selectStart; rw [len_eq, l3, sub_self, abs_zero, if_pos heps]
            have g2 : ((x.setStartP (innPt large x)).selectEnd (outPt small x)).2 =
                (x.setStartP (innPt large x)).setEndP (outPt small x) := by
              unfold Arc.selectEnd
              rw [show (x.setStartP (innPt large x)).center = x.center from rfl,
                show (x.setStartP (innPt large x)).radius = x.radius from rfl, len_eq, s3, sub_self, abs_zero,
                if_pos heps]
            simp only [Bool.false_eq_true, if_false]
            rw [g1, g2]; exact List.mem_cons_self
          · exact List.mem_cons_of_mem _ (r2 x hx o1 o2)
        · rw [List.filter_cons_of_neg (by exact f2), List.filter_nil]
          refine ⟨rest, rfl, ?_⟩
          intro x hx o1 o2
          rcases List.mem_cons.1 hx with rfl | hx
          · rw [to2, o2] at f2; exact absurd rfl f2
          · exact r2 x hx o1 o2
      · rw [List.filter_cons_of_neg (by exact f1), List.filter_nil]
        refine ⟨rest, rfl, ?_⟩
        intro x hx o1 o2
        rcases List.mem_cons.1 hx with rfl | hx
        · rw [to1, o1] at f1; exact absurd rfl f1
        · exact r2 x hx o1 o2
  obtain ⟨as, a1, a2⟩ := inner ts hb hn
  have b := hb t0 ht0
  have eP : P = innPt large t0 := by rw [hP, innPt, b.rad]
  have eQ : Q = outPt small t0 := by rw [hQ, outPt, b.rad]
  have hin := a2 t0 ht0 (by rw [← eQ]; exact onArc_of small hs q1 q2) (by rw [← eP]; exact onArc_of large hl p1 p2)
  obtain ⟨s1, s2, s3⟩ := between_small small large t0 hs hr b tol htol hts
  obtain ⟨l1, l2, l3⟩ := between_large small large t0 hr b tol htol htl
  obtain ⟨w1, _⟩ := setSE_spec t0 b.wf _ _ l3 s3
  have hle0 : ((t0.setStartP (innPt large t0)).setEndP (outPt small t0)).arc ≤ α :=
    setSE_arc_min t0 b.wf _ _ l3 s3 hα (φ := φ) (by rw [← eP, h1, b.rad])
      (by rw [← eQ, h2, b.rad, b.dir])
  unfold pathCircleCircle
  rw [hT, CRes.ok_bind, a1, CRes.ok_bind]
  rcases as with _ | ⟨a, as⟩
  · simp at hin
  obtain ⟨_, hle⟩ := minArc_spec as a
  have hle1 := hle _ hin
  rw [abs_of_nonneg w1.arc0] at hle1
  have hmin : (minArc a as).arc ≤ α := (le_abs_self _).trans (hle1.trans hle0)
  simp only [Bool.false_eq_true, if_false]
  rw [if_neg (by rw [Arc.getArc, gt_iff_lt, not_lt]; linarith)]
  exact ⟨_, _, _, rfl, hmin⟩

/-! ### `tangentInnerArcs`: shortest only among the arcs that do not cross the angle zero -/

theorem new_fields {p : P2} {r : ℝ} {d : Int} (hd : d = 1 ∨ d = -1) {c : Arc} (hc : Arc.new p r d = .ok c) :
    c.dir = d ∧ c.arc = 2 * pi ∧ c.start = if d = -1 then 2 * pi else 0 := by
  rcases hd with rfl | rfl
  · have h' : Arc.new p r 1 = .ok ⟨p, |r|, 1, 2 * pi, if (1 : Int) = -1 then 2 * pi else 0⟩ := rfl
    rw [h'] at hc; injection hc with hc; rw [← hc]; simp
  · have h' : Arc.new p r (-1) = .ok ⟨p, |r|, -1, 2 * pi, if (-1 : Int) = -1 then 2 * pi else 0⟩ := rfl
    rw [h'] at hc; injection hc with hc; rw [← hc]; simp

/-- After `setStartAngle(P)` a full circle only reaches to the angle zero: the points accepted as lying on
it are those with an angle beyond that of `P`. -/
theorem full_setStart_onArc {p : P2} {r : ℝ} {d : Int} (hd : d = 1 ∨ d = -1) {c : Arc}
    (hc : Arc.new p r d = .ok c) (a q : P2) (hq : eucl q c.center = c.radius) :
    (c.setStartP a).onArc q = true ↔ 0 ≤ d * (c.angleOf q - c.angleOf a) := by
  have hpi := Real.pi_pos
  obtain ⟨f1, f2, f3⟩ := new_fields hd hc
  obtain ⟨a0, a1, _⟩ := angleOf_spec c a
  obtain ⟨b0, b1, _⟩ := angleOf_spec c q
  have hwa : wrap (c.angleOf a) = c.angleOf a := (wrap_spec _).2.2.2 a0 a1.le
  have hst : (c.setStartP a).start = c.angleOf a := hwa
  have hdir : (c.setStartP a).dir = d := f1
  have ht : ¬ (|((c.setStartP a).center - q).length - (c.setStartP a).radius| > distEps) := by
    rw [show (c.setStartP a).center = c.center from rfl, show (c.setStartP a).radius = c.radius from rfl,
      len_eq, eucl_comm, hq, sub_self, abs_zero, gt_iff_lt, not_lt]; unfold distEps; norm_num
  have harc : (c.setStartP a).arc = wrap (if c.dir = 1 then (if c.dir = 1 then c.start + c.arc else c.start - c.arc) -
      wrap (c.angleOf a) else wrap (c.angleOf a) - (if c.dir = 1 then c.start + c.arc else c.start - c.arc)) := rfl
  unfold Arc.onArc
  simp only
  rw [if_neg ht, hdir, hst, show (c.setStartP a).angleOf q = c.angleOf q from rfl]
  rw [f1, f2, f3, hwa] at harc
  rcases hd with rfl | rfl
  · rw [if_pos rfl, if_pos rfl, if_neg (by decide), (wrap_spec _).2.2.2 (by linarith) (by linarith)] at harc
    rw [if_pos rfl, harc, if_pos (by linarith)]
    simp only [decide_eq_true_eq, Int.cast_one]
    constructor
    · intro h; linarith [h.1]
    · intro h; exact ⟨by linarith, by linarith⟩
  · rw [if_neg (by decide), if_neg (by decide), if_pos rfl, (wrap_spec _).2.2.2 (by linarith) (by linarith)] at harc
    rw [if_neg (by decide), harc, if_pos (by linarith)]
    simp only [decide_eq_true_eq, Int.cast_neg, Int.cast_one]
    constructor
    · intro h; linarith [h.2]
    · intro h; exact ⟨by linarith, by linarith⟩

/-- The test in the loop of `tangentInnerArcs`. -/
def innerOk (small large t : Arc) : Bool :=
  small.onArc (outPt small t) && ((t.setStartP (outPt small t)).onArc (innPt large t) && large.onArc (innPt large t))

/-- What the loop of `tangentInnerArcs` computes. -/
theorem innerArcs2_eq (small large : Arc) (hs : small.WF) (hl : large.WF) {r tol : ℝ} (hr : 0 < r) (htol : 0 < tol)
    (htl : tol ≤ large.radius - r) (hts : tol ≤ small.radius + r) : ∀ ts : List Arc,
    (∀ t ∈ ts, Between small large r t) → (∀ t ∈ ts, ∃ p, Arc.new p r large.dir = .ok t) →
    innerArcs2 small large tol ts = .ok ((ts.filter (innerOk small large)).map
      (fun t => (t.setStartP (outPt small t)).setEndP (innPt large t))) := by
  intro ts
  induction ts with
  | nil => intro _ _; rfl
  | cons t ts ih =>
    intro hb hn
    have b := hb t List.mem_cons_self
    obtain ⟨c, hc⟩ := hn t List.mem_cons_self
    have r1 := ih (fun x hx => hb x (List.mem_cons_of_mem _ hx)) (fun x hx => hn x (List.mem_cons_of_mem _ hx))
    obtain ⟨s1, s2, s3⟩ := between_small small large t hs hr b tol htol hts
    obtain ⟨l1, l2, l3⟩ := between_large small large t hr b tol htol htl
    have to1 := full_onArc c r large.dir hl.dir hc _ s3
    have e1 : intersectArcs small t tol =
        .ok ([outPt small t].filter (fun p => small.onArc p && t.onArc p)) := by
      unfold intersectArcs; rw [s1]; rfl
    have e2 : intersectArcs (t.setStartP (outPt small t)) large tol =
        .ok ([innPt large t].filter (fun p => (t.setStartP (outPt small t)).onArc p && large.onArc p)) := by
      unfold intersectArcs; rw [intersectCC_congr (t.setStartP (outPt small t)) t large rfl rfl, l1]; rfl
    unfold innerArcs2
    rw [e1, CRes.ok_bind]
    by_cases f1 : small.onArc (outPt small t) = true
    · rw [List.filter_cons_of_pos (by simp only [f1, to1, Bool.and_self]), List.filter_nil]
      simp only
      rw [e2, CRes.ok_bind, r1, CRes.ok_bind]
      by_cases f2 : ((t.setStartP (outPt small t)).onArc (innPt large t) && large.onArc (innPt large t)) = true
      · rw [List.filter_cons_of_pos (by exact f2), List.filter_nil]
        rw [List.filter_cons_of_pos (by unfold innerOk; rw [f1, f2]; rfl)]
        rfl
      · rw [List.filter_cons_of_neg (by exact f2), List.filter_nil]
        rw [List.filter_cons_of_neg (by unfold innerOk; rw [f1, Bool.true_and]; exact f2)]
        rfl
    · rw [List.filter_cons_of_neg (by simp only [f1, Bool.false_and, Bool.false_eq_true, not_false_eq_true]),
        List.filter_nil]
      rw [List.filter_cons_of_neg (by unfold innerOk; simp only [f1, Bool.false_and, Bool.false_eq_true, not_false_eq_true])]
      exact r1

/-- Which arcs `tangentInnerArcs` returns, in general position: the shortest of those that pass the test. -/
theorem tangentInnerArcs_eq (small large : Arc) (hs : small.WF) (hl : large.WF) {r tol dmax : ℝ}
    (hdmax : 2 * pi < dmax) (hr : 0 < r) (htol : 0 < tol) (htl : tol ≤ large.radius - r)
    (hts : tol ≤ small.radius + r) (hdir : small.dir ≠ large.dir) {ts : List Arc}
    (hT : tangentInnerCircles small large r tol = .ok ts) (hb : ∀ t ∈ ts, Between small large r t)
    (hn : ∀ t ∈ ts, ∃ p, Arc.new p r large.dir = .ok t) :
    ((∀ t ∈ ts, innerOk small large t = false) ∧ tangentInnerArcs dmax small large r tol = .ok []) ∨
    ∃ t ∈ ts, innerOk small large t = true ∧
      tangentInnerArcs dmax small large r tol = .ok [(t.setStartP (outPt small t)).setEndP (innPt large t)] ∧
      ∀ t' ∈ ts, innerOk small large t' = true → ((t.setStartP (outPt small t)).setEndP (innPt large t)).arc ≤
        ((t'.setStartP (outPt small t')).setEndP (innPt large t')).arc := by
  unfold tangentInnerArcs
  rw [if_neg hdir, hT, CRes.ok_bind, innerArcs2_eq small large hs hl hr htol htl hts ts hb hn, CRes.ok_bind]
  have hmem : ∀ x, x ∈ (ts.filter (innerOk small large)).map
      (fun t => (t.setStartP (outPt small t)).setEndP (innPt large t)) ↔
      ∃ t ∈ ts, innerOk small large t = true ∧ x = (t.setStartP (outPt small t)).setEndP (innPt large t) := by
    intro x
    simp only [List.mem_map, List.mem_filter]
    constructor
    · rintro ⟨t, ⟨h1, h2⟩, h3⟩; exact ⟨t, h1, h2, h3.symm⟩
    · rintro ⟨t, h1, h2, h3⟩; exact ⟨t, ⟨h1, h2⟩, h3.symm⟩
  generalize (ts.filter (innerOk small large)).map
      (fun t => (t.setStartP (outPt small t)).setEndP (innPt large t)) = as at hmem
  have done : ∀ x ∈ as, (∀ y ∈ as, x.arc ≤ y.arc) → ∃ t ∈ ts, innerOk small large t = true ∧
      x = (t.setStartP (outPt small t)).setEndP (innPt large t) ∧
      ∀ t' ∈ ts, innerOk small large t' = true → x.arc ≤
        ((t'.setStartP (outPt small t')).setEndP (innPt large t')).arc := by
    intro x hx hmin
    obtain ⟨t, h1, h2, h3⟩ := (hmem x).1 hx
    exact ⟨t, h1, h2, h3, fun t' h4 h5 => hmin _ ((hmem _).2 ⟨t', h4, h5, rfl⟩)⟩
  rcases as with _ | ⟨a, _ | ⟨b, as⟩⟩
  · left
    refine ⟨fun t ht => ?_, rfl⟩
    by_contra hc
    have := (hmem _).2 ⟨t, ht, by simpa using hc, rfl⟩
    simp at this
  · right
    obtain ⟨t, h1, h2, h3, h4⟩ := done a (by simp) (by simp)
    exact ⟨t, h1, h2, by rw [← h3]; rfl, fun t' x y => h3 ▸ h4 t' x y⟩
  · right
    have harc : ∀ x ∈ a :: b :: as, x.arc ≤ 2 * pi := by
      intro x hx
      obtain ⟨t, h1, h2, h3⟩ := (hmem x).1 hx
      obtain ⟨s1, s2, s3⟩ := between_small small large t hs hr (hb t h1) tol htol hts
      obtain ⟨l1, l2, l3⟩ := between_large small large t hr (hb t h1) tol htol htl
      rw [h3]; exact (setSE_spec t (hb t h1).wf _ _ s3 l3).1.arc1
    obtain ⟨v, v1, v2, v3⟩ := shortest_spec dmax (a :: b :: as) 0 0 dmax
    rcases v3 with ⟨_, h2⟩ | ⟨j, x, h1, h2, h3⟩
    · have := v2 a (by simp)
      have := harc a (by simp)
      linarith
    · obtain ⟨t, g1, g2, g3, g4⟩ := done x (List.mem_of_getElem? h2) (fun y hy => h3 ▸ v2 y hy)
      refine ⟨t, g1, g2, ?_, fun t' x y => g3 ▸ g4 t' x y⟩
      rw [← g3]
      simp only
      rw [h1, zero_add]
      have hv : vget (a :: b :: as) j = .ok x := by unfold vget; rw [h2]
      rw [hv, CRes.ok_bind]; rfl

/-- Angle of a point given in polar form. -/
theorem angleOf_polar {t : Arc} (hr : 0 < t.radius) {φ : ℝ} (h0 : 0 ≤ φ) (h1 : φ < 2 * pi) {p : P2}
    (hp : p = circPt t.center t.radius φ) : t.angleOf p = φ := by
  obtain ⟨a0, a1, a2⟩ := angleOf_spec t p
  have he : eucl p t.center = t.radius := by rw [hp]; exact circPt_eucl _ _ _ hr.le
  rw [he] at a2
  obtain ⟨k, hk⟩ := angle_unique hr (a2.trans hp)
  have : k = 0 := int_zero_of (x := t.angleOf p - φ) (by linarith) (by linarith) (by linarith)
  rw [hk, this]; simp

/-- **C63**, choice of `tangentInnerArcs` in general position. If the circle around `z` touches the small
circle from outside and the large one from inside in points of the two arcs, and the arc `α` along it from
the small to the large circle does not cross the angle zero, then one arc is returned, and it is not longer
than `α`. -/
theorem tangentInnerArcs_best (small large : Arc) (hs : small.WF) (hl : large.WF) (r tol dmax : ℝ)
    (hdmax : 2 * pi < dmax) (hr : 0 < r) (htol : 0 < tol) (htl : tol ≤ large.radius - r)
    (hts : tol ≤ small.radius + r) (hdir : small.dir ≠ large.dir)
    (c1 c2 : Arc) (p q : P2) (hd : tol ≤ eucl large.center small.center)
    (n1 : Arc.new small.center (small.radius + r) small.dir = .ok c1)
    (n2 : Arc.new large.center (large.radius - r) large.dir = .ok c2)
    (hgen : intersectCC c1 c2 [] tol = .ok [p, q]) (z : P2)
    (z1 : eucl z small.center = small.radius + r) (z2 : eucl z large.center = large.radius - r) (P Q : P2)
    (hP : P = lerp z large.center (-(r / (large.radius - r))))
    (hQ : Q = lerp z small.center (r / (small.radius + r)))
    (p1 : OnArcS large.center large.radius large.dir large.start large.arc P) (p2 : ¬ Seam large P)
    (q1 : OnArcS small.center small.radius small.dir small.start small.arc Q) (q2 : ¬ Seam small Q)
    (φ α : ℝ) (hα : 0 ≤ α) (h1 : Q = circPt z r φ) (h2 : P = circPt z r (φ + large.dir * α))
    (hφ0 : 0 ≤ φ) (hφ1 : φ < 2 * pi) (hψ0 : 0 ≤ φ + large.dir * α) (hψ1 : φ + large.dir * α < 2 * pi) :
    ∃ t, tangentInnerArcs dmax small large r tol = .ok [t] ∧ t.arc ≤ α := by
  obtain ⟨ts, hT, hb, hn, t0, ht0, rfl⟩ := inner_mem small large hs hl r tol hr (by linarith) c1 c2 p q
    (by linarith) (by rw [abs_of_pos htol]; exact hd) n1 n2 hgen z z1 z2
  have b := hb t0 ht0
  have eP : P = innPt large t0 := by rw [hP, innPt, b.rad]
  have eQ : Q = outPt small t0 := by rw [hQ, outPt, b.rad]
  obtain ⟨s1, s2, s3⟩ := between_small small large t0 hs hr b tol htol hts
  obtain ⟨l1, l2, l3⟩ := between_large small large t0 hr b tol htol htl
  obtain ⟨cp, hcp⟩ := hn t0 ht0
  have hrad := b.wf.r
  have aP : t0.angleOf P = φ + large.dir * α := angleOf_polar hrad hψ0 hψ1 (by rw [b.rad, h2])
  have aQ : t0.angleOf Q = φ := angleOf_polar hrad hφ0 hφ1 (by rw [b.rad, h1])
  have hok : innerOk small large t0 = true := by
    unfold innerOk
    rw [← eP, ← eQ, onArc_of small hs q1 q2, onArc_of large hl p1 p2]
    rw [(full_setStart_onArc hl.dir hcp Q P (by rw [eP]; exact l3)).2 (by
      rw [aP, aQ]
      rcases hl.dir with hh | hh <;> rw [hh] <;> push_cast <;> linarith)]
    rfl
  rcases tangentInnerArcs_eq small large hs hl hdmax hr htol htl hts hdir hT hb hn with ⟨h, _⟩ | ⟨t, g1, g2, g3, g4⟩
  · rw [h t0 ht0] at hok; simp at hok
  · refine ⟨_, g3, (g4 t0 ht0 hok).trans ?_⟩
    exact setSE_arc_min t0 b.wf _ _ s3 l3 hα (φ := φ) (by rw [← eQ, h1, b.rad])
      (by rw [← eP, h2, b.rad, b.dir])

/-- **C63 (finding).** The arc returned by `tangentInnerArcs` never crosses the angle zero: the start angle
is set before the second intersection is computed, and a full circle keeps its end at angle zero. -/
theorem tangentInnerArcs_seam (small large : Arc) (hs : small.WF) (hl : large.WF) (r tol dmax : ℝ)
    (hdmax : 2 * pi < dmax) (hr : 0 < r) (htol : 0 < tol) (htl : tol ≤ large.radius - r)
    (hts : tol ≤ small.radius + r)
    (c1 c2 : Arc) (p q : P2) (hd : tol ≤ eucl large.center small.center)
    (n1 : Arc.new small.center (small.radius + r) small.dir = .ok c1)
    (n2 : Arc.new large.center (large.radius - r) large.dir = .ok c2)
    (hgen : intersectCC c1 c2 [] tol = .ok [p, q]) {t : Arc}
    (ht : tangentInnerArcs dmax small large r tol = .ok [t]) :
    Between small large r t ∧ t.startPoint = outPt small t ∧ t.endPoint = innPt large t ∧
    0 ≤ t.start ∧ t.start < 2 * pi ∧ 0 ≤ t.start + t.dir * t.arc ∧ t.start + t.dir * t.arc < 2 * pi := by
  have hpi := Real.pi_pos
  by_cases hdir : small.dir = large.dir
  · unfold tangentInnerArcs at ht; rw [if_pos hdir] at ht; simp at ht
  obtain ⟨A, B, hT, bA, bB, eA, eB⟩ := tangentInnerCircles_spec small large hs hl r tol hr (by linarith) c1 c2 p q
    (by linarith) (by rw [abs_of_pos htol]; exact hd) n1 n2 hgen
  obtain ⟨ts, hT', hb, hn, -⟩ := inner_mem small large hs hl r tol hr (by linarith) c1 c2 p q
    (by linarith) (by rw [abs_of_pos htol]; exact hd) n1 n2 hgen A.center bA.out bA.inn
  rcases tangentInnerArcs_eq small large hs hl hdmax hr htol htl hts hdir hT' hb hn with ⟨_, h⟩ | ⟨t0, g1, g2, g3, -⟩
  · rw [h] at ht; simp at ht
  rw [g3] at ht
  injection ht with ht
  injection ht with ht
  have b := hb t0 g1
  obtain ⟨cp, hcp⟩ := hn t0 g1
  obtain ⟨s1, s2, s3⟩ := between_small small large t0 hs hr b tol htol hts
  obtain ⟨l1, l2, l3⟩ := between_large small large t0 hr b tol htol htl
  unfold innerOk at g2
  simp only [Bool.and_eq_true] at g2
  have hang := (full_setStart_onArc hl.dir hcp (outPt small t0) (innPt large t0) l3).1 g2.2.1
  obtain ⟨w1, w2, w3, w4, w5, w6⟩ := setSE_spec t0 b.wf _ _ s3 l3
  rw [ht] at w1 w2 w3 w4 w5 w6
  obtain ⟨a0, a1, _⟩ := angleOf_spec t0 (outPt small t0)
  obtain ⟨b0, b1, _⟩ := angleOf_spec t0 (innPt large t0)
  have hwa : wrap (t0.angleOf (outPt small t0)) = t0.angleOf (outPt small t0) := (wrap_spec _).2.2.2 a0 a1.le
  have hst : t.start = t0.angleOf (outPt small t0) := by rw [← ht]; exact hwa
  have harc : t.arc = wrap (if t0.dir = 1 then t0.angleOf (innPt large t0) - wrap (t0.angleOf (outPt small t0))
      else wrap (t0.angleOf (outPt small t0)) - t0.angleOf (innPt large t0)) := by rw [← ht]; rfl
  rw [hwa] at harc
  have hsum : t.start + t.dir * t.arc = t0.angleOf (innPt large t0) := by
    rw [w6, b.dir]
    rw [b.dir] at harc
    rcases hl.dir with hh | hh
    · rw [hh] at hang harc ⊢
      push_cast at hang ⊢
      rw [if_pos rfl, (wrap_spec _).2.2.2 (by linarith) (by linarith)] at harc
      rw [harc, hst]; ring
    · rw [hh] at hang harc ⊢
      push_cast at hang ⊢
      rw [if_neg (by decide), (wrap_spec _).2.2.2 (by linarith) (by linarith)] at harc
      rw [harc, hst]; ring
  refine ⟨⟨w1, by rw [w4, b.rad], by rw [w6, b.dir], by rw [w5, b.out], by rw [w5, b.inn]⟩, ?_, ?_, ?_, ?_, ?_, ?_⟩
  · rw [w2]; unfold outPt; rw [w4, w5]
  · rw [w3]; unfold innPt; rw [w4, w5]
  · rw [hst]; exact a0
  · rw [hst]; exact a1
  · rw [hsum]; exact b0
  · rw [hsum]; exact b1

end PathPlanning.Shapes
