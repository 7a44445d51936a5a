import Verif.Props.Expansion
import Verif.Model.Sampling

/-!
# Turn-straight-turn motions on bounded maps

`Props/RSFree.lean` and `Props/RSOpt4.lean` speak about maps without border.  Here the map only has to be free in a rectangle that
contains the two turning circles.
-/

noncomputable section

namespace PathPlanning.Spec

/-- All cells of the rectangle `[x0, x1] × [y0, y1]` are in the map and free. -/
def FreeBox (m : RS.MapIf) (x0 x1 y0 y1 : Int) : Prop :=
  ∀ x y, x0 ≤ x → x ≤ x1 → y0 ≤ y → y ≤ y1 → m.inMap x y = true ∧ m.free x y = true

/-- The circle lies in the rectangle, at a distance of at least one cell from its border. -/
def CircleIn (R : ℝ) (c : P2) (x0 x1 y0 y1 : Int) : Prop :=
  (x0 : ℝ) + 1 ≤ c.x - R ∧ c.x + R ≤ (x1 : ℝ) - 1 ∧ (y0 : ℝ) + 1 ≤ c.y - R ∧ c.y + R ≤ (y1 : ℝ) - 1

end PathPlanning.Spec

namespace PathPlanning.RS
open Spec

theorem truncC_near (d : ℝ) : d - 1 < (truncC d : ℝ) ∧ (truncC d : ℝ) < d + 1 := by
  unfold truncC
  split_ifs
  · exact ⟨by linarith [Int.lt_floor_add_one d], by linarith [Int.floor_le d]⟩
  · exact ⟨by linarith [Int.le_ceil d], Int.ceil_lt_add_one d⟩

theorem ring_le {r : Int} (hr : 1 ≤ r) {c p : Int × Int} (h : RingCell r c p) :
    c.1 - r ≤ p.1 ∧ p.1 ≤ c.1 + r ∧ c.2 - r ≤ p.2 ∧ p.2 ≤ c.2 + r := by
  unfold RingCell at h
  simp only at h
  have hb : 0 ≤ (min |p.1 - c.1| |p.2 - c.2|) ^ 2 := sq_nonneg _
  have ha : max |p.1 - c.1| |p.2 - c.2| ≤ r := by
    by_contra hh
    push Not at hh
    nlinarith [h.1]
  have h1 := abs_le.1 ((le_max_left _ _).trans ha)
  have h2 := abs_le.1 ((le_max_right _ _).trans ha)
  omega

section
variable {E : RSEnv} (hE : E.Sane) (hu : E.useMapCost = false) {x0 x1 y0 y1 : Int} (hb : FreeBox E.map x0 x1 y0 y1)
include hE hu hb

theorem Lin.weight_box (l : Lin) (h0 : (x0 : ℝ) + 1 ≤ l.start.x ∧ l.start.x ≤ x1 - 1 ∧ (y0 : ℝ) + 1 ≤ l.start.y ∧ l.start.y ≤ y1 - 1)
    (h1 : (x0 : ℝ) + 1 ≤ l.stop.x ∧ l.stop.x ≤ x1 - 1 ∧ (y0 : ℝ) + 1 ≤ l.stop.y ∧ l.stop.y ≤ y1 - 1) :
    l.weight E = eucl l.start.pt l.stop.pt * E.dirCost l.dir * E.costS := by
  have key : ∀ (d : ℝ) (a b : Int), (a : ℝ) + 1 ≤ d → d ≤ (b : ℝ) - 1 → a ≤ truncC d ∧ truncC d ≤ b := by
    intro d a b e1 e2
    obtain ⟨t1, t2⟩ := truncC_near d
    constructor
    · have : (a : ℝ) < truncC d := by linarith
      exact_mod_cast this.le
    · have : (truncC d : ℝ) < b := by linarith
      exact_mod_cast this.le
  have a1 := key _ _ _ h0.1 h0.2.1
  have a2 := key _ _ _ h0.2.2.1 h0.2.2.2
  have b1 := key _ _ _ h1.1 h1.2.1
  have b2 := key _ _ _ h1.2.2.1 h1.2.2.2
  obtain ⟨cells, hdl, hs⟩ := lineCheck_spec (truncC l.start.x) (truncC l.start.y) (truncC l.stop.x) (truncC l.stop.y)
  obtain ⟨r, e, h4, _⟩ := hs E
  have hr : r.1 = true := h4.2 (.inr fun p hp _ => by
    obtain ⟨q1, q2, q3, q4⟩ := hdl.box p hp
    simp only at q1 q2 q3 q4
    exact (hb p.1 p.2 (by omega) (by omega) (by omega) (by omega)).2)
  unfold Lin.weight
  simp only
  rw [e]
  have h1 : (!E.map.inMap (truncC l.start.x) (truncC l.start.y) && !E.ignore) = false := by
    rw [(hb _ _ a1.1 a1.2 a2.1 a2.2).1]; rfl
  simp only [h1, Bool.false_eq_true, if_false, Option.getD_some, hr, Bool.or_true, if_true, hu, distOrigin_sub]

theorem Circ.weight_box (c : Circ) (hr : c.radius = E.radius) (hin : CircleIn E.radius c.center x0 x1 y0 y1) :
    c.weight E = |c.arc| * c.radius * E.dirCost c.dir * E.costC := by
  have hr1 : 1 ≤ truncC c.radius := by rw [hr]; exact truncC_of_one_le hE.radius
  obtain ⟨cells, _, _, hs⟩ := checkCircle_spec (truncC c.center.x) (truncC c.center.y) (truncC c.radius) hr1
  obtain ⟨r, e, h4, _⟩ := hs E c
  have hR : (truncC c.radius : ℝ) ≤ E.radius := by
    rw [hr, truncC_nonneg (by linarith [hE.radius])]; exact Int.floor_le _
  have hr' : r.1 = true := h4.2 fun p hp => by
    obtain ⟨q1, q2, q3, q4⟩ := ring_le hr1 hp
    simp only at q1 q2 q3 q4
    obtain ⟨u1, u2⟩ := truncC_near c.center.x
    obtain ⟨u3, u4⟩ := truncC_near c.center.y
    obtain ⟨w1, w2, w3, w4⟩ := hin
    have q1' : (truncC c.center.x : ℝ) - truncC c.radius ≤ p.1 := by exact_mod_cast q1
    have q2' : (p.1 : ℝ) ≤ truncC c.center.x + truncC c.radius := by exact_mod_cast q2
    have q3' : (truncC c.center.y : ℝ) - truncC c.radius ≤ p.2 := by exact_mod_cast q3
    have q4' : (p.2 : ℝ) ≤ truncC c.center.y + truncC c.radius := by exact_mod_cast q4
    have v1 : (x0 : ℝ) < p.1 := by linarith
    have v2 : (p.1 : ℝ) < x1 := by linarith
    have v3 : (y0 : ℝ) < p.2 := by linarith
    have v4 : (p.2 : ℝ) < y1 := by linarith
    obtain ⟨z1, z2⟩ := hb p.1 p.2 (by exact_mod_cast v1.le) (by exact_mod_cast v2.le) (by exact_mod_cast v3.le) (by exact_mod_cast v4.le)
    exact ⟨z1, fun _ => .inr z2⟩
  unfold Circ.weight
  rw [e]
  simp only [Option.getD_some, hr', Bool.or_true, if_true, hu, Bool.false_eq_true, if_false, Circ.length]

theorem Circ.weight_mono_box (c : Circ) (hr : c.radius = E.radius) (hin : CircleIn E.radius c.center x0 x1 y0 y1)
    {d : Dir} (hd : c.dir = d) {t : ℝ} (ht : |c.arc| ≤ t) (o : Ori) :
    c.weight E ≤ elemCost E.factors E.radius (.turn o d, t) := by
  rw [Circ.weight_box hE hu hb c hr hin, elemCost, factors_ofDir, ← hd, hr]
  have h0 := dirCost_nonneg hE c.dir
  have h1 := hE.costC
  have h2 := hE.radius
  have : |c.arc| * E.radius ≤ t * E.radius := mul_le_mul_of_nonneg_right ht (by linarith)
  exact mul_le_mul_of_nonneg_right (mul_le_mul_of_nonneg_right this h0) h1

omit hu hb in
theorem polar_in {R a : ℝ} {c : P2} (hR : 0 ≤ R) (h : CircleIn R c x0 x1 y0 y1) :
    (x0 : ℝ) + 1 ≤ (c + P2.fromPolar a R).x ∧ (c + P2.fromPolar a R).x ≤ x1 - 1 ∧
      (y0 : ℝ) + 1 ≤ (c + P2.fromPolar a R).y ∧ (c + P2.fromPolar a R).y ≤ y1 - 1 := by
  obtain ⟨w1, w2, w3, w4⟩ := h
  have c1 := Real.cos_le_one a
  have c2 := Real.neg_one_le_cos a
  have s1 := Real.sin_le_one a
  have s2 := Real.neg_one_le_sin a
  have ex : (c + P2.fromPolar a R).x = c.x + R * Real.cos a := by simp [P2.fromPolar]; ring
  have ey : (c + P2.fromPolar a R).y = c.y + R * Real.sin a := by simp [P2.fromPolar]; ring
  rw [ex, ey]
  refine ⟨?_, ?_, ?_, ?_⟩ <;> nlinarith

/-- One curve: if the room for the motion is free, the test accepts the curve with at most the cost (and the turned angle) of the
motion. -/
theorem check_csc_box (c : Curve) {o o' : Ori} {d d' d'' : Dir} {t1 L t3 : ℝ}
    (hel : elemsOf c.seq = [.turn o d, .straight d', .turn o' d'']) (h1 : 0 < t1) (hL : 0 ≤ L) (h3 : 0 < t3)
    (hD : 2 * E.radius ≤ eucl (turnCentre E.radius o c.start) (turnCentre E.radius o' c.goal))
    (hg : SameConfig (driveAll E.radius c.start [(.turn o d, t1), (.straight d', L), (.turn o' d'', t3)]) c.goal)
    (hc1 : CircleIn E.radius (turnCentre E.radius o c.start) x0 x1 y0 y1)
    (hc2 : CircleIn E.radius (turnCentre E.radius o' c.goal) x0 x1 y0 y1)
    (hd : 2 ≤ c.start.distTo c.goal) :
    ∃ c', c.check E = .ok c' ∧
      c'.weight ≤ motionCost E.factors E.radius [(.turn o d, t1), (.straight d', L), (.turn o' d'', t3)] ∧
      c'.curveArc ≤ t1 + t3 := by
  have hC := hE.clamp
  have hr1 := hE.radius
  have hr0 : 0 < E.radius := by linarith
  have hdd : ¬ c.start.distTo c.goal < 2 := by linarith
  have hlen : c.seq.length = 3 := by
    have := congrArg List.length hel; simpa [elemsOf] using this
  rcases check_shape E c (by omega) hdd with ⟨a, l, b, hs, hc⟩ | ⟨a, m, b, hs, hc⟩ |
    ⟨a, m, n, b, hs, hc⟩ | ⟨a, s, t, b, hs, _, hc⟩ | ⟨hbad, hc⟩
  · rw [hs] at hel
    simp only [elemsOf, List.map, elemOf, List.cons.injEq, Elem.turn.injEq, Elem.straight.injEq, and_true] at hel
    obtain ⟨⟨rfl, rfl⟩, rfl, rfl, rfl⟩ := hel
    obtain ⟨a', l', b', hct, ra, rb, da, db, dl, q1, q2, q3⟩ := csc_unique hC hr0 a b l c.start c.goal h1 hL h3 hg hD
    obtain ⟨kS, kE, _, fa, fb, _⟩ := commonTangent_keep hct
    have hj := (commonTangent_join hC (initA E c.start a) l (initZ E c.goal b) rfl hr0).2 a' l' b' hct
    have ca : a'.center = turnCentre E.radius a.ori c.start := kS.center.trans (pairFor_eq E a.ori c.start)
    have cb : b'.center = turnCentre E.radius b.ori c.goal := kE.center.trans (pairFor_eq E b.ori c.goal)
    refine ⟨_, hc, ?_, ?_⟩
    · simp only
      unfold handleCSC
      rw [hct]
      simp only
      have w1 := Circ.weight_mono_box hE hu hb a' ra (by rw [ca]; exact hc1) da q1 a.ori
      have w3 := Circ.weight_mono_box hE hu hb b' rb (by rw [cb]; exact hc2) db q3 b.ori
      have p1 : l'.start.pt = a'.center + P2.fromPolar a'.aEnd a'.radius := hj.startPt
      have p2 : l'.stop.pt = b'.center + P2.fromPolar b'.aStart b'.radius := hj.stopPt
      have e1 := polar_in (E := E) hE (a := a'.aEnd) (by linarith) hc1
      have e2 := polar_in (E := E) hE (a := b'.aStart) (by linarith) hc2
      rw [← ca, ← ra, ← p1] at e1
      rw [← cb, ← rb, ← p2] at e2
      have w2 : l'.weight E = elemCost E.factors E.radius (.straight l.dir, L) := by
        rw [Lin.weight_box hE hu hb l' e1 e2, elemCost, factors_ofDir, dl, q2]; rfl
      simp only [motionCost, List.map, List.sum_cons, List.sum_nil]
      linarith
    · simp only [Curve.curveArc]
      unfold handleCSC
      rw [hct]
      simp only [List.foldl]
      linarith
  · rw [hs] at hel; simp [elemsOf, elemOf] at hel
  · rw [hs] at hel; simp [elemsOf] at hel
  · rw [hs] at hel; simp [elemsOf] at hel
  · rcases hbad with ⟨x, r, hx⟩ | ⟨x, r, hx⟩
    · rw [hx] at hel; simp [elemsOf, elemOf] at hel
    · rw [hx] at hel
      have := congrArg List.getLast? hel
      simp [elemsOf, elemOf] at this

end


/-- The weight of a straight segment that was not rejected. -/
theorem Lin.weight_of_lt {E : RSEnv} (hu : E.useMapCost = false) (l : Lin) (h : l.weight E < NOT_FREE) :
    l.weight E = eucl l.start.pt l.stop.pt * E.dirCost l.dir * E.costS := by
  unfold Lin.weight at h ⊢
  simp only at h ⊢
  split_ifs at h ⊢ with h1 h2 h3 <;> first
    | (rw [distOrigin_sub]; done)
    | exact absurd h (lt_irrefl _)
    | (rw [hu] at h3; cases h3)
    | (simp_all; done)
    | rw [distOrigin_sub]

/-- The weight of a turn that was not rejected. -/
theorem Circ.weight_of_lt {E : RSEnv} (hu : E.useMapCost = false) (c : Circ) (h : c.weight E < NOT_FREE) :
    c.weight E = |c.arc| * c.radius * E.dirCost c.dir * E.costC := by
  unfold Circ.weight at h ⊢
  simp only at h ⊢
  by_cases hc : (E.ignore || ((checkCircle E c (truncC c.center.x) (truncC c.center.y) (truncC c.radius)).getD (false, 0)).1) = true
  · rw [if_pos hc, hu]; simp [Circ.length]
  · rw [if_neg hc] at h; exact absurd h (lt_irrefl _)

/-- **C67.** On any map (obstacles ignored or not): the weight of the curve that is returned is the cost of the motion it
describes, if map costs are not used. -/
theorem findPath_cost_any (g g' : Gen) (clamp : ℝ → ℝ) (start goal : Pose) (map : MapIf) (ig : Bool)
    (hE : (g.env clamp map ig).Sane) (hu : g.useMapCost = false) (k : Curve)
    (h : g.findPath clamp start goal map ig = .ok (g', some k)) :
    k.weight = motionCost ⟨g.costF, g.costB, g.costC, g.costS⟩ (g.radius / map.res) (motion k) := by
  cases hm : g.maxArc with
  | none => exact absurd (findPath_needs_maxArc g g' clamp start goal map ig hm _ h) (by simp)
  | some m =>
  obtain ⟨hfa, _, hsome⟩ := findPath_best g g' clamp start goal map ig m hm (some k) h
  obtain ⟨pre, post, e, he, _, _⟩ := hsome k rfl
  have hk : k ∈ g'.curves := by rw [e]; simp
  obtain ⟨c, hc, ht⟩ := forall₂_mem hfa hk
  obtain ⟨w1, w2⟩ := check_weight _ _ _ ht he.1
  have hlt : ∀ s ∈ k.seq, s.weight (g.env clamp map ig) < NOT_FREE := by
    intro s hs
    have := mem_le_sum (Seg.weight (g.env clamp map ig)) k.seq
      (fun a ha => Seg.weight_nonneg' hE (fun k hk => (w2 k hk).1) ha) s hs
    rw [← w1] at this
    exact lt_of_le_of_lt this he.1
  rw [w1]
  unfold motionCost motion
  rw [List.map_map]
  congr 1
  apply List.map_congr_left
  intro s hs
  have hs' := hlt s hs
  cases s with
  | line l =>
    simp only [Seg.weight, Function.comp, elemOf, amountOf, elemCost] at hs' ⊢
    rw [Lin.weight_of_lt hu l hs', ← factors_ofDir]; rfl
  | circ c =>
    simp only [Seg.weight, Function.comp, elemOf, amountOf, elemCost] at hs' ⊢
    rw [Circ.weight_of_lt hu c hs', ← factors_ofDir, (w2 c hs).1]; rfl

/-- **C67/C69, bounded maps.** If a rectangle of free cells contains the first and the last turning circle, a
turn-straight-turn motion that turns less than the maximum arc is not missed. -/
theorem findPath_csc_box (g g' : Gen) (clamp : ℝ → ℝ) (start goal : Pose) (map : MapIf) (ig : Bool)
    (hE : (g.env clamp map ig).Sane) {x0 x1 y0 y1 : Int} (hb : FreeBox map x0 x1 y0 y1)
    (hu : g.useMapCost = false) (m : ℝ) (hm : g.maxArc = some m)
    (c : Curve) (hc : c ∈ g.curves) (o o' : Ori) (d d' d'' : Dir) (t1 L t3 : ℝ)
    (hel : elemsOf c.seq = [.turn o d, .straight d', .turn o' d'']) (h1 : 0 < t1) (hL : 0 ≤ L) (h3 : 0 < t3)
    (hsum : t1 + t3 < m)
    (hcen : 2 * (g.radius / map.res) ≤ eucl (turnCentre (g.radius / map.res) o start)
      (turnCentre (g.radius / map.res) o' goal))
    (hc1 : CircleIn (g.radius / map.res) (turnCentre (g.radius / map.res) o start) x0 x1 y0 y1)
    (hc2 : CircleIn (g.radius / map.res) (turnCentre (g.radius / map.res) o' goal) x0 x1 y0 y1)
    (hg : SameConfig (driveAll (g.radius / map.res) start
      [(.turn o d, t1), (.straight d', L), (.turn o' d'', t3)]) goal)
    (hd : 2 ≤ eucl start.pt goal.pt)
    (hcost : motionCost ⟨g.costF, g.costB, g.costC, g.costS⟩ (g.radius / map.res)
      [(.turn o d, t1), (.straight d', L), (.turn o' d'', t3)] < 999999)
    (r : Option Curve) (h : g.findPath clamp start goal map ig = .ok (g', r)) :
    ∃ k, r = some k ∧ k.weight ≤ motionCost ⟨g.costF, g.costB, g.costC, g.costS⟩ (g.radius / map.res)
      [(.turn o d, t1), (.straight d', L), (.turn o' d'', t3)] := by
  obtain ⟨hfa, hnone, hsome⟩ := findPath_best g g' clamp start goal map ig m hm r h
  obtain ⟨k, hk, ht⟩ := forall₂_mem_left hfa hc
  have hdist : start.distTo goal = eucl start.pt goal.pt := distTo_eq start goal
  obtain ⟨k', hk', w1, w2⟩ := check_csc_box (E := g.env clamp map ig) hE hu hb { c with start := start, goal := goal } hel
    h1 hL h3 hcen hg hc1 hc2 (by simp only; rw [hdist]; exact hd)
  have hkk : k = k' := by
    have := ht.symm.trans hk'
    injection this
  subst hkk
  have helig : Eligible m k := ⟨lt_of_le_of_lt w1 hcost, by linarith⟩
  cases r with
  | none => exact absurd helig (hnone.1 rfl k hk)
  | some k2 =>
    refine ⟨k2, rfl, le_trans ?_ w1⟩
    obtain ⟨pre, post, e, he, hpre, hpost⟩ := hsome k2 rfl
    rw [e] at hk
    rcases List.mem_append.1 hk with hp | hp
    · exact (hpre k hp helig).le
    · rcases List.mem_cons.1 hp with rfl | hp
      · exact le_refl _
      · exact hpost k hp helig

end PathPlanning.RS

namespace PathPlanning.RSExp
open Spec PathPlanning.RS

/-- **C69, bounded maps.** If a rectangle of free cells contains the turning circles at the node and at the goal, an attempt succeeds
whenever a forward motion "turn, straight, turn" (positive angles, below 180 degrees in total, turning circles that do not overlap)
leads from the node to the goal and the goal is at least two cells away. -/
theorem expand_complete_box {clamp : ℝ → ℝ} (hC : ClampSpec clamp) (hopen : ∀ t, -Real.pi < clamp t)
    {N : Int} (hN : 0 ≤ N) (hN2 : N < 2147483648) {eb : Bool} {st : St}
    (hst : ExpReach clamp N true eb st) {map : MapIf} (h0 : 0 < map.res) (h1 : map.res ≤ 13 / 10)
    {x0 x1 y0 y1 : Int} (hb : FreeBox map x0 x1 y0 y1) (start goal : Node)
    (hh : 0 ≤ start.h) (hfw : start.forward = true) {thr : ExpSt ℝ}
    (hatt : expStep N st.thr start.h = .ok (true, thr))
    (o o' : Ori) (t1 L t3 : ℝ) (p1 : 0 < t1) (pL : 0 ≤ L) (p3 : 0 < t3) (hsum : t1 + t3 < Real.pi)
    (hcen : 2 * (13 / 10 / map.res) ≤ eucl (turnCentre (13 / 10 / map.res) o start.pose)
      (turnCentre (13 / 10 / map.res) o' goal.pose))
    (hc1 : CircleIn (13 / 10 / map.res) (turnCentre (13 / 10 / map.res) o start.pose) x0 x1 y0 y1)
    (hc2 : CircleIn (13 / 10 / map.res) (turnCentre (13 / 10 / map.res) o' goal.pose) x0 x1 y0 y1)
    (hgoal : SameConfig (driveAll (13 / 10 / map.res) start.pose (cscForward o o' t1 L t3)) goal.pose)
    (hd : 2 ≤ eucl start.pose.pt goal.pose.pt)
    (hcost : (t1 + t3) * (13 / 10 / map.res) * (13 / 10) + L < 999999) :
    ∃ n, ∀ fuel, n ≤ fuel → ∃ st', st.expand clamp fuel N true eb start goal map = .ok (some (true, st')) := by
  have ok := reach_ok hN hN2 hst
  have hg := ok.gen rfl
  have sane := gen0_sane hC hopen map h0 h1 false
  obtain ⟨n, hn⟩ := expand_defined hC hopen hN hN2 hst h0 h1 start goal hh
  refine ⟨n, fun fuel hle => ?_⟩
  obtain ⟨b, st', hx⟩ := hn fuel hle
  cases b with
  | true => exact ⟨st', hx⟩
  | false =>
    exfalso
    rcases expand_cases hx with ⟨_, _, ⟨h, _⟩ | ⟨_, h⟩⟩ | ⟨a, thr', _, s1, d1⟩
    · cases h
    · rw [hfw] at h; cases h
    rw [hatt] at s1
    simp only [CRes.ok.injEq, Prod.mk.injEq] at s1
    obtain ⟨rfl, rfl⟩ := s1
    rcases d1 with ⟨_, _, h | h⟩ | ⟨_, _, _, hf⟩
    · cases h
    · rw [hfw] at h; cases h
    obtain ⟨g', r, f1, _, _, _, f5⟩ := find_cases hf
    have u := hg.found start.pose goal.pose map false
    simp only at f1
    rw [f1] at u
    obtain ⟨g0', f0⟩ := found_some u.symm
    have hmem : cscCurve o o' .fwd ∈ (prepare gen0).curves := by
      cases o <;> cases o' <;> simp [prepare, gen0]
    have hmc : motionCost ⟨(prepare gen0).costF, (prepare gen0).costB, (prepare gen0).costC, (prepare gen0).costS⟩
        ((prepare gen0).radius / map.res) (cscForward o o' t1 L t3) =
        (t1 + t3) * (13 / 10 / map.res) * (13 / 10) + L := by
      simp [motionCost, cscForward, elemCost, CostFactors.ofDir, prepare, gen0]; ring
    obtain ⟨k, rfl, hk⟩ := findPath_csc_box (prepare gen0) g0' clamp start.pose goal.pose map false sane hb rfl
      Real.pi rfl (cscCurve o o' .fwd) hmem o o' .fwd .fwd .fwd t1 L t3 rfl p1 pL p3 hsum hcen hc1 hc2 hgoal hd
      (by have := hmc; unfold cscForward at this; rw [this]; exact hcost) r f0
    rcases f5 with ⟨h, _⟩ | ⟨k', ps, hkk, hv, _, _⟩
    · cases h
    · cases hkk
      -- the curve is valid
      have halt : ∀ c ∈ (prepare gen0).curves, Alternating (elemsOf c.seq) := by
        intro c hc
        obtain ⟨o, o', e⟩ := gen0_elems hc
        rw [e]; simp [Alternating]
      have hr0 : 0 < (prepare gen0).radius / map.res := by simp only [prepare]; positivity
      have hw := findPath_cost_any (prepare gen0) g0' clamp _ _ map false sane rfl k f0
      obtain ⟨_, _, ⟨c, hc, hel⟩, hnn, hdrive⟩ := findPath_motion (prepare gen0) g0' clamp hC _ _ map false hr0 halt k f0
      obtain ⟨q, q', e⟩ := gen0_elems hc
      obtain ⟨u1, UL, u3, hm, _⟩ := curveArc_csc (hel.trans e)
      rw [hm] at hw hnn hdrive
      have n1 := hnn (.turn q .fwd, u1) (by simp [cscForward])
      have nL := hnn (.straight .fwd, UL) (by simp [cscForward])
      have n3 := hnn (.turn q' .fwd, u3) (by simp [cscForward])
      simp only at n1 nL n3
      have hlt := findPath_best (prepare gen0) g0' clamp _ _ map false Real.pi rfl _ f0
      obtain ⟨_, _, _, helig, _⟩ := hlt.2.2 k rfl
      set R := (prepare gen0).radius / map.res with hR
      simp only [cscForward, driveAll] at hdrive
      set A := drive R start.pose (.turn q .fwd) u1 with hA
      set B := drive R A (.straight .fwd) UL with hB
      set Cc := drive R B (.turn q' .fwd) u3 with hCc
      have d1 := drive_dist hr0.le start.pose (.turn q .fwd) u1 n1
      have d2 := drive_dist hr0.le A (.straight .fwd) UL nL
      have d3 := drive_dist hr0.le B (.turn q' .fwd) u3 n3
      rw [← hA] at d1; rw [← hB] at d2; rw [← hCc] at d3
      simp only at d1 d2 d3
      have hCg : Cc.pt = goal.pose.pt := by
        unfold Pose.pt; rw [hdrive.1, hdrive.2.1]
      rw [hCg] at d3
      have tr1 := eucl_triangle start.pose.pt A.pt goal.pose.pt
      have tr2 := eucl_triangle A.pt B.pt goal.pose.pt
      have hw' : k.weight = u1 * R * (13 / 10) + UL + u3 * R * (13 / 10) := by
        rw [hw]
        simp [motionCost, cscForward, elemCost, CostFactors.ofDir, prepare, gen0]; ring
      have q1 : 0 ≤ u1 * R := mul_nonneg n1 hr0.le
      have q3 : 0 ≤ u3 * R := mul_nonneg n3 hr0.le
      have hbig : 2 ≤ k.weight := by rw [hw']; nlinarith
      have : k.isValid = true := by
        unfold Curve.isValid
        rw [if_neg (by linarith)]
        exact decide_eq_true helig.1
      rw [this] at hv; cases hv

end PathPlanning.RSExp
