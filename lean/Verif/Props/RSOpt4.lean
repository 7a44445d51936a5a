import Verif.Props.RSOpt3

/-!
# C67: `find_path` in free space is not beaten by any motion that follows one of its patterns
-/

noncomputable section

namespace PathPlanning.RS
open Spec

/-- The cost factors of an environment. -/
def RSEnv.factors (E : RSEnv) : CostFactors := ⟨E.costF, E.costB, E.costC, E.costS⟩

theorem factors_ofDir (E : RSEnv) (d : Dir) : E.factors.ofDir d = E.dirCost d := by
  cases d <;> simp [CostFactors.ofDir, RSEnv.factors, RSEnv.dirCost]

theorem fit_arc_le {E : RSEnv} (hC : ClampSpec E.clamp) {c : Circ} (h : c.Fit E) : |c.arc| ≤ 2 * Real.pi := by
  rw [h.1]; exact (computeArc_signed hC c).2

section
variable {E : RSEnv} (hE : E.Sane) (hf : E.NoObstacle) (hu : E.useMapCost = false)
include hE hf hu

theorem Circ.weight_mono (c : Circ) (hr : c.radius = E.radius) {d : Dir} (hd : c.dir = d) {t : ℝ}
    (ht : |c.arc| ≤ t) (o : Ori) : c.weight E ≤ elemCost E.factors E.radius (.turn o d, t) := by
  rw [Circ.weight_free hE hf hu c hr, elemCost, factors_ofDir, ← hd, hr]
  have h0 := dirCost_nonneg hE c.dir
  have h1 := hE.costC
  have h2 := hE.radius
  have : |c.arc| * E.radius ≤ t * E.radius := mul_le_mul_of_nonneg_right ht (by linarith)
  exact mul_le_mul_of_nonneg_right (mul_le_mul_of_nonneg_right this h0) h1

/-- One curve: if a covered motion follows its elements from the start to the goal, the test accepts
the curve with at most the cost of that motion. -/
theorem check_optimal (c : Curve) (ts : List (Elem × ℝ)) (hel : ts.map Prod.fst = elemsOf c.seq)
    (hcov : Covered E.radius c.start c.goal ts)
    (hg : SameConfig (driveAll E.radius c.start ts) c.goal)
    (hd : 2 ≤ c.start.distTo c.goal) (hcost : motionCost E.factors E.radius ts < NOT_FREE) :
    ∃ c', c.check E = .ok c' ∧ c'.weight ≤ motionCost E.factors E.radius ts ∧
      c'.curveArc ≤ 8 * Real.pi := by
  have hC := hE.clamp
  have hr1 := hE.radius
  have hr0 : 0 < E.radius := by linarith
  have hpi := Real.pi_pos
  have hdd : ¬ c.start.distTo c.goal < 2 := by linarith
  cases hcov with
  | @csc o o' d d' d'' t1 L t3 h1 hL h3 hD =>
    have hlen : c.seq.length = 3 := by
      have := congrArg List.length hel; simpa [elemsOf] using this.symm
    rcases check_shape E c (by omega) hdd with ⟨a, l, b, hs, hc⟩ | ⟨a, m, b, hs, hc⟩ |
      ⟨a, m, n, b, hs, hc⟩ | ⟨a, s, t, b, hs, _, hc⟩ | ⟨hbad, hc⟩
    · rw [hs] at hel
      simp only [elemsOf, List.map, elemOf, List.cons.injEq, Elem.turn.injEq, Elem.straight.injEq,
        and_true] at hel
      obtain ⟨⟨rfl, rfl⟩, rfl, rfl, rfl⟩ := hel
      obtain ⟨a', l', b', hct, ra, rb, da, db, dl, q1, q2, q3⟩ := csc_unique hC hr0 a b l c.start c.goal
        h1 hL h3 hg hD
      obtain ⟨_, _, _, fa, fb, _⟩ := commonTangent_keep hct
      refine ⟨_, hc, ?_, ?_⟩
      · simp only
        unfold handleCSC
        rw [hct]
        simp only
        have w1 := Circ.weight_mono hE hf hu a' ra da q1 a.ori
        have w3 := Circ.weight_mono hE hf hu b' rb db q3 b.ori
        have w2 : l'.weight E = elemCost E.factors E.radius (.straight l.dir, L) := by
          rw [Lin.weight_free hE hf hu l', elemCost, factors_ofDir, dl, q2]; rfl
        simp only [motionCost, List.map, List.sum_cons, List.sum_nil]
        linarith
      · simp only [Curve.curveArc]
        unfold handleCSC
        rw [hct]
        simp only [List.foldl]
        have := fit_arc_le hC fa
        have := fit_arc_le hC fb
        linarith
    · rw [hs] at hel; simp [elemsOf, elemOf] at hel
    · rw [hs] at hel; simp [elemsOf] at hel
    · rw [hs] at hel; simp [elemsOf] at hel
    · rcases hbad with ⟨x, r, hx⟩ | ⟨x, r, hx⟩
      · rw [hx] at hel; simp [elemsOf, elemOf] at hel
      · rw [hx] at hel
        have := congrArg List.getLast? hel
        simp [elemsOf, elemOf] at this
  | @ccc o1 o2 o3 d1 d2 d3 t1 t2 t3 n1 n2 h1 h2 h3 hD =>
    have hlen : c.seq.length = 3 := by
      have := congrArg List.length hel; simpa [elemsOf] using this.symm
    rcases check_shape E c (by omega) hdd with ⟨a, l, b, hs, hc⟩ | ⟨a, m, b, hs, hc⟩ |
      ⟨a, m, n, b, hs, hc⟩ | ⟨a, s, t, b, hs, _, hc⟩ | ⟨hbad, hc⟩
    · rw [hs] at hel; simp [elemsOf, elemOf] at hel
    · rw [hs] at hel
      simp only [elemsOf, List.map, elemOf, List.cons.injEq, Elem.turn.injEq, and_true] at hel
      obtain ⟨⟨rfl, rfl⟩, ⟨rfl, rfl⟩, rfl, rfl⟩ := hel
      obtain ⟨hle, p, a', m', b', hT, ra, rm, rb, da, dm, db, q1, q2, q3⟩ := ccc_unique hC hr0 a m b
        c.start c.goal n1 n2 h1 h2 h3 hg (by linarith)
      have w1 := Circ.weight_mono hE hf hu a' ra da q1 a.ori
      have w2 := Circ.weight_mono hE hf hu m' rm dm q2 m.ori
      have w3 := Circ.weight_mono hE hf hu b' rb db q3 b.ori
      have hlenD : ((initA E c.start a).center - (initZ E c.goal b).center).length =
          eucl (turnCentre E.radius a.ori c.start) (turnCentre E.radius b.ori c.goal) := by
        have e1 : (initA E c.start a).center = turnCentre E.radius a.ori c.start := pairFor_eq E a.ori c.start
        have e2 : (initZ E c.goal b).center = turnCentre E.radius b.ori c.goal := pairFor_eq E b.ori c.goal
        rw [e1, e2]; unfold P2.length eucl dist2; simp
      simp only [motionCost, List.map, List.sum_cons, List.sum_nil] at hcost ⊢
      obtain ⟨z1, p', z2⟩ := handleC3_best E (initA E c.start a) (m.setRadius E.radius) (initZ E c.goal b)
        (by rw [hlenD]; exact hD) (by rw [hlenD]; exact hle) p a' m' b' hT (by linarith)
      refine ⟨_, hc, ?_, ?_⟩
      · simp only; linarith
      · simp only [Curve.curveArc]
        rw [z2]
        obtain ⟨k1, k2, k3, f1, f2, f3⟩ := tangentialCircle_keep E p' (initA E c.start a)
          (m.setRadius E.radius) (initZ E c.goal b)
        simp only [tangentialCircleVec, List.map, List.foldl]
        have := fit_arc_le hC f1
        have := fit_arc_le hC f2
        have := fit_arc_le hC f3
        linarith
    · rw [hs] at hel; simp [elemsOf] at hel
    · rw [hs] at hel; simp [elemsOf] at hel
    · rcases hbad with ⟨x, r, hx⟩ | ⟨x, r, hx⟩
      · rw [hx] at hel; simp [elemsOf, elemOf] at hel
      · rw [hx] at hel
        have := congrArg List.getLast? hel
        simp [elemsOf, elemOf] at this
  | @cccc o1 o2 o3 o4 d1 d2 d3 d4 t1 u t4 n1 n2 n3 nd h1 h2 h4 hcu hD =>
    have hlen : c.seq.length = 4 := by
      have := congrArg List.length hel; simpa [elemsOf] using this.symm
    rcases check_shape E c (by omega) hdd with ⟨a, l, b, hs, hc⟩ | ⟨a, m, b, hs, hc⟩ |
      ⟨a, m, n, b, hs, hc⟩ | ⟨a, s, t, b, hs, hst, hc⟩ | ⟨hbad, hc⟩
    · rw [hs] at hel; simp [elemsOf] at hel
    · rw [hs] at hel; simp [elemsOf] at hel
    · rw [hs] at hel
      simp only [elemsOf, List.map, elemOf, List.cons.injEq, Elem.turn.injEq, and_true] at hel
      obtain ⟨⟨rfl, rfl⟩, ⟨rfl, rfl⟩, ⟨rfl, rfl⟩, rfl, rfl⟩ := hel
      obtain ⟨hle, p, a', m', n', b', hT, ra, rm, rn, rb, da, dm, dn, db, q1, q2, q3, q4⟩ :=
        cccc_unique hC hr0 a m n b c.start c.goal n1 n2 n3 nd h1 h2 h4 hcu hg
      have w1 := Circ.weight_mono hE hf hu a' ra da q1 a.ori
      have w2 := Circ.weight_mono hE hf hu m' rm dm q2 m.ori
      have w3 := Circ.weight_mono hE hf hu n' rn dn q3 n.ori
      have w4 := Circ.weight_mono hE hf hu b' rb db q4 b.ori
      have hlenD : ((initA E c.start a).center - (initZ E c.goal b).center).length =
          eucl (turnCentre E.radius a.ori c.start) (turnCentre E.radius b.ori c.goal) := by
        have e1 : (initA E c.start a).center = turnCentre E.radius a.ori c.start := pairFor_eq E a.ori c.start
        have e2 : (initZ E c.goal b).center = turnCentre E.radius b.ori c.goal := pairFor_eq E b.ori c.goal
        rw [e1, e2]; unfold P2.length eucl dist2; simp
      simp only [motionCost, List.map, List.sum_cons, List.sum_nil] at hcost ⊢
      obtain ⟨z1, p', z2⟩ := handleC4_best E (initA E c.start a) (m.setRadius E.radius)
        (n.setRadius E.radius) (initZ E c.goal b)
        (by rw [hlenD]; exact hD) (by rw [hlenD]; exact hle) p a' m' n' b' hT (by linarith)
      refine ⟨_, hc, ?_, ?_⟩
      · simp only; linarith
      · simp only [Curve.curveArc]
        rw [z2]
        obtain ⟨k1, k2, k3, k4, f1, f2, f3, f4⟩ := tangentialDouble_keep E p' (initA E c.start a)
          (m.setRadius E.radius) (n.setRadius E.radius) (initZ E c.goal b)
        simp only [tangentialDoubleVec, List.map, List.foldl]
        have := fit_arc_le hC f1
        have := fit_arc_le hC f2
        have := fit_arc_le hC f3
        have := fit_arc_le hC f4
        linarith
    · exfalso
      rw [hs] at hel
      rcases hst with ⟨l, rfl⟩ | ⟨l, rfl⟩ <;> simp [elemsOf, elemOf] at hel
    · exfalso
      rcases hbad with ⟨x, r, hx⟩ | ⟨x, r, hx⟩
      · rw [hx] at hel; simp [elemsOf, elemOf] at hel
      · rw [hx] at hel
        have := congrArg List.getLast? hel
        simp [elemsOf, elemOf] at this

end

/-- **C67.** In free space (or ignoring obstacles), without map costs and with a maximum arc of more than
four full turns: if *any* covered motion that follows one of the patterns drives from the start to the
goal, `find_path` finds a curve, and that curve costs no more than the motion. -/
theorem findPath_optimal (g g' : Gen) (clamp : ℝ → ℝ) (start goal : Pose) (map : MapIf) (ig : Bool)
    (hE : (g.env clamp map ig).Sane) (hf : (g.env clamp map ig).NoObstacle)
    (hu : g.useMapCost = false) (m : ℝ) (hm : g.maxArc = some m) (hm' : 8 * Real.pi < m)
    (c : Curve) (hc : c ∈ g.curves) (ts : List (Elem × ℝ)) (hel : ts.map Prod.fst = elemsOf c.seq)
    (hcov : Covered (g.radius / map.res) start goal ts)
    (hg : SameConfig (driveAll (g.radius / map.res) start ts) goal)
    (hd : 2 ≤ eucl start.pt goal.pt)
    (hcost : motionCost ⟨g.costF, g.costB, g.costC, g.costS⟩ (g.radius / map.res) ts < 999999)
    (r : Option Curve) (h : g.findPath clamp start goal map ig = .ok (g', r)) :
    ∃ k, r = some k ∧
      k.weight ≤ motionCost ⟨g.costF, g.costB, g.costC, g.costS⟩ (g.radius / map.res) ts := by
  obtain ⟨hfa, hnone, hsome⟩ := findPath_best g g' clamp start goal map ig m hm r h
  obtain ⟨k, hk, ht⟩ := forall₂_mem_left hfa hc
  have hdist : start.distTo goal = eucl start.pt goal.pt := distTo_eq start goal
  obtain ⟨k', hk', w1, w2⟩ := check_optimal hE hf hu { c with start := start, goal := goal } ts hel
    hcov hg (by simp only; rw [hdist]; exact hd) hcost
  have : k = k' := by
    have := ht.symm.trans hk'
    injection this
  subst this
  have helig : Eligible m k := ⟨lt_of_le_of_lt w1 hcost, by linarith⟩
  cases r with
  | none => exact absurd helig (hnone.1 rfl k hk)
  | some j =>
    refine ⟨j, rfl, ?_⟩
    obtain ⟨pre, post, e, _, hpre, hpost⟩ := hsome j rfl
    rw [e] at hk
    rcases List.mem_append.1 hk with h1 | h1
    · exact ((hpre k h1 helig).le).trans w1
    · rcases List.mem_cons.1 h1 with rfl | h1
      · exact w1
      · exact (hpost k h1 helig).trans w1

/-- **C67.** The weight of the curve found in free space is the cost of the motion it describes. -/
theorem findPath_cost (g g' : Gen) (clamp : ℝ → ℝ) (start goal : Pose) (map : MapIf) (ig : Bool)
    (hE : (g.env clamp map ig).Sane) (hf : (g.env clamp map ig).NoObstacle)
    (hu : g.useMapCost = false) (m : ℝ) (hm : g.maxArc = some m) (k : Curve)
    (h : g.findPath clamp start goal map ig = .ok (g', some k)) :
    k.weight = motionCost ⟨g.costF, g.costB, g.costC, g.costS⟩ (g.radius / map.res) (motion k) := by
  obtain ⟨hfa, _, hsome⟩ := findPath_best g g' clamp start goal map ig m hm (some k) h
  obtain ⟨pre, post, e, he, _, _⟩ := hsome k rfl
  have hk : k ∈ g'.curves := by rw [e]; simp
  obtain ⟨c, hc, ht⟩ := forall₂_mem hfa hk
  obtain ⟨w1, w2⟩ := check_weight _ _ _ ht he.1
  rw [w1]
  unfold motionCost motion
  rw [List.map_map]
  congr 1
  apply List.map_congr_left
  intro s hs
  cases s with
  | line l =>
    simp only [Seg.weight, Function.comp, elemOf, amountOf, elemCost]
    rw [Lin.weight_free hE hf hu l, ← factors_ofDir]; rfl
  | circ c =>
    simp only [Seg.weight, Function.comp, elemOf, amountOf, elemCost]
    rw [Circ.weight_free hE hf hu c (w2 c hs).1, ← factors_ofDir, (w2 c hs).1]; rfl

/-- **C67, finding.** A turn-straight-turn pattern whose first and last circle overlap is never found,
although for equal sides a motion exists (see `overlap_motion`). -/
theorem findPath_overlap (g g' : Gen) (clamp : ℝ → ℝ) (start goal : Pose) (map : MapIf) (ig : Bool)
    (hC : ClampSpec clamp) (hr : 0 < g.radius / map.res) (m : ℝ) (hm : g.maxArc = some m)
    (hall : ∀ c ∈ g.curves, ∃ o d d' o' d'', elemsOf c.seq = [.turn o d, .straight d', .turn o' d''] ∧
      eucl (turnCentre (g.radius / map.res) o start) (turnCentre (g.radius / map.res) o' goal) <
        2 * (g.radius / map.res))
    (r : Option Curve) (h : g.findPath clamp start goal map ig = .ok (g', r)) : r = none := by
  obtain ⟨hfa, hnone, hsome⟩ := findPath_best g g' clamp start goal map ig m hm r h
  rw [hnone]
  intro k hk he
  obtain ⟨c, hc, ht⟩ := forall₂_mem hfa hk
  obtain ⟨o, d, d', o', d'', hel, hD⟩ := hall c hc
  unfold Tested at ht
  set E := g.env clamp map ig with hEdef
  have hlen : c.seq.length = 3 := by
    have := congrArg List.length hel; simpa [elemsOf] using this
  by_cases hd : start.distTo goal < 2
  · have : ({ c with start := start, goal := goal } : Curve).check E =
        .ok { c with start := start, goal := goal, weight := NOT_FREE } := by
      unfold Curve.check; rw [if_neg (by simp only; omega), if_pos hd]
    rw [this] at ht; injection ht with ht; subst ht; exact absurd he.1 (lt_irrefl _)
  rcases check_shape E { c with start := start, goal := goal } (by simp only; omega) hd with
    ⟨a, l, b, hs, hc'⟩ | ⟨a, m, b, hs, hc'⟩ | ⟨a, m, n, b, hs, hc'⟩ | ⟨a, s, t, b, hs, _, hc'⟩ | ⟨_, hc'⟩
  · simp only at hs
    rw [hs] at hel
    simp only [elemsOf, List.map, elemOf, List.cons.injEq, Elem.turn.injEq, Elem.straight.injEq,
        and_true] at hel
    obtain ⟨⟨rfl, rfl⟩, rfl, rfl, rfl⟩ := hel
    have hct : commonTangent E (initA E start a) l (initZ E goal b) = none := by
      rw [(commonTangent_join hC (initA E start a) l (initZ E goal b) rfl hr).1]
      have e1 : (initA E start a).center = turnCentre E.radius a.ori start := pairFor_eq E a.ori start
      have e2 : (initZ E goal b).center = turnCentre E.radius b.ori goal := pairFor_eq E b.ori goal
      have e3 : (initA E start a).radius = E.radius := rfl
      have e4 : (initZ E goal b).radius = E.radius := rfl
      rw [e1, e2, e3, e4]
      have : E.radius = g.radius / map.res := rfl
      rw [this]; linarith
    rw [hc'] at ht; injection ht with ht; subst ht
    have := he.1
    simp only at this
    unfold handleCSC at this
    rw [hct] at this
    exact absurd this (lt_irrefl _)
  · simp only at hs; rw [hs] at hel; simp [elemsOf, elemOf] at hel
  · simp only at hs; rw [hs] at hel; simp [elemsOf] at hel
  · simp only at hs; rw [hs] at hel; simp [elemsOf] at hel
  · rw [hc'] at ht; cases ht

/-- A left turn by 90 degrees, a straight of length `s` and another left turn by 90 degrees lead from
the origin to `(0, s + 2r)`, heading backwards. -/
theorem uTurn_motion (r s : ℝ) : SameConfig (driveAll r ⟨0, 0, 0⟩
    [(.turn .left .fwd, Real.pi / 2), (.straight .fwd, s), (.turn .left .fwd, Real.pi / 2)])
    ⟨0, s + 2 * r, Real.pi⟩ := by
  have e : Real.pi / 2 + Real.pi / 2 = Real.pi := by ring
  refine ⟨?_, ?_, 0, ?_⟩ <;> simp [driveAll, Spec.drive, oriSign, dirSign, e] <;> ring

/-- The motion of `uTurn_motion` is covered by `findPath_optimal` if the straight is at least as long as
the diameter. -/
example : Covered 2 ⟨0, 0, 0⟩ ⟨0, 14, Real.pi⟩
    [(.turn .left .fwd, Real.pi / 2), (.straight .fwd, 10), (.turn .left .fwd, Real.pi / 2)] := by
  have hpi := Real.pi_pos
  refine Covered.csc (by linarith) (by norm_num) (by linarith) ?_
  have : eucl (turnCentre 2 .left ⟨0, 0, 0⟩) (turnCentre 2 .left ⟨0, 14, Real.pi⟩) = 10 :=
    eucl_of_diff (u := 0) (w := 1) (by norm_num) (by simp [turnCentre, oriSign])
      (by simp [turnCentre, oriSign]; norm_num) (by norm_num)
  rw [this]; norm_num

/-- **C67, finding.** With the default radius of 2 cells: a motion with the pattern `LSL` leads from the
origin to `(0, 7, π)`, but the generator never finds a curve with this pattern, because the two turning
circles overlap. -/
theorem overlap_motion (g' : Gen) (clamp : ℝ → ℝ) (hC : ClampSpec clamp) (m : ℝ) (r : Option Curve) :
    SameConfig (driveAll 2 ⟨0, 0, 0⟩
      [(.turn .left .fwd, Real.pi / 2), (.straight .fwd, 3), (.turn .left .fwd, Real.pi / 2)])
      ⟨0, 7, Real.pi⟩ ∧
    ∀ g, Gen.parse { maxArc := some m } "LSL".toList = .ok (false, g) →
      g.findPath clamp ⟨0, 0, 0⟩ ⟨0, 7, Real.pi⟩ freeMap false = .ok (g', r) → r = none := by
  constructor
  · have := uTurn_motion 2 3; norm_num at this ⊢; exact this
  · intro g hg h
    have e : Gen.parse { maxArc := some m } "LSL".toList = .ok (false, { maxArc := some m, curves :=
      [{ seq := [.circ (Circ.new .left .fwd), .line (Lin.new .fwd), .circ (Circ.new .left .fwd)] }] }) := rfl
    rw [e] at hg
    simp only [CRes.ok.injEq, Prod.mk.injEq, true_and] at hg
    subst hg
    refine findPath_overlap _ g' clamp _ _ freeMap false hC (by simp [freeMap]) m rfl ?_ r h
    intro c hc
    simp only [List.mem_singleton] at hc
    subst hc
    refine ⟨.left, .fwd, .fwd, .left, .fwd, rfl, ?_⟩
    have : eucl (turnCentre ((2 : ℝ) / freeMap.res) .left ⟨0, 0, 0⟩)
        (turnCentre ((2 : ℝ) / freeMap.res) .left ⟨0, 7, Real.pi⟩) = 3 :=
      eucl_of_diff (u := 0) (w := 1) (by norm_num) (by simp [turnCentre, oriSign])
        (by simp [turnCentre, oriSign, freeMap]; norm_num) (by norm_num)
    simp only
    rw [this]; simp [freeMap]; norm_num

/-- **C49.** A curve counts as valid exactly if its weight is at least 0.001 and below the collision
value. -/
theorem Curve.isValid_iff (c : Curve) : c.isValid = true ↔ 1 / 1000 ≤ c.weight ∧ c.weight < 999999 := by
  unfold Curve.isValid
  by_cases h : c.weight < 1 / 1000
  · rw [if_pos h]; simp only [Bool.false_eq_true, false_iff, not_and]; intro h'; linarith
  · rw [if_neg h]; push Not at h; rw [decide_eq_true_iff]; exact ⟨fun h' => ⟨h, h'⟩, fun h' => h'.2⟩

end PathPlanning.RS
