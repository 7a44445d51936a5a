import Verif.Props.RSIter
import Verif.Props.RSFree
import Verif.Props.RSOpt4
import Verif.Props.Vec

/-!
# C113 — the weight of a found curve is the cost of driving it
-/

namespace PathPlanning.RS

open Spec

/-- Without map costs, a segment that is not blocked weighs what driving it costs. -/
theorem Seg.weight_eq {E : RSEnv} (hm : E.useMapCost = false) (s : Seg) (hr : ∀ k, s = .circ k → k.radius = E.radius)
    (h : s.weight E < NOT_FREE) : s.weight E = elemCost E.factors E.radius (elemOf s, amountOf s) := by
  cases s with
  | line l =>
    have e : (l.start.sub l.stop).distOrigin = eucl l.start.pt l.stop.pt := by
      unfold Pose.distOrigin Pose.sub eucl dist2 Pose.pt
      simp only
      congr 1; ring
    simp only [Seg.weight, Lin.weight] at h ⊢
    simp only [elemOf, amountOf, elemCost, factors_ofDir]
    split_ifs at h ⊢ with h1 h2 h3
    · exact absurd h (lt_irrefl _)
    · exact absurd (h3.symm.trans hm) (by simp)
    · rw [e]; rfl
    · exact absurd h (lt_irrefl _)
  | circ c =>
    have hc := hr c rfl
    simp only [Seg.weight, Circ.weight, Circ.length] at h ⊢
    simp only [elemOf, amountOf, elemCost, factors_ofDir]
    split_ifs at h ⊢ with h1 h2
    · exact absurd (h2.symm.trans hm) (by simp)
    · rw [hc]; rfl
    · exact absurd h (lt_irrefl _)

/-- **C113.**  Without map costs the weight of the curve returned by `find_path` is exactly the cost of the motion it
describes: driven lengths times the factors for the direction and the kind of the segment. -/
theorem findPath_weight (g g' : Gen) (clamp : ℝ → ℝ) (start goal : Pose) (map : MapIf) (ig : Bool)
    (hE : (g.env clamp map ig).Sane) (hm : g.useMapCost = false)
    (k : Curve) (h : g.findPath clamp start goal map ig = .ok (g', some k)) :
    k.weight = motionCost ⟨g.costF, g.costB, g.costC, g.costS⟩ (g.radius / map.res) (motion k) := by
  cases hma : g.maxArc with
  | none => exact absurd (findPath_needs_maxArc g g' clamp start goal map ig hma _ h) (by simp)
  | some m =>
    obtain ⟨hf, _, hb⟩ := findPath_best g g' clamp start goal map ig m hma _ h
    obtain ⟨pre, post, e, he, _⟩ := hb k rfl
    obtain ⟨c, hc, ht⟩ := forall₂_mem hf (b := k) (by rw [e]; simp)
    obtain ⟨w1, w2⟩ := check_weight _ _ k ht he.1
    rw [w1]
    unfold motionCost motion
    rw [List.map_map]
    congr 1
    refine List.map_congr_left fun s hs => ?_
    have hle := mem_le_sum (Seg.weight (g.env clamp map ig)) k.seq
      (fun a ha => Seg.weight_nonneg' hE (fun q hq => (w2 q hq).1) ha) s hs
    refine Seg.weight_eq (E := g.env clamp map ig) hm s (fun q hq => (w2 q (by rw [← hq]; exact hs)).1) ?_
    rw [← w1] at hle
    exact lt_of_le_of_lt hle he.1

/-- The length of one element of a motion. -/
def elemLen (r : ℝ) : Elem × ℝ → ℝ
  | (.straight _, a) => a
  | (.turn _ _, a) => a * r

/-- The end of an element is at most its length away. -/
theorem drive_dist {r : ℝ} (hr : 0 ≤ r) (q : Pose) (e : Elem) {a : ℝ} (ha : 0 ≤ a) :
    q.distTo (drive r q e a) ≤ elemLen r (e, a) := by
  unfold Pose.distTo
  simp only
  cases e with
  | straight d =>
    have hd : dirSign d ^ 2 = 1 := by cases d <;> simp [dirSign]
    apply Real.sqrt_le_iff.2 ⟨ha, ?_⟩
    simp only [drive]
    have e : (q.x - (q.x + dirSign d * a * Real.cos q.theta)) * (q.x - (q.x + dirSign d * a * Real.cos q.theta)) +
        (q.y - (q.y + dirSign d * a * Real.sin q.theta)) * (q.y - (q.y + dirSign d * a * Real.sin q.theta)) =
        dirSign d ^ 2 * a ^ 2 * (Real.sin q.theta ^ 2 + Real.cos q.theta ^ 2) := by ring
    rw [e, hd, Real.sin_sq_add_cos_sq]
    simp [elemLen]
  | turn o d =>
    have ho : oriSign o ^ 2 = 1 := by cases o <;> simp [oriSign]
    have hd : dirSign d ^ 2 = 1 := by cases d <;> simp [dirSign]
    apply Real.sqrt_le_iff.2 ⟨mul_nonneg ha hr, ?_⟩
    simp only [drive]
    obtain ⟨b, hb⟩ : ∃ b, b = oriSign o * dirSign d * a := ⟨_, rfl⟩
    have hb2 : b ^ 2 = a ^ 2 := by
      rw [hb]
      calc (oriSign o * dirSign d * a) ^ 2 = oriSign o ^ 2 * dirSign d ^ 2 * a ^ 2 := by ring
        _ = a ^ 2 := by rw [ho, hd]; ring
    rw [← hb]
    have hcos := Real.one_sub_sq_div_two_le_cos (x := b)
    have hid : (Real.sin (q.theta + b) - Real.sin q.theta) ^ 2 + (Real.cos (q.theta + b) - Real.cos q.theta) ^ 2 =
        2 - 2 * Real.cos b := by
      have e : Real.cos b = Real.cos (q.theta + b) * Real.cos q.theta + Real.sin (q.theta + b) * Real.sin q.theta := by
        rw [← Real.cos_sub]; congr 1; ring
      rw [e]
      nlinarith [Real.sin_sq_add_cos_sq (q.theta + b), Real.sin_sq_add_cos_sq q.theta]
    have h1 : 2 - 2 * Real.cos b ≤ a ^ 2 := by rw [← hb2]; linarith
    calc _ = oriSign o ^ 2 * r ^ 2 * ((Real.sin (q.theta + b) - Real.sin q.theta) ^ 2 +
          (Real.cos (q.theta + b) - Real.cos q.theta) ^ 2) := by ring
      _ = r ^ 2 * (2 - 2 * Real.cos b) := by rw [ho, hid]; ring
      _ ≤ r ^ 2 * a ^ 2 := mul_le_mul_of_nonneg_left h1 (sq_nonneg r)
      _ = (a * r) ^ 2 := by ring

theorem driveAll_dist {r : ℝ} (hr : 0 ≤ r) (l : List (Elem × ℝ)) : ∀ q : Pose, (∀ e ∈ l, 0 ≤ e.2) →
    q.distTo (driveAll r q l) ≤ (l.map (elemLen r)).sum := by
  induction l with
  | nil => intro q _; simp [driveAll, Pose.distTo]
  | cons e l ih =>
    intro q h
    have h1 := drive_dist hr q e.1 (h e (by simp))
    have h2 := ih (drive r q e.1 e.2) fun x hx => h x (List.mem_cons_of_mem _ hx)
    have h3 := (distTo_metric q (drive r q e.1 e.2) (driveAll r q (e :: l))).2.2.2
    rw [List.map_cons, List.sum_cons]
    simp only [driveAll] at h3 ⊢
    linarith

/-- **C113.**  If every metre costs at least `μ`, the curve returned by `find_path` costs at least `μ` times the distance of
`start` and `goal`, and never less than `2 μ`. -/
theorem findPath_weight_ge (g g' : Gen) (clamp : ℝ → ℝ) (start goal : Pose) (map : MapIf) (ig : Bool)
    (hE : (g.env clamp map ig).Sane) (halt : ∀ c ∈ g.curves, Alternating (elemsOf c.seq)) (hm : g.useMapCost = false)
    {μ : ℝ} (hμ : 0 ≤ μ) (h1 : μ ≤ g.costF * g.costC) (h2 : μ ≤ g.costF * g.costS) (h3 : μ ≤ g.costB * g.costC)
    (h4 : μ ≤ g.costB * g.costS)
    (k : Curve) (h : g.findPath clamp start goal map ig = .ok (g', some k)) :
    μ * start.distTo goal ≤ k.weight ∧ 2 * μ ≤ k.weight := by
  have hr : 0 ≤ g.radius / map.res := by have : 1 ≤ g.radius / map.res := hE.radius; linarith
  obtain ⟨-, -, -, hpos, hend⟩ := findPath_motion g g' clamp hE.clamp start goal map ig
    (lt_of_lt_of_le one_pos hE.radius) halt k h
  have hw := findPath_weight g g' clamp start goal map ig hE hm k h
  have hd := driveAll_dist hr (motion k) start hpos
  have hdist : start.distTo (driveAll (g.radius / map.res) start (motion k)) = start.distTo goal := by
    unfold Pose.distTo
    rw [hend.1, hend.2.1]
  rw [hdist] at hd
  have hsum : ∀ l : List (Elem × ℝ), (∀ e ∈ l, 0 ≤ e.2) → μ * (l.map (elemLen (g.radius / map.res))).sum ≤
      motionCost ⟨g.costF, g.costB, g.costC, g.costS⟩ (g.radius / map.res) l := by
    intro l
    induction l with
    | nil => intro _; simp [motionCost]
    | cons e l ih =>
      intro hp
      have hi := ih fun x hx => hp x (List.mem_cons_of_mem _ hx)
      have he := hp e (by simp)
      unfold motionCost at hi ⊢
      rw [List.map_cons, List.sum_cons, List.map_cons, List.sum_cons, mul_add]
      refine add_le_add ?_ hi
      obtain ⟨e, a⟩ := e
      simp only at he
      cases e with
      | straight d =>
        cases d <;> simp only [elemLen, elemCost, CostFactors.ofDir] <;> nlinarith
      | turn o d =>
        have hra : 0 ≤ a * (g.radius / map.res) := mul_nonneg he hr
        cases d <;> simp only [elemLen, elemCost, CostFactors.ofDir]
        · calc μ * (a * (g.radius / map.res)) ≤ g.costF * g.costC * (a * (g.radius / map.res)) :=
                mul_le_mul_of_nonneg_right h1 hra
            _ = _ := by ring
        · calc μ * (a * (g.radius / map.res)) ≤ g.costB * g.costC * (a * (g.radius / map.res)) :=
                mul_le_mul_of_nonneg_right h3 hra
            _ = _ := by ring
  have h5 : μ * start.distTo goal ≤ k.weight := by
    rw [hw]
    exact le_trans (mul_le_mul_of_nonneg_left hd hμ) (hsum _ hpos)
  refine ⟨h5, ?_⟩
  have h2d : 2 ≤ start.distTo goal := by
    by_contra hc
    cases hma : g.maxArc with
    | none => exact absurd (findPath_needs_maxArc g g' clamp start goal map ig hma _ h) (by simp)
    | some m =>
      obtain ⟨hf, _, hb⟩ := findPath_best g g' clamp start goal map ig m hma _ h
      obtain ⟨pre, post, e, he, _⟩ := hb k rfl
      obtain ⟨c, hc', ht⟩ := forall₂_mem hf (b := k) (by rw [e]; simp)
      have := check_rejects (g.env clamp map ig) { c with start := start, goal := goal } (Or.inl (not_le.1 hc))
      unfold Tested at ht
      rw [this] at ht
      injection ht with ht
      rw [← ht] at he
      exact lt_irrefl _ he.1
  nlinarith

/-- **C113 (a found curve is valid).**  With cost factors whose products are at least `1/2000` the curve returned is one
`is_valid()` accepts. -/
theorem findPath_valid (g g' : Gen) (clamp : ℝ → ℝ) (start goal : Pose) (map : MapIf) (ig : Bool)
    (hE : (g.env clamp map ig).Sane) (halt : ∀ c ∈ g.curves, Alternating (elemsOf c.seq)) (hm : g.useMapCost = false)
    (h1 : 1 / 2000 ≤ g.costF * g.costC) (h2 : 1 / 2000 ≤ g.costF * g.costS) (h3 : 1 / 2000 ≤ g.costB * g.costC)
    (h4 : 1 / 2000 ≤ g.costB * g.costS)
    (k : Curve) (h : g.findPath clamp start goal map ig = .ok (g', some k)) : k.isValid = true := by
  have hge := (findPath_weight_ge g g' clamp start goal map ig hE halt hm (by norm_num) h1 h2 h3 h4 k h).2
  cases hma : g.maxArc with
  | none => exact absurd (findPath_needs_maxArc g g' clamp start goal map ig hma _ h) (by simp)
  | some m =>
    obtain ⟨_, _, hb⟩ := findPath_best g g' clamp start goal map ig m hma _ h
    obtain ⟨pre, post, e, he, _⟩ := hb k rfl
    unfold Curve.isValid
    rw [if_neg (by linarith)]
    simpa using he.1

/-- **C113, finding.**  A found curve may be one `is_valid()` rejects: with a driving cost of zero its weight is `0`. -/
theorem findPath_free_of_charge (g g' : Gen) (clamp : ℝ → ℝ) (start goal : Pose) (map : MapIf) (ig : Bool)
    (hE : (g.env clamp map ig).Sane) (hm : g.useMapCost = false) (hF : g.costF = 0) (hB : g.costB = 0)
    (k : Curve) (h : g.findPath clamp start goal map ig = .ok (g', some k)) : k.weight = 0 ∧ k.isValid = false := by
  have hw := findPath_weight g g' clamp start goal map ig hE hm k h
  have : k.weight = 0 := by
    rw [hw]
    unfold motionCost
    apply List.sum_eq_zero
    intro x hx
    obtain ⟨⟨e, a⟩, -, rfl⟩ := List.mem_map.1 hx
    cases e with
    | straight d => cases d <;> simp [elemCost, CostFactors.ofDir, hF, hB]
    | turn o d => cases d <;> simp [elemCost, CostFactors.ofDir, hF, hB]
  refine ⟨this, ?_⟩
  unfold Curve.isValid
  rw [if_pos (by rw [this]; norm_num)]

/-- **Concrete case.**  The example run returns a valid curve that costs at least the distance of 10 cells. -/
theorem findPath_valid_example : ∃ (clamp : ℝ → ℝ) (g g' : Gen) (k : Curve),
    (g.env clamp freeMap false).Sane ∧ (∀ c ∈ g.curves, Alternating (elemsOf c.seq)) ∧
    g.findPath clamp ⟨0, 0, 0⟩ ⟨10, 0, 0⟩ freeMap false = .ok (g', some k) ∧ k.isValid = true ∧ 10 ≤ k.weight := by
  obtain ⟨clamp, g, g', k, hp, hE, halt, h⟩ := findPath_example
  have hg : g.useMapCost = false ∧ g.costF = 1 ∧ g.costB = 1 ∧ g.costC = 1 ∧ g.costS = 1 := by
    unfold Gen.parse at hp
    split at hp
    · cases hp
    · injection hp with hp; injection hp with hp1 hp2; cases hp1
    · split_ifs at hp
      · injection hp with hp; injection hp with hp1 hp2; cases hp1
      injection hp with hp; injection hp with hp1 hp2
      subst hp2; exact ⟨rfl, rfl, rfl, rfl, rfl⟩
  obtain ⟨e0, e1, e2, e3, e4⟩ := hg
  refine ⟨clamp, g, g', k, hE, halt, h, ?_, ?_⟩
  · exact findPath_valid g g' clamp _ _ _ _ hE halt e0 (by rw [e1, e3]; norm_num) (by rw [e1, e4]; norm_num)
      (by rw [e2, e3]; norm_num) (by rw [e2, e4]; norm_num) k h
  · have := (findPath_weight_ge g g' clamp _ _ _ _ hE halt e0 (μ := 1) (by norm_num) (by rw [e1, e3]; norm_num)
      (by rw [e1, e4]; norm_num) (by rw [e2, e3]; norm_num) (by rw [e2, e4]; norm_num) k h).1
    have hd : (⟨0, 0, 0⟩ : Pose).distTo ⟨10, 0, 0⟩ = 10 := by
      unfold Pose.distTo
      simp only
      rw [show ((0 : ℝ) - 10) * (0 - 10) + (0 - 0) * (0 - 0) = 10 ^ 2 by norm_num]
      exact Real.sqrt_sq (by norm_num)
    rw [hd] at this
    linarith

end PathPlanning.RS
