import Verif.Spec.MotionPrice
import Verif.Props.RSMotionClear
import Verif.Props.RSCost
import Verif.Props.RSBox

/-!
# C113 — the weight of a found curve with map costs
-/

noncomputable section

namespace PathPlanning.RS

open Spec

/-- The direction of a cell is passed by the arc of a segment iff it is passed by the car driving the turn from where it is. -/
theorem arcPasses_iff {E : RSEnv} (hE : E.Sane) {q : Pose} {k : Circ} (ht : OnTrack E q (.circ k)) (x y : Int) :
    ArcPasses k.aStart k.arc ((x - truncC k.center.x : Int) : ℝ) ((y - truncC k.center.y : Int) : ℝ) ↔
      TurnPasses E.radius q k.ori k.dir |k.arc| (x, y) := by
  obtain ⟨hr, hfit, hq⟩ := ht
  have hz : turnCentre E.radius k.ori q = k.center := by
    rw [turnCentre_same hq, ← hr, turnCentre_confAt]
  have hpos : 0 < k.radius := by rw [hr]; exact lt_of_lt_of_le one_pos hE.radius
  have harc : k.arc = oriSign k.ori * dirSign k.dir * |k.arc| := by
    rw [hfit.1]; exact (computeArc_signed hE.clamp k).1
  have hpose : ∀ s : ℝ, (drive E.radius q (.turn k.ori k.dir) s).x - k.center.x =
        k.radius * Real.cos (k.aStart + oriSign k.ori * dirSign k.dir * s) ∧
      (drive E.radius q (.turn k.ori k.dir) s).y - k.center.y =
        k.radius * Real.sin (k.aStart + oriSign k.ori * dirSign k.dir * s) := by
    intro s
    have hP := hq.drive E.radius (.turn k.ori k.dir) s
    have e3 : drive E.radius (k.confAt k.aStart) (.turn k.ori k.dir) s =
        k.confAt (k.aStart + oriSign k.ori * dirSign k.dir * s) := by
      rw [← hr]; exact k.drive_confAt _ _
    rw [e3] at hP
    obtain ⟨px, py, _⟩ := hP
    rw [px, py]
    simp only [Circ.confAt]
    constructor <;> ring
  unfold TurnPasses ArcPasses
  rw [hz]
  constructor
  · rintro ⟨t, t0, t1, d, hd, e1, e2⟩
    have hs : oriSign k.ori * dirSign k.dir * (t * |k.arc|) = t * k.arc := by
      conv_rhs => rw [harc]
      ring
    obtain ⟨p1, p2⟩ := hpose (t * |k.arc|)
    refine ⟨t * |k.arc|, d / k.radius, mul_nonneg t0 (abs_nonneg _), ?_, div_pos hd hpos, ?_, ?_⟩
    · nlinarith [abs_nonneg k.arc]
    · rw [p1, hs]; simp only; rw [e1]; field_simp
    · rw [p2, hs]; simp only; rw [e2]; field_simp
  · rintro ⟨s, ρ, s0, s1, hρ, e1, e2⟩
    have key : ∃ t, 0 ≤ t ∧ t ≤ 1 ∧ t * k.arc = oriSign k.ori * dirSign k.dir * s := by
      rcases eq_or_lt_of_le (abs_nonneg k.arc) with h | h
      · have : s = 0 := le_antisymm (by linarith) s0
        refine ⟨0, le_rfl, zero_le_one, ?_⟩
        rw [this]; ring
      · refine ⟨s / |k.arc|, div_nonneg s0 h.le, (div_le_one h).2 s1, ?_⟩
        rw [div_mul_eq_mul_div, div_eq_iff h.ne']
        conv_lhs => rw [harc]
        ring
    obtain ⟨t, t0, t1, te⟩ := key
    obtain ⟨p1, p2⟩ := hpose s
    refine ⟨t, t0, t1, ρ * k.radius, mul_pos hρ hpos, ?_, ?_⟩
    · rw [te]; simp only at e1; rw [e1, p1]; ring
    · rw [te]; simp only at e2; rw [e2, p2]; ring

/-- With map costs, a segment that is not blocked weighs what its cells cost. -/
theorem Seg.weight_price {E : RSEnv} (hE : E.Sane) (hm : E.useMapCost = true) {q : Pose} {s : Seg} (ht : OnTrack E q s)
    (h : s.weight E < NOT_FREE) : ∃ cells, PaidCells E.map E.radius q (elemOf s) (amountOf s) cells ∧
      s.weight E = elemFactor E.factors (elemOf s) * cellsPrice E.map E.minCell cells / E.map.res := by
  cases s with
  | line l =>
    obtain ⟨a1, a2, a3, a4, _⟩ := ht
    have ex : (drive E.radius q (.straight l.dir) (amountOf (.line l))).x = l.stop.x := by
      simp only [Spec.drive, amountOf]; rw [← a1]; linear_combination -a3
    have ey : (drive E.radius q (.straight l.dir) (amountOf (.line l))).y = l.stop.y := by
      simp only [Spec.drive, amountOf]; rw [← a2]; linear_combination -a4
    obtain ⟨cells, hd, hs⟩ := lineCheck_spec (truncC l.start.x) (truncC l.start.y) (truncC l.stop.x) (truncC l.stop.y)
    obtain ⟨r, e, h4, h5⟩ := hs E
    refine ⟨cells.filter fun c => E.map.inMap c.1 c.2, ?_, ?_⟩
    · refine PaidCells.straight ?_
      rw [ex, ey, ← a1, ← a2]
      exact hd
    · simp only [Seg.weight, Lin.weight, e, Option.getD_some, hm, if_true] at h ⊢
      split_ifs at h ⊢ with h1 h2
      · exact absurd h (lt_irrefl _)
      · have hr : r.1 = true := by
          simp only [Bool.or_eq_true] at h2
          rcases h2 with h2 | h2
          · exact h4.2 (Or.inl h2)
          · exact h2
        rw [h5 hr]
        simp only [elemOf, elemFactor, factors_ofDir, cellsPrice]; simp only [RSEnv.factors]
        ring
      · exact absurd h (lt_irrefl _)
  | circ k =>
    have hr := ht.1
    have h1 : 1 ≤ truncC k.radius := by rw [hr]; exact truncC_of_one_le hE.radius
    have hz : turnCentre E.radius k.ori q = k.center := by
      rw [turnCentre_same ht.2.2, ← hr, turnCentre_confAt]
    obtain ⟨cells, hn, hmem, hs⟩ := checkCircle_spec (truncC k.center.x) (truncC k.center.y) (truncC k.radius) h1
    obtain ⟨r, e, h4, h5⟩ := hs E k
    refine ⟨cells.filter fun p => E.map.inMap p.1 p.2 && k.onSegment E (truncC k.center.x) (truncC k.center.y) p.1 p.2, ?_, ?_⟩
    · refine PaidCells.turn (hn.filter _) ?_
      intro c
      rw [List.mem_filter, hmem, hz, ← hr, Bool.and_eq_true]
      refine and_congr_right fun hring => and_congr_right fun _ => ?_
      rw [onSegment_iff hE.clamp hE.open' ht.2.1 (by rw [hr]; linarith [hE.radius]) hE.maxDist _ _ _ _
        (ringCell_ne_center hE h1 hring), hr]
      exact arcPasses_iff hE ht c.1 c.2
    · simp only [Seg.weight, Circ.weight, e, Option.getD_some, hm, if_true] at h ⊢
      split_ifs at h ⊢ with h2
      · rw [h5]
        simp only [elemOf, elemFactor, factors_ofDir, cellsPrice]; simp only [RSEnv.factors]
        ring
      · exact absurd h (lt_irrefl _)

theorem price_of_track {E : RSEnv} (hE : E.Sane) (hm : E.useMapCost = true) {goal : Pose} : ∀ {l : List Seg} {q : Pose},
    Track E q l goal → (∀ s ∈ l, s.weight E < NOT_FREE) →
      MotionPrice E.map E.factors E.minCell E.radius q (l.map fun s => (elemOf s, amountOf s)) (l.map (Seg.weight E)).sum
  | [], _, _, _ => .nil
  | s :: l, q, h, hw => by
    obtain ⟨cells, h1, h2⟩ := Seg.weight_price hE hm h.1 (hw s (by simp))
    have := price_of_track hE hm h.2 fun s hs => hw s (by simp [hs])
    simp only [List.map_cons, List.sum_cons, h2]
    exact .cons h1 this

/-- **C113 (map costs).**  With map costs the weight of the curve returned by `find_path` is the price of its motion: for every
straight and every turn, where the car is at that time, the cells it leads over, each at least at the minimum price. -/
theorem findPath_mapWeight (g g' : Gen) (clamp : ℝ → ℝ) (start goal : Pose) (map : MapIf) (ig : Bool)
    (hE : (g.env clamp map ig).Sane) (halt : ∀ c ∈ g.curves, Alternating (elemsOf c.seq)) (hm : g.useMapCost = true)
    (k : Curve) (h : g.findPath clamp start goal map ig = .ok (g', some k)) :
    MotionPrice map ⟨g.costF, g.costB, g.costC, g.costS⟩ g.minCell (g.radius / map.res) start (motion k) k.weight := by
  have htr := findPath_track g g' clamp start goal map ig hE halt k h
  cases hma : g.maxArc with
  | none => exact absurd (findPath_needs_maxArc g g' clamp start goal map ig hma _ h) (by simp)
  | some m =>
    obtain ⟨hf, _, hb⟩ := findPath_best g g' clamp start goal map ig m hma _ h
    obtain ⟨pre, post, e, he, _⟩ := hb k rfl
    obtain ⟨c, hc, ht⟩ := forall₂_mem hf (b := k) (by rw [e]; simp)
    obtain ⟨w1, w2⟩ := check_weight _ _ k ht he.1
    rw [w1]
    refine price_of_track (E := g.env clamp map ig) hE hm htr fun s hs => ?_
    have hle := mem_le_sum (Seg.weight (g.env clamp map ig)) k.seq
      (fun a ha => Seg.weight_nonneg' hE (fun q hq => (w2 q hq).1) ha) s hs
    rw [← w1] at hle
    exact lt_of_le_of_lt hle he.1

theorem cellsPrice_mono {map map' : MapIf} {m m' : Nat} (hm : m ≤ m') (hv : ∀ x y, map.value x y ≤ map'.value x y)
    (cells : List (Int × Int)) : cellsPrice map m cells ≤ cellsPrice map' m' cells := by
  unfold cellsPrice
  induction cells with
  | nil => simp
  | cons c cs ih =>
    simp only [List.map_cons, List.sum_cons]
    refine add_le_add ?_ ih
    exact_mod_cast max_le_max hm (hv _ _)

theorem elemFactor_nonneg {k : CostFactors} (h1 : 0 ≤ k.fwd) (h2 : 0 ≤ k.bwd) (h3 : 0 ≤ k.curve) (h4 : 0 ≤ k.straight)
    (e : Elem) : 0 ≤ elemFactor k e := by
  cases e with
  | straight d => cases d <;> simp only [elemFactor, CostFactors.ofDir] <;> positivity
  | turn o d => cases d <;> simp only [elemFactor, CostFactors.ofDir] <;> positivity

/-- **C113 (map costs).**  Dearer cells do not make a motion cheaper. -/
theorem price_mono {map map' : MapIf} {k : CostFactors} {m m' : Nat} {r : ℝ} (hk1 : 0 ≤ k.fwd) (hk2 : 0 ≤ k.bwd)
    (hk3 : 0 ≤ k.curve) (hk4 : 0 ≤ k.straight) (hin : ∀ x y, map.inMap x y = map'.inMap x y) (hres : map.res = map'.res)
    (hpos : 0 < map.res) (hm : m ≤ m') (hv : ∀ x y, map.value x y ≤ map'.value x y) {q : Pose} {ms : List (Elem × ℝ)} {w : ℝ}
    (h : MotionPrice map k m r q ms w) : ∃ w', MotionPrice map' k m' r q ms w' ∧ w ≤ w' := by
  induction h with
  | nil => exact ⟨0, .nil, le_rfl⟩
  | @cons q e a rest cells w hp _ ih =>
    obtain ⟨w', h1, h2⟩ := ih
    have hp' : PaidCells map' r q e a cells := by
      cases hp with
      | @straight d a line hl =>
        have : (line.filter fun c => map.inMap c.1 c.2) = line.filter fun c => map'.inMap c.1 c.2 := by
          congr 1; funext c; exact hin _ _
        rw [this]
        exact .straight hl
      | turn hn hc =>
        refine .turn hn fun c => ?_
        rw [hc c, hin]
    refine ⟨_, .cons hp' h1, add_le_add ?_ h2⟩
    rw [← hres]
    refine div_le_div_of_nonneg_right ?_ hpos.le
    exact mul_le_mul_of_nonneg_left (cellsPrice_mono hm hv _) (elemFactor_nonneg hk1 hk2 hk3 hk4 e)

/-- A straight on a map without borders whose cells all have the value `v`: as many cells as the longer side of the box between
its ends, plus one. -/
theorem price_uniform {map : MapIf} {k : CostFactors} {m v : Nat} {r : ℝ} (hin : ∀ x y, map.inMap x y = true)
    (hv : ∀ x y, map.value x y = v) {q : Pose} {d : Dir} {a w : ℝ} (h : MotionPrice map k m r q [(.straight d, a)] w) :
    w = k.ofDir d * k.straight * ((lineLength (truncC q.x) (truncC q.y) (truncC (drive r q (.straight d) a).x)
      (truncC (drive r q (.straight d) a).y) + 1 : Nat) * (max m v : Nat)) / map.res := by
  cases h with
  | cons hp hr =>
    cases hr
    cases hp with
    | @straight d a line hl =>
      have e : (line.filter fun c => map.inMap c.1 c.2) = line := by
        rw [List.filter_eq_self]; intro c _; exact hin _ _
      have : ∀ cs : List (Int × Int), cellsPrice map m cs = (cs.length : ℝ) * (max m v : Nat) := by
        intro cs
        unfold cellsPrice
        induction cs with
        | nil => simp
        | cons c cs ih => rw [List.map_cons, List.sum_cons, List.length_cons, ih, hv]; push_cast; ring
      rw [e, this, hl.length, add_zero]
      rfl

/-- **C113, finding (map costs).**  The price of a straight is not proportional to its length: driving 10 cells along a row and
driving 10 cells diagonally (1.41 times as far) cost the same, the price of 11 cells. -/
theorem price_diagonal (k : CostFactors) (m : Nat) (r : ℝ) (d : Dir) (hd : d = .fwd) {w w' : ℝ}
    (h : MotionPrice freeMap k m r ⟨0, 0, 0⟩ [(.straight d, 10)] w)
    (h' : MotionPrice freeMap k m r ⟨0, 0, Real.pi / 4⟩ [(.straight d, 10 * Real.sqrt 2)] w') :
    w = k.fwd * k.straight * (11 * m) ∧ w' = w := by
  subst hd
  have t0 : truncC (0 : ℝ) = 0 := by unfold truncC; simp
  have t10 : truncC (10 : ℝ) = 10 := by unfold truncC; rw [if_pos (by norm_num)]; exact Int.floor_ofNat 10
  have e1 := price_uniform (fun _ _ => rfl) (v := 0) (fun _ _ => rfl) h
  have e2 := price_uniform (fun _ _ => rfl) (v := 0) (fun _ _ => rfl) h'
  have hs : Real.sqrt 2 * Real.sqrt 2 = 2 := Real.mul_self_sqrt (by norm_num)
  have d1 : drive r ⟨0, 0, 0⟩ (.straight .fwd) 10 = ⟨10, 0, 0⟩ := by simp [Spec.drive, dirSign]
  have d2x : (drive r ⟨0, 0, Real.pi / 4⟩ (.straight .fwd) (10 * Real.sqrt 2)).x = 10 := by
    simp only [Spec.drive, dirSign, Real.cos_pi_div_four]; nlinarith
  have d2y : (drive r ⟨0, 0, Real.pi / 4⟩ (.straight .fwd) (10 * Real.sqrt 2)).y = 10 := by
    simp only [Spec.drive, dirSign, Real.sin_pi_div_four]; nlinarith
  rw [d1] at e1
  rw [d2x, d2y] at e2
  simp only [t0, t10] at e1 e2
  have l1 : lineLength 0 0 10 0 = 10 := by decide
  have l2 : lineLength 0 0 10 10 = 10 := by decide
  rw [l1] at e1
  rw [l2] at e2
  have hres : freeMap.res = 1 := rfl
  rw [hres] at e1 e2
  have : w = k.fwd * k.straight * (11 * m) := by rw [e1]; simp [CostFactors.ofDir]
  exact ⟨this, by rw [this, e2]; simp [CostFactors.ofDir]⟩

/-! ### Free space -/

theorem ringCell_box {r : Int} (hr : 1 ≤ r) {c p : Int × Int} (h : RingCell r c p) :
    p ∈ Finset.Icc (c.1 - r) (c.1 + r) ×ˢ Finset.Icc (c.2 - r) (c.2 + r) := by
  unfold RingCell at h
  simp only at h
  have e : (max |p.1 - c.1| |p.2 - c.2|) ^ 2 < (r + 1) ^ 2 := by
    nlinarith [sq_nonneg (min |p.1 - c.1| |p.2 - c.2|), h.1]
  have := lt_of_pow_lt_pow_left₀ 2 (by omega) e
  have h1 : |p.1 - c.1| ≤ r := by have := le_max_left |p.1 - c.1| |p.2 - c.2|; omega
  have h2 : |p.2 - c.2| ≤ r := by have := le_max_right |p.1 - c.1| |p.2 - c.2|; omega
  rw [abs_le] at h1 h2
  simp only [Finset.mem_product, Finset.mem_Icc]
  omega

theorem cellsPrice_le {map : MapIf} {m V : Nat} (hm : m ≤ V) (hv : ∀ x y, map.value x y ≤ V) (cells : List (Int × Int)) :
    cellsPrice map m cells ≤ cells.length * V := by
  unfold cellsPrice
  induction cells with
  | nil => simp
  | cons c cs ih =>
    rw [List.map_cons, List.sum_cons, List.length_cons]
    have : ((max m (map.value c.1 c.2) : Nat) : ℝ) ≤ V := by exact_mod_cast max_le hm (hv _ _)
    push_cast at *
    linarith

/-- A ring has at most `(2⌊r⌋+1)²` cells. -/
theorem ring_length {r : Int} (hr : 1 ≤ r) {c : Int × Int} {cells : List (Int × Int)} (hn : cells.Nodup)
    (h : ∀ p ∈ cells, RingCell r c p) : (cells.length : ℝ) ≤ (2 * r + 1) ^ 2 := by
  have h1 := Finset.card_le_card (s := cells.toFinset)
    (t := Finset.Icc (c.1 - r) (c.1 + r) ×ˢ Finset.Icc (c.2 - r) (c.2 + r))
    (fun p hp => ringCell_box hr (h p (List.mem_toFinset.1 hp)))
  rw [List.toFinset_card_of_nodup hn, Finset.card_product, Int.card_Icc, Int.card_Icc] at h1
  have e1 : (c.1 + r + 1 - (c.1 - r)).toNat = (2 * r + 1).toNat := by congr 1; ring
  have e2 : (c.2 + r + 1 - (c.2 - r)).toNat = (2 * r + 1).toNat := by congr 1; ring
  rw [e1, e2] at h1
  have h3 : (((2 * r + 1).toNat : Nat) : ℝ) = 2 * r + 1 := by
    have : (((2 * r + 1).toNat : Nat) : Int) = 2 * r + 1 := Int.toNat_of_nonneg (by omega)
    exact_mod_cast this
  have : (cells.length : ℝ) ≤ ((2 * r + 1).toNat : ℝ) * ((2 * r + 1).toNat : ℝ) := by exact_mod_cast h1
  rw [h3] at this
  linarith [sq (2 * (r : ℝ) + 1)]

/-- A digital line has at most as many cells as its length and three. -/
theorem line_length (a b : P2) : (lineLength (truncC a.x) (truncC a.y) (truncC b.x) (truncC b.y) : ℝ) ≤ eucl a b + 2 := by
  have hx : |b.x - a.x| ≤ eucl a b := by
    unfold eucl dist2
    rw [← Real.sqrt_sq_eq_abs]
    exact Real.sqrt_le_sqrt (by nlinarith [sq_nonneg (a.y - b.y)])
  have hy : |b.y - a.y| ≤ eucl a b := by
    unfold eucl dist2
    rw [← Real.sqrt_sq_eq_abs]
    exact Real.sqrt_le_sqrt (by nlinarith [sq_nonneg (a.x - b.x)])
  have key : ∀ u v : ℝ, ((truncC v - truncC u).natAbs : ℝ) ≤ |v - u| + 2 := by
    intro u v
    rw [Nat.cast_natAbs, Int.cast_abs, Int.cast_sub]
    obtain ⟨u1, u2⟩ := truncC_near u
    obtain ⟨v1, v2⟩ := truncC_near v
    rw [abs_le]
    have := neg_abs_le (v - u)
    have := le_abs_self (v - u)
    constructor <;> linarith
  unfold lineLength
  rw [Nat.cast_max]
  exact max_le ((key _ _).trans (by linarith)) ((key _ _).trans (by linarith))

section
variable {E : RSEnv} (hE : E.Sane) (hf : E.NoObstacle) (hu : E.useMapCost = true) {V : Nat} (hV : E.minCell ≤ V)
  (hv : ∀ x y, E.map.value x y ≤ V)
include hE hf hu hV hv

theorem Lin.weight_free_map (l : Lin) {K : ℝ} (hK : E.dirCost l.dir * E.costS ≤ K) :
    l.weight E ≤ K * ((eucl l.start.pt l.stop.pt + 3) * V) / E.map.res := by
  obtain ⟨cells, hd, hs⟩ := lineCheck_spec (truncC l.start.x) (truncC l.start.y) (truncC l.stop.x) (truncC l.stop.y)
  obtain ⟨r, e, h4, h5⟩ := hs E
  have hr : r.1 = true := h4.2 (hf.imp id fun h p _ _ => (h _ _).2)
  have h1 : (!E.map.inMap (truncC l.start.x) (truncC l.start.y) && !E.ignore) = false := by
    rcases hf with h | h
    · simp [h]
    · simp [(h _ _).1]
  have h0 : 0 ≤ E.dirCost l.dir * E.costS := mul_nonneg (dirCost_nonneg hE _) hE.costS
  have h6 : r.2 ≤ (eucl l.start.pt l.stop.pt + 3) * V := by
    rw [h5 hr]
    refine (cellsPrice_le hV hv _).trans (mul_le_mul_of_nonneg_right ?_ (Nat.cast_nonneg _))
    have h7 : ((cells.filter fun p => E.map.inMap p.1 p.2).length : ℝ) ≤ cells.length := by
      exact_mod_cast List.length_filter_le _ _
    have h8 := line_length l.start.pt l.stop.pt
    rw [hd.length] at h7
    simp only [Pose.pt] at h8 h7 ⊢
    push_cast at h7
    linarith
  have h9 : 0 ≤ r.2 := by
    rw [h5 hr]; exact sum_map_nonneg _ (fun p : Int × Int => max E.minCell (E.map.value p.1 p.2))
  unfold Lin.weight
  simp only
  rw [e]
  simp only [h1, Bool.false_eq_true, if_false, Option.getD_some, hr, Bool.or_true, if_true, hu]
  refine div_le_div_of_nonneg_right ?_ hE.res.le
  calc E.dirCost l.dir * r.2 * E.costS = (E.dirCost l.dir * E.costS) * r.2 := by ring
    _ ≤ K * ((eucl l.start.pt l.stop.pt + 3) * V) := mul_le_mul hK h6 h9 (h0.trans hK)

theorem Circ.weight_free_map (c : Circ) (hr : c.radius = E.radius) {K : ℝ} (hK : E.dirCost c.dir * E.costC ≤ K) :
    c.weight E ≤ K * ((2 * E.radius + 1) ^ 2 * V) / E.map.res := by
  have h1 : 1 ≤ truncC c.radius := by rw [hr]; exact truncC_of_one_le hE.radius
  obtain ⟨cells, hn, hmem, hs⟩ := checkCircle_spec (truncC c.center.x) (truncC c.center.y) (truncC c.radius) h1
  obtain ⟨r, e, h4, h5⟩ := hs E c
  have h0 : 0 ≤ E.dirCost c.dir * E.costC := mul_nonneg (dirCost_nonneg hE _) hE.costC
  have hr' : (E.ignore || r.1) = true := by
    rcases hf with h | h
    · simp [h]
    · have := h4.2 fun p _ => ⟨(h _ _).1, fun _ => Or.inr (h _ _).2⟩
      simp [this]
  have hfl : ((truncC c.radius : Int) : ℝ) ≤ E.radius := by
    rw [hr]
    unfold truncC
    rw [if_pos (by linarith [hE.radius])]
    exact Int.floor_le _
  have h6 : r.2 ≤ (2 * E.radius + 1) ^ 2 * V := by
    rw [h5]
    refine (cellsPrice_le hV hv _).trans (mul_le_mul_of_nonneg_right ?_ (Nat.cast_nonneg _))
    have := ring_length h1 (hn.filter (fun p => E.map.inMap p.1 p.2 &&
      c.onSegment E (truncC c.center.x) (truncC c.center.y) p.1 p.2))
      (fun p hp => (hmem p).1 (List.mem_filter.1 hp).1)
    refine this.trans ?_
    have h1' : (1 : ℝ) ≤ (truncC c.radius : Int) := by exact_mod_cast h1
    exact pow_le_pow_left₀ (by linarith) (by linarith) 2
  have h9 : 0 ≤ r.2 := by
    rw [h5]; exact sum_map_nonneg _ (fun p : Int × Int => max E.minCell (E.map.value p.1 p.2))
  unfold Circ.weight
  rw [e]
  simp only [Option.getD_some, hr', if_true, hu]
  refine div_le_div_of_nonneg_right ?_ hE.res.le
  calc E.dirCost c.dir * r.2 * E.costC = (E.dirCost c.dir * E.costC) * r.2 := by ring
    _ ≤ K * ((2 * E.radius + 1) ^ 2 * V) := mul_le_mul hK h6 h9 (h0.trans hK)

/-- The test of a turn-straight-turn curve in free space, with map costs. -/
theorem check_csc_free_map (c : Curve) {a b : Circ} {l : Lin} (hs : c.seq = [.circ a, .line l, .circ b])
    (hd : 2 ≤ c.start.distTo c.goal)
    (hc : 2 * E.radius ≤ eucl (pairFor E a.ori c.start) (pairFor E b.ori c.goal))
    {K : ℝ} (hK : ∀ d, E.dirCost d * E.costC ≤ K ∧ E.dirCost d * E.costS ≤ K) :
    ∃ c', c.check E = .ok c' ∧ c'.curveArc ≤ 4 * Real.pi ∧
      c'.weight ≤ K * ((2 * (2 * E.radius + 1) ^ 2 + 2 * E.radius + 3 +
        eucl (pairFor E a.ori c.start) (pairFor E b.ori c.goal)) * V) / E.map.res := by
  have hrad := hE.radius
  have hr0 : 0 < E.radius := by linarith
  have h3 : ¬ (c.seq.length < 3 ∨ c.seq.length > 4) := by rw [hs]; simp
  rcases check_shape E c h3 (by linarith) with ⟨a', l', b', hs', hc'⟩ | ⟨a', m, b', hs', hc'⟩ |
    ⟨a', m, n, b', hs', hc'⟩ | ⟨a', s, t, b', hs', _, hc'⟩ | ⟨hbad, _⟩
  · rw [hs] at hs'
    simp only [List.cons.injEq, Seg.circ.injEq, Seg.line.injEq, and_true] at hs'
    obtain ⟨rfl, rfl, rfl⟩ := hs'
    refine ⟨_, hc', ?_⟩
    simp only [Curve.curveArc]
    unfold handleCSC
    obtain ⟨j1, j2⟩ := commonTangent_join hE.clamp (initA E c.start a) l (initZ E c.goal b) rfl hr0
    cases hct : commonTangent E (initA E c.start a) l (initZ E c.goal b) with
    | none =>
      exfalso
      have := j1.1 hct
      have e1 : (initA E c.start a).center = pairFor E a.ori c.start := rfl
      have e2 : (initZ E c.goal b).center = pairFor E b.ori c.goal := rfl
      have e3 : (initA E c.start a).radius = E.radius := rfl
      have e4 : (initZ E c.goal b).radius = E.radius := rfl
      rw [e1, e2, e3, e4] at this
      linarith
    | some r =>
      obtain ⟨x, y, z⟩ := r
      have hj := j2 x y z hct
      obtain ⟨kS, kE, _, fa, fb, _⟩ := commonTangent_keep hct
      have rx : x.radius = E.radius := kS.radius
      have rz : z.radius = E.radius := kE.radius
      have cx : x.center = pairFor E a.ori c.start := kS.center
      have cz : z.center = pairFor E b.ori c.goal := kE.center
      have hax : |x.arc| ≤ 2 * Real.pi := by rw [fa.1]; exact (computeArc_signed hE.clamp x).2
      have haz : |z.arc| ≤ 2 * Real.pi := by rw [fb.1]; exact (computeArc_signed hE.clamp z).2
      constructor
      · simp only [List.foldl]; linarith
      · simp only
        have w1 := Circ.weight_free_map hE hf hu hV hv x rx (hK x.dir).1
        have w3 := Circ.weight_free_map hE hf hu hV hv z rz (hK z.dir).1
        have w2 := Lin.weight_free_map hE hf hu hV hv y (hK y.dir).2
        have hlen : eucl y.start.pt y.stop.pt ≤ 2 * E.radius +
            eucl (pairFor E a.ori c.start) (pairFor E b.ori c.goal) := by
          rw [hj.startPt, hj.stopPt]
          have t1 := eucl_triangle x.endPoint x.center z.startPoint
          have t2 := eucl_triangle x.center z.center z.startPoint
          have u1 : eucl x.center x.endPoint = E.radius := by
            rw [← rx]; exact eucl_polar _ _ _ (by rw [rx]; linarith)
          have u2 : eucl z.center z.startPoint = E.radius := by
            rw [← rz]; exact eucl_polar _ _ _ (by rw [rz]; linarith)
          rw [eucl_comm x.endPoint x.center, u1] at t1
          rw [u2] at t2
          rw [cx] at t1 t2; rw [cz] at t2
          linarith
        have hK0 : 0 ≤ K := (mul_nonneg (dirCost_nonneg hE .fwd) hE.costC).trans (hK .fwd).1
        have w2' : K * ((eucl y.start.pt y.stop.pt + 3) * V) / E.map.res ≤ K * ((2 * E.radius +
            eucl (pairFor E a.ori c.start) (pairFor E b.ori c.goal) + 3) * V) / E.map.res := by
          refine div_le_div_of_nonneg_right (mul_le_mul_of_nonneg_left ?_ hK0) hE.res.le
          exact mul_le_mul_of_nonneg_right (by linarith) (Nat.cast_nonneg _)
        have e : K * ((2 * (2 * E.radius + 1) ^ 2 + 2 * E.radius + 3 +
            eucl (pairFor E a.ori c.start) (pairFor E b.ori c.goal)) * V) / E.map.res =
            K * ((2 * E.radius + 1) ^ 2 * V) / E.map.res + K * ((2 * E.radius +
            eucl (pairFor E a.ori c.start) (pairFor E b.ori c.goal) + 3) * V) / E.map.res +
            K * ((2 * E.radius + 1) ^ 2 * V) / E.map.res := by ring
        rw [e]
        linarith
  · rw [hs] at hs'; simp at hs'
  · rw [hs] at hs'; simp at hs'
  · rw [hs] at hs'; simp at hs'
  · rcases hbad with ⟨l', r, h⟩ | ⟨p, l', h⟩
    · rw [hs] at h; simp at h
    · rw [hs] at h
      have := congrArg List.getLast? h
      simp at this

end

/-- **C61 (map costs).**  Also with map costs a turn-straight-turn pattern is found in free space, if the price of the cells of
two rings and of the straight keeps below the collision threshold. -/
theorem findPath_free_space_map (g g' : Gen) (clamp : ℝ → ℝ) (start goal : Pose) (map : MapIf) (ig : Bool)
    (hE : (g.env clamp map ig).Sane) (hf : (g.env clamp map ig).NoObstacle)
    (hu : g.useMapCost = true) {V : Nat} (hV : g.minCell ≤ V) (hv : ∀ x y, map.value x y ≤ V)
    (m : ℝ) (hm : g.maxArc = some m) (hm' : 4 * Real.pi < m)
    (c : Curve) (hc : c ∈ g.curves) (o o' : Ori) (d d' d'' : Dir)
    (hel : elemsOf c.seq = [.turn o d, .straight d', .turn o' d''])
    (hd : 2 ≤ start.distTo goal)
    (hcen : 2 * (g.radius / map.res) ≤ eucl (turnCentre (g.radius / map.res) o start) (turnCentre (g.radius / map.res) o' goal))
    (K : ℝ) (hK : g.costF * g.costC ≤ K ∧ g.costF * g.costS ≤ K ∧ g.costB * g.costC ≤ K ∧ g.costB * g.costS ≤ K)
    (hlim : K * ((2 * (2 * (g.radius / map.res) + 1) ^ 2 + 2 * (g.radius / map.res) + 3 +
      eucl (turnCentre (g.radius / map.res) o start) (turnCentre (g.radius / map.res) o' goal)) * V) / map.res < NOT_FREE)
    (r : Option Curve) (h : g.findPath clamp start goal map ig = .ok (g', r)) : r ≠ none := by
  obtain ⟨hfa, hnone, _⟩ := findPath_best g g' clamp start goal map ig m hm r h
  intro hr
  have hno := hnone.1 hr
  obtain ⟨a, l, b, hs, ha, hb⟩ : ∃ a l b, c.seq = [.circ a, .line l, .circ b] ∧ a.ori = o ∧ b.ori = o' := by
    rcases hcs : c.seq with _ | ⟨s1, _ | ⟨s2, _ | ⟨s3, _ | ⟨s4, r⟩⟩⟩⟩ <;> rw [hcs] at hel <;>
      simp [elemsOf] at hel
    obtain ⟨h1, h2, h3⟩ := hel
    cases s1 with
    | line l => simp [elemOf] at h1
    | circ a => cases s2 with
      | circ a => simp [elemOf] at h2
      | line l => cases s3 with
        | line l => simp [elemOf] at h3
        | circ b =>
          simp only [elemOf, Elem.turn.injEq] at h1 h3
          exact ⟨a, l, b, rfl, h1.1, h3.1⟩
  obtain ⟨k, hk, ht⟩ := forall₂_mem_left hfa hc
  have hKd : ∀ d, (g.env clamp map ig).dirCost d * (g.env clamp map ig).costC ≤ K ∧
      (g.env clamp map ig).dirCost d * (g.env clamp map ig).costS ≤ K := by
    intro d
    cases d <;> simp [RSEnv.dirCost, Gen.env, hK]
  have e1 := pairFor_eq (g.env clamp map ig) a.ori start
  have e2 := pairFor_eq (g.env clamp map ig) b.ori goal
  rw [ha] at e1; rw [hb] at e2
  obtain ⟨k', hk', w1, w2⟩ := check_csc_free_map hE hf hu hV hv { c with start := start, goal := goal } hs hd
    (by simp only; rw [ha, hb, e1, e2]; exact hcen) hKd
  have : k = k' := by
    have := ht.symm.trans hk'
    injection this
  subst this
  refine hno k hk ⟨?_, by linarith⟩
  simp only [ha, hb, e1, e2] at w2
  exact lt_of_le_of_lt w2 hlim

/-- **Concrete run.**  With map costs and a minimum of 10 per cell: a curve is found, and its weight is the price of its motion. -/
theorem findPath_map_example : ∃ (clamp : ℝ → ℝ) (g g' : Gen) (k : Curve), g.useMapCost = true ∧
    (g.env clamp freeMap false).Sane ∧ (∀ c ∈ g.curves, Alternating (elemsOf c.seq)) ∧
    g.findPath clamp ⟨0, 0, 0⟩ ⟨10, 0, 0⟩ freeMap false = .ok (g', some k) ∧
    MotionPrice freeMap ⟨1, 1, 1, 1⟩ 10 2 ⟨0, 0, 0⟩ (motion k) k.weight := by
  let c : Curve := { seq := [.circ (Circ.new .left .fwd), .line (Lin.new .fwd), .circ (Circ.new .left .fwd)] }
  let g : Gen := { maxArc := some 13, curves := [c], useMapCost := true }
  have hcl : ClampSpec (fun t => toIocMod Real.two_pi_pos (-Real.pi) t) := by
    refine ⟨fun t => ?_, fun t => ?_, fun t => ?_⟩
    · exact (toIocMod_mem_Ioc Real.two_pi_pos (-Real.pi) t).1.le
    · have := (toIocMod_mem_Ioc Real.two_pi_pos (-Real.pi) t).2; linarith
    · refine ⟨-toIocDiv Real.two_pi_pos (-Real.pi) t, ?_⟩
      have := toIocMod_add_toIocDiv_zsmul Real.two_pi_pos (-Real.pi) t
      rw [zsmul_eq_mul] at this
      push_cast; linarith
  have hS : (g.env (fun t => toIocMod Real.two_pi_pos (-Real.pi) t) freeMap false).Sane := by
    refine ⟨hcl, fun t => (toIocMod_mem_Ioc Real.two_pi_pos (-Real.pi) t).1, ?_, ?_, ?_, ?_, ?_, ?_, ?_⟩
      <;> simp [Gen.env, freeMap, g]
  have hel : elemsOf c.seq = [.turn .left .fwd, .straight .fwd, .turn .left .fwd] := rfl
  have halt : ∀ x ∈ g.curves, Alternating (elemsOf x.seq) := by
    intro x hx
    simp only [g, List.mem_singleton] at hx
    subst hx
    rw [hel]
    simp [Alternating]
  obtain ⟨⟨g', r⟩, hr⟩ := findPath_defined g (fun t => toIocMod Real.two_pi_pos (-Real.pi) t)
    ⟨0, 0, 0⟩ ⟨10, 0, 0⟩ freeMap false 13 rfl (by simp [g]) (by
      intro x hx
      simp only [g, List.mem_singleton] at hx
      subst hx
      intro _
      rw [hel]
      exact ⟨⟨_, _, _, rfl⟩, ⟨[_, _], _, _, rfl⟩⟩)
  have hrad : g.radius / freeMap.res = 2 := by simp [g, freeMap]
  have hcen : eucl (turnCentre 2 .left ⟨0, 0, 0⟩) (turnCentre 2 .left ⟨10, 0, 0⟩) = 10 := by
    refine Eq.trans ?_ (eucl_of_diff (p := ⟨0, 2⟩) (q := ⟨10, 2⟩) (L := 10) (u := 1) (w := 0) (by norm_num) (by norm_num)
      (by norm_num) (by norm_num))
    simp [turnCentre, oriSign]
  have hpi := Real.pi_lt_d4
  have hne : r ≠ none := by
    refine findPath_free_space_map g g' _ ⟨0, 0, 0⟩ ⟨10, 0, 0⟩ freeMap false hS
      (Or.inr fun _ _ => ⟨rfl, rfl⟩) rfl (V := 10) (by simp [g]) (fun _ _ => by simp [freeMap]) 13 rfl (by linarith) c
      (by simp [g]) .left .left .fwd .fwd .fwd hel ?_ ?_ 1 (by simp [g]) ?_ r hr
    · rw [distTo_eq]
      have : eucl (⟨0, 0, 0⟩ : Pose).pt (⟨10, 0, 0⟩ : Pose).pt = 10 :=
        eucl_of_diff (u := 1) (w := 0) (by norm_num) (by simp [Pose.pt]) (by simp [Pose.pt])
          (by norm_num)
      rw [this]; norm_num
    · rw [hrad, hcen]; norm_num
    · rw [hrad, hcen]; simp only [freeMap, NOT_FREE]; norm_num
  cases hr' : r with
  | none => exact absurd hr' hne
  | some k =>
    rw [hr'] at hr
    refine ⟨_, g, g', k, rfl, hS, halt, hr, ?_⟩
    have := findPath_mapWeight g g' _ _ _ freeMap false hS halt rfl k hr
    rw [hrad] at this
    exact this

end PathPlanning.RS
