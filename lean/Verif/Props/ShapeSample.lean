import Verif.Props.ShapeArc2
import Verif.Props.ShapeLine2

/-!
# C47 for circle arcs: sampled poses and points
-/

noncomputable section

namespace PathPlanning.Shapes

open Real (pi)
open Spec RS

theorem poseAt_pos (clamp : ℝ → ℝ) (c : Arc) (phi : ℝ) (q : PPose) :
    (c.poseAt clamp phi q).pos = circPt c.center c.radius phi := by
  unfold Arc.poseAt circPt; ext <;> simp [P2.smul] <;> ring

theorem afill_length (clamp : ℝ → ℝ) (c : Arc) (d : ℝ) : ∀ (n i : Nat) (phi : ℝ) (v : List PPose),
    (c.fill clamp d n i phi v).1.length = v.length := by
  intro n
  induction n with
  | zero => intros; rfl
  | succ n ih => intro i p v; unfold Arc.fill; rw [ih, List.length_modify]

theorem afill_phi (clamp : ℝ → ℝ) (c : Arc) (d : ℝ) : ∀ (n i : Nat) (phi : ℝ) (v : List PPose),
    (c.fill clamp d n i phi v).2 = phi + n * d := by
  intro n
  induction n with
  | zero => intros; simp [Arc.fill]
  | succ n ih => intro i p v; unfold Arc.fill; rw [ih]; push_cast; ring

theorem afill_get (clamp : ℝ → ℝ) (c : Arc) (d : ℝ) : ∀ (n i : Nat) (phi : ℝ) (v : List PPose) (j : Nat),
    (c.fill clamp d n i phi v).1[j]? = if i ≤ j ∧ j < i + n then
      v[j]?.map (c.poseAt clamp (phi + ((j - i : Nat) : ℝ) * d)) else v[j]? := by
  intro n
  induction n with
  | zero => intro i p v j; rw [if_neg (by omega)]; rfl
  | succ n ih =>
    intro i p v j
    unfold Arc.fill
    rw [ih]
    by_cases h1 : i + 1 ≤ j ∧ j < i + 1 + n
    · rw [if_pos h1, if_pos (by omega), modify_ne _ _ (by omega)]
      have : j - i = (j - (i + 1)) + 1 := by omega
      rw [this]
      push_cast
      rw [show p + d + ((j - (i + 1) : Nat) : ℝ) * d = p + (((j - (i + 1) : Nat) : ℝ) + 1) * d by ring]
    · rw [if_neg h1]
      by_cases h2 : j = i
      · subst h2
        rw [if_pos (by omega), modify_eq]
        simp
      · rw [if_neg (by omega), modify_ne _ _ (by omega)]

/-- The pose the caller expects on an arc at the fraction `f` of its length: on the arc, heading along
the tangent in the direction of the arc (up to whole turns, in `[-π, π]`). -/
def ArcPose (c : Arc) (f : ℝ) (q : PPose) : Prop :=
  q.pos = circPt c.center c.radius (c.start + c.dir * (f * c.arc)) ∧
  OnArcS c.center c.radius c.dir c.start c.arc q.pos ∧
  -pi ≤ q.theta ∧ q.theta ≤ pi ∧
  ∃ k : Int, q.theta = circHeading c.dir (c.start + c.dir * (f * c.arc)) + k * (2 * pi)

/-- The fraction of the arc at the `k`-th of `n` steps, in driving order. -/
def frac (forward : Bool) (k n : Nat) : ℝ := if forward then (k : ℝ) / n else 1 - (k : ℝ) / n

theorem frac_range (fw : Bool) {k n : Nat} (h : k ≤ n) : 0 ≤ frac fw k n ∧ frac fw k n ≤ 1 := by
  have h1 : (k : ℝ) / n ≤ 1 := by
    rcases Nat.eq_zero_or_pos n with rfl | hn
    · simp
    · rw [div_le_one (by exact_mod_cast hn)]; exact_mod_cast h
  have h0 : (0 : ℝ) ≤ (k : ℝ) / n := by positivity
  unfold frac; cases fw <;> simp <;> constructor <;> linarith

theorem poseAt_arcPose {clamp : ℝ → ℝ} (hC : ClampSpec clamp) (c : Arc) (h : c.WF) {f phi : ℝ}
    (hf0 : 0 ≤ f) (hf1 : f ≤ 1) (hphi : ∃ k : Int, phi = c.start + c.dir * (f * c.arc) + k * (2 * pi))
    (q : PPose) : ArcPose c f (c.poseAt clamp phi q) := by
  have hp : (c.poseAt clamp phi q).pos = circPt c.center c.radius (c.start + c.dir * (f * c.arc)) := by
    rw [poseAt_pos]; exact circPt_congr _ _ hphi
  refine ⟨hp, ⟨f * c.arc, mul_nonneg hf0 h.arc0, ?_, hp⟩, hC.lo _, hC.hi _, ?_⟩
  · have := h.arc0; nlinarith
  · obtain ⟨k, hk⟩ := hphi
    obtain ⟨m, hm⟩ := hC.mod (phi + c.dir * pi / 2)
    refine ⟨k + m, ?_⟩
    show clamp _ = _
    rw [hm, hk, circHeading]; push_cast; ring

/-- **C47** for circle arcs. With `n = ⌊arc·radius/|resolution|⌋ < 2^31 - 1` the call is defined. With
the start pose it returns `n + 1` poses at the fractions `0, 1/n, ..., 1` of the arc, without it the `n`
poses at `1/n, ..., 1`, in driving order (from the end of the arc if not driving forward); all of them
lie on the arc and head along its tangent. -/
theorem arc_toPoses_spec {clamp : ℝ → ℝ} (hC : ClampSpec clamp) (c : Arc) (h : c.WF) (res : ℝ)
    (hr : 1 / 10000000000 ≤ |res|) (n : Nat) (hn : n = ⌊c.arc * c.radius / |res|⌋₊)
    (hb : n + 1 < 2 ^ 31) (old : List PPose) (moveDir : Int) (ws : Bool) :
    ∃ v, c.toPoses clamp res old moveDir ws = .ok v ∧
      v.length = n + (if ws then 1 else 0) ∧
      ∀ i, i < v.length → ∃ q, v[i]? = some q ∧
        ArcPose c (frac (decide (moveDir = 1)) (i + if ws then 0 else 1) n) q := by
  have hr0 : 0 < |res| := lt_of_lt_of_le (by norm_num) hr
  have hq : 0 ≤ c.arc * c.radius / |res| := by have := h.arc0; have := h.r; positivity
  have habs : |c.arcLength / res| = c.arc * c.radius / |res| := by
    unfold Arc.arcLength Arc.getArc
    rw [abs_div, abs_of_nonneg (mul_nonneg h.arc0 h.r.le)]
  have hnf : ((n : ℤ)) = ⌊c.arc * c.radius / |res|⌋ := by
    rw [hn]; exact Int.natCast_floor_eq_floor hq
  have hcast : castI |c.arcLength / res| = .ok (n : Int) := by
    unfold castI
    rw [habs, truncC_nonneg hq, ← hnf, if_pos ⟨by omega, by omega⟩]
  set fw := decide (moveDir = 1) with hfw
  set phi0 : ℝ := if fw then c.start else c.endAngle with hphi0
  set d : ℝ := (c.dir : ℝ) * (if fw then c.arc / n else -(c.arc / n)) with hd
  have hdef : c.toPoses clamp res old moveDir ws = (do
      let (v, p) ← (if ws then (fun v => (v, phi0)) <$> resizeV old ((n : Int) + 1) ({} : PPose)
        else (fun v => (v, phi0 + d)) <$> resizeV old (n : Int) ({} : PPose))
      if ws then pure ((c.fill clamp d n 0 p v).1.modify n (c.poseAt clamp (c.fill clamp d n 0 p v).2))
      else pure (c.fill clamp d n 0 p v).1) := by
    unfold Arc.toPoses
    rw [if_neg (by linarith), hcast]
    simp only [CRes.ok_bind, Int.toNat_natCast, Arc.getArc]
    have e1 : (if moveDir = 1 then (c.start, c.arc / ((n : Int) : ℝ))
        else (c.endAngle, -1 * (c.arc / ((n : Int) : ℝ)))) =
        (phi0, if fw then c.arc / n else -(c.arc / n)) := by
      rw [hphi0, hfw]; by_cases hm : moveDir = 1 <;> simp [hm]
    rw [e1]
    have e2 : (if c.dir = -1 then -1 * (if fw then c.arc / n else -(c.arc / n))
        else (if fw then c.arc / (n : ℝ) else -(c.arc / n))) = d := by
      rw [hd]; rcases h.dir with hd | hd <;> rw [hd] <;> simp
    simp only [e2]
  -- the angle after k steps
  have hang : ∀ k : Nat, (k ≤ n) → ∃ m : Int, phi0 + k * d =
      c.start + c.dir * (frac fw k n * c.arc) + m * (2 * pi) := by
    intro k hk
    rw [hphi0, hd]
    cases fw with
    | true => exact ⟨0, by simp [frac]; ring⟩
    | false =>
      have hE : ∃ m : Int, c.endAngle = c.start + c.dir * c.arc + m * (2 * pi) := by
        unfold Arc.endAngle
        rcases h.dir with hd | hd
        · rw [hd, if_pos rfl]; obtain ⟨m, hm⟩ := (wrap_spec (c.start + c.arc)).2.2.1
          exact ⟨m, by rw [hm]; push_cast; ring⟩
        · rw [hd, if_neg (by decide)]; obtain ⟨m, hm⟩ := (wrap_spec (c.start - c.arc)).2.2.1
          exact ⟨m, by rw [hm]; push_cast; ring⟩
      obtain ⟨m, hm⟩ := hE
      exact ⟨m, by simp [frac]; rw [hm]; ring⟩
  rw [hdef]
  cases ws with
  | true =>
    obtain ⟨w, hw⟩ := resizeV_defined old (n := (n : Int) + 1) ({} : PPose) (by omega)
    obtain ⟨_, w1, w2⟩ := resizeV_ok hw
    rw [show ((n : Int) + 1).toNat = n + 1 by omega] at w1 w2
    simp only [if_true, hw, CRes.map_ok, CRes.ok_bind, CRes.pure_eq]
    have hlen : ((c.fill clamp d n 0 phi0 w).1.modify n
      (c.poseAt clamp (c.fill clamp d n 0 phi0 w).2)).length = n + 1 := by
      rw [List.length_modify, afill_length, w1]
    refine ⟨_, rfl, hlen, ?_⟩
    intro i hi
    rw [hlen] at hi
    obtain ⟨f0, f1⟩ := frac_range fw (k := i) (n := n) (by omega)
    by_cases hin : i = n
    · subst hin
      refine ⟨_, by rw [modify_eq, afill_get, if_neg (by omega), w2 i (by omega)]; rfl, ?_⟩
      rw [afill_phi]
      exact poseAt_arcPose hC c h f0 f1 (hang i le_rfl) _
    · refine ⟨_, by rw [modify_ne _ _ (by omega), afill_get, if_pos (by omega), w2 i (by omega)]; rfl, ?_⟩
      exact poseAt_arcPose hC c h f0 f1 (hang i (by omega)) _
  | false =>
    obtain ⟨w, hw⟩ := resizeV_defined old (n := (n : Int)) ({} : PPose) (by omega)
    obtain ⟨_, w1, w2⟩ := resizeV_ok hw
    rw [Int.toNat_natCast] at w1 w2
    simp only [Bool.false_eq_true, if_false, hw, CRes.map_ok, CRes.ok_bind, CRes.pure_eq]
    refine ⟨_, rfl, by rw [afill_length, w1]; simp, ?_⟩
    intro i hi
    rw [afill_length, w1] at hi
    obtain ⟨f0, f1⟩ := frac_range fw (k := i + 1) (n := n) (by omega)
    refine ⟨_, by rw [afill_get, if_pos (by omega), w2 i (by omega)]; rfl, ?_⟩
    refine poseAt_arcPose hC c h f0 f1 ?_ _
    obtain ⟨m, hm⟩ := hang (i + 1) (by omega)
    exact ⟨m, by rw [← hm]; simp only [Nat.sub_zero]; push_cast; ring⟩

/-- The first pose with the start pose is where driving begins, and the last pose is where the arc ends
(if it is at least one step long). -/
theorem arc_toPoses_ends {clamp : ℝ → ℝ} (hC : ClampSpec clamp) (c : Arc) (h : c.WF) (res : ℝ)
    (hr : 1 / 10000000000 ≤ |res|) (n : Nat) (hn : n = ⌊c.arc * c.radius / |res|⌋₊) (h1 : 1 ≤ n)
    (hb : n + 1 < 2 ^ 31) (old : List PPose) :
    ∃ v w a b x y, c.toPoses clamp res old 1 true = .ok v ∧ c.toPoses clamp res old (-1) true = .ok w ∧
      v[0]? = some a ∧ a.pos = c.startPoint ∧ v[n]? = some b ∧ b.pos = c.endPoint ∧
      w[0]? = some x ∧ x.pos = c.endPoint ∧ w[n]? = some y ∧ y.pos = c.startPoint := by
  have hn0 : (n : ℝ) ≠ 0 := by positivity
  obtain ⟨v, v1, v2, v3⟩ := arc_toPoses_spec hC c h res hr n hn hb old 1 true
  obtain ⟨w, w1, w2, w3⟩ := arc_toPoses_spec hC c h res hr n hn hb old (-1) true
  simp only [if_true] at v2 w2 v3 w3
  obtain ⟨a, a1, a2, _⟩ := v3 0 (by omega)
  obtain ⟨b, b1, b2, _⟩ := v3 n (by omega)
  obtain ⟨x, x1, x2, _⟩ := w3 0 (by omega)
  obtain ⟨y, y1, y2, _⟩ := w3 n (by omega)
  refine ⟨v, w, a, b, x, y, v1, w1, a1, ?_, b1, ?_, x1, ?_, y1, ?_⟩
  · rw [a2, startPoint_eq]; simp [frac]
  · rw [b2, endPoint_eq c h.dir]; simp [frac, hn0]
  · rw [x2, endPoint_eq c h.dir]; simp [frac]
  · rw [y2, startPoint_eq]; simp [frac, hn0]

theorem afillPts_length (r d : ℝ) : ∀ (n i : Nat) (p : ℝ) (v : List P2),
    (Arc.fillPts r d n i p v).length = v.length := by
  intro n
  induction n with
  | zero => intros; rfl
  | succ n ih => intro i p v; unfold Arc.fillPts; rw [ih, List.length_set]

theorem afillPts_get (r d : ℝ) : ∀ (n i : Nat) (p : ℝ) (v : List P2) (j : Nat), i + n ≤ v.length →
    (Arc.fillPts r d n i p v)[j]? = if i ≤ j ∧ j < i + n then
      some (circPt ⟨0, 0⟩ r (p + ((j - i : Nat) : ℝ) * d)) else v[j]? := by
  intro n
  induction n with
  | zero => intro i p v j _; rw [if_neg (by omega)]; rfl
  | succ n ih =>
    intro i p v j hv
    unfold Arc.fillPts
    rw [ih _ _ _ _ (by rw [List.length_set]; omega)]
    by_cases h1 : i + 1 ≤ j ∧ j < i + 1 + n
    · rw [if_pos h1, if_pos (by omega)]
      have : j - i = (j - (i + 1)) + 1 := by omega
      rw [this]; push_cast
      rw [show p + d + ((j - (i + 1) : Nat) : ℝ) * d = p + (((j - (i + 1) : Nat) : ℝ) + 1) * d by ring]
    · rw [if_neg h1]
      by_cases h2 : j = i
      · subst h2
        rw [if_pos (by omega), List.getElem?_set_self (by omega)]
        simp [circPt]
      · rw [if_neg (by omega), List.getElem?_set_ne (by omega)]

/-- **C47 (finding).** `Circle::toPoints` is exactly this: `n = ⌊arc·radius/|resolution|⌋` points on the
circle *around the origin* (the centre is not added), counter-clockwise from the start angle whatever
the direction of the arc, and without its end point. -/
theorem arc_toPoints_spec (c : Arc) (h : c.WF) (res : ℝ) (hr : res ≠ 0) (n : Nat)
    (hn : n = ⌊c.arc * c.radius / |res|⌋₊) (hb : n < 2 ^ 31) (old : List P2) :
    ∃ v, c.toPoints res old = .ok v ∧ v.length = n ∧
      ∀ i, i < n → v[i]? = some (circPt ⟨0, 0⟩ c.radius (c.start + (i : ℝ) / n * c.arc)) := by
  have hr0 : 0 < |res| := abs_pos.2 hr
  have hq : 0 ≤ c.arc * c.radius / |res| := by have := h.arc0; have := h.r; positivity
  have habs : |c.arcLength / res| = c.arc * c.radius / |res| := by
    unfold Arc.arcLength Arc.getArc
    rw [abs_div, abs_of_nonneg (mul_nonneg h.arc0 h.r.le)]
  have hnf : ((n : ℤ)) = ⌊c.arc * c.radius / |res|⌋ := by
    rw [hn]; exact Int.natCast_floor_eq_floor hq
  have hcast : castI |c.arcLength / res| = .ok (n : Int) := by
    unfold castI
    rw [habs, truncC_nonneg hq, ← hnf, if_pos ⟨by omega, by omega⟩]
  obtain ⟨w, hw⟩ := resizeV_defined old (n := (n : Int)) (⟨0, 0⟩ : P2) (by omega)
  obtain ⟨_, w1, w2⟩ := resizeV_ok hw
  rw [Int.toNat_natCast] at w1 w2
  refine ⟨Arc.fillPts c.radius (c.arc / n) n 0 c.start w, ?_, by rw [afillPts_length, w1], ?_⟩
  · unfold Arc.toPoints
    rw [if_neg hr, hcast]
    simp only [CRes.ok_bind, hw, Int.toNat_natCast, CRes.pure_eq, Arc.getArc, Int.cast_natCast]
  · intro i hi
    rw [afillPts_get _ _ _ _ _ _ _ (by omega), if_pos (by omega)]
    congr 2
    rw [Nat.sub_zero]; ring

/-- **C47 (finding).** No point returned by `Circle::toPoints` lies on the circle if the centre is
further than a diameter from the origin. -/
theorem arc_toPoints_off (c : Arc) (h : c.WF) (res : ℝ) (hr : res ≠ 0)
    (hb : ⌊c.arc * c.radius / |res|⌋₊ < 2 ^ 31) (old : List P2)
    (hfar : 2 * c.radius < eucl ⟨0, 0⟩ c.center) :
    ∃ v, c.toPoints res old = .ok v ∧ ∀ q ∈ v, eucl q c.center ≠ c.radius := by
  obtain ⟨v, v1, v2, v3⟩ := arc_toPoints_spec c h res hr _ rfl hb old
  refine ⟨v, v1, fun q hq he => ?_⟩
  obtain ⟨i, hi, rfl⟩ := List.mem_iff_getElem.1 hq
  have := v3 i (v2 ▸ hi)
  rw [List.getElem?_eq_getElem hi] at this
  injection this with this
  have t := eucl_triangle ⟨0, 0⟩ v[i] c.center
  rw [he, eucl_comm ⟨0, 0⟩ v[i]] at t
  have e0 : eucl v[i] ⟨0, 0⟩ = c.radius := by rw [this]; exact circPt_eucl _ _ _ h.r.le
  linarith

/-- Non-vacuity: the left half circle of radius 1 around `(10, 0)`, sampled with step 1, has 3 steps. -/
theorem arc_toPoses_example : ∃ c : Arc, c.WF ∧ ⌊c.arc * c.radius / |(1 : ℝ)|⌋₊ = 3 ∧
    2 * c.radius < eucl ⟨0, 0⟩ c.center := by
  refine ⟨⟨⟨10, 0⟩, 1, 1, pi, 0⟩, ⟨by norm_num, Or.inl rfl, Real.pi_pos.le, by linarith [Real.pi_pos],
    le_rfl, by linarith [Real.pi_pos]⟩, ?_, ?_⟩
  · rw [Nat.floor_eq_iff (by simp; exact Real.pi_pos.le)]
    simp only [abs_one, mul_one, div_one]
    constructor
    · norm_num; exact Real.pi_gt_three.le
    · norm_num; linarith [Real.pi_lt_four]
  · unfold eucl dist2
    apply Real.lt_sqrt_of_sq_lt; norm_num

end PathPlanning.Shapes
