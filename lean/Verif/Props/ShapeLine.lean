import Verif.Model.Shapes
import Verif.Spec.Shapes
import Verif.Props.Vec
import Verif.Props.RSGeom
import Verif.Props.RSFree

/-!
# C43, C44, C47: lines of `path_geom`
-/

noncomputable section

namespace PathPlanning.Shapes
open Spec RS

theorem len_eq (p q : P2) : (p - q).length = eucl p q := rfl

theorem len_sq (v : P2) : v.length ^ 2 = v.x ^ 2 + v.y ^ 2 := by
  unfold P2.length; exact Real.sq_sqrt (by positivity)

theorem len_nonneg (v : P2) : 0 ≤ v.length := Real.sqrt_nonneg _

theorem eucl_sq (p q : P2) : eucl p q ^ 2 = dist2 p q := Real.sq_sqrt (by unfold dist2; positivity)

theorem eucl_nonneg (p q : P2) : 0 ≤ eucl p q := Real.sqrt_nonneg _

theorem eucl_self (p : P2) : eucl p p = 0 := by simp [eucl, dist2]

theorem len_pos {l : Ln} (h : l.s ≠ l.e) : 0 < (l.e - l.s).length := by
  apply P2.length_pos
  intro he
  apply h
  have h1 := congrArg P2.x he
  have h2 := congrArg P2.y he
  simp only [P2.sub_x, P2.sub_y] at h1 h2
  ext <;> linarith

/-- The signed distance times the length of the line is twice the area of the triangle. -/
theorem signedDist_eq (l : Ln) (p : P2) : l.signedDist p = leftOf l.s l.e p / eucl l.e l.s := rfl

/-- Parameter of the foot point. -/
def footParam (l : Ln) (p : P2) : ℝ :=
  ((p.x - l.s.x) * (l.e.x - l.s.x) + (p.y - l.s.y) * (l.e.y - l.s.y)) / dist2 l.e l.s

theorem foot_eq (l : Ln) (h : l.s ≠ l.e) (p : P2) : l.foot p = lerp l.s l.e (footParam l p) := by
  have hl := len_pos h
  have hl2 := len_sq (l.e - l.s)
  simp only [P2.sub_x, P2.sub_y] at hl2
  unfold Ln.foot Ln.signedDist lerp footParam unit dist2
  simp only [P2.sub_x, P2.sub_y]
  rw [← hl2]
  have hne : (l.e - l.s).length ≠ 0 := hl.ne'
  ext
  · simp only [P2.sub_x]
    field_simp
    rw [hl2]; ring
  · simp only [P2.sub_y]
    field_simp
    rw [hl2]; ring

/-- **C43.** The foot point lies on the line, the connection is perpendicular to it, and no point of the
(infinite) line is nearer. -/
theorem foot_spec (l : Ln) (h : l.s ≠ l.e) (p : P2) :
    OnLine l.s l.e (l.foot p) ∧ dotP (p - l.foot p) (l.e - l.s) = 0 ∧
    eucl p (l.foot p) = |l.signedDist p| ∧
    ∀ q, OnLine l.s l.e q → eucl p (l.foot p) ≤ eucl p q := by
  have hl := len_pos h
  have hl2 := len_sq (l.e - l.s)
  simp only [P2.sub_x, P2.sub_y] at hl2
  have hd : 0 < dist2 l.e l.s := by unfold dist2; rw [← hl2]; positivity
  have hperp : dotP (p - l.foot p) (l.e - l.s) = 0 := by
    rw [foot_eq l h]
    unfold dotP lerp
    simp only [P2.sub_x, P2.sub_y]
    have : footParam l p * dist2 l.e l.s =
        (p.x - l.s.x) * (l.e.x - l.s.x) + (p.y - l.s.y) * (l.e.y - l.s.y) := by
      unfold footParam; field_simp
    unfold dist2 at this
    linear_combination -this
  refine ⟨⟨_, foot_eq l h p⟩, hperp, ?_, ?_⟩
  · have hu : (unit (l.e - l.s)).x ^ 2 + (unit (l.e - l.s)).y ^ 2 = 1 := by
      unfold unit; simp only [P2.sub_x, P2.sub_y]
      have hne : (l.e - l.s).length ≠ 0 := hl.ne'
      field_simp; rw [hl2]
    unfold eucl dist2 Ln.foot
    simp only [P2.sub_x, P2.sub_y]
    rw [← Real.sqrt_sq_eq_abs]
    congr 1
    linear_combination l.signedDist p ^ 2 * hu
  · rintro q ⟨t, rfl⟩
    apply Real.sqrt_le_sqrt
    have key : dist2 p (lerp l.s l.e t) = dist2 p (l.foot p) +
        (t - footParam l p) ^ 2 * dist2 l.e l.s := by
      rw [foot_eq l h] at hperp ⊢
      unfold dotP lerp at hperp
      unfold dist2 lerp
      simp only [P2.sub_x, P2.sub_y] at hperp ⊢
      linear_combination -2 * (t - footParam l p) * hperp
    rw [key]
    have : 0 ≤ (t - footParam l p) ^ 2 * dist2 l.e l.s := by positivity
    linarith

/-- **C43.** `projectPoint` computes the same point. -/
theorem project_eq_foot (l : Ln) (h : l.s ≠ l.e) (p : P2) : l.project p = l.foot p := by
  rw [foot_eq l h]
  unfold Ln.project lerp footParam dist2 P2.smul
  simp only [P2.sub_x, P2.sub_y]
  ext
  · simp only [P2.add_x]; ring_nf
  · simp only [P2.add_y]; ring_nf

/-- **C43.** The signed distance is positive exactly to the left of the line. -/
theorem signedDist_sign (l : Ln) (h : l.s ≠ l.e) (p : P2) :
    (0 < l.signedDist p ↔ 0 < leftOf l.s l.e p) ∧ (l.signedDist p < 0 ↔ leftOf l.s l.e p < 0) ∧
    (l.signedDist p = 0 ↔ OnLine l.s l.e p) := by
  have hl := len_pos h
  rw [signedDist_eq]
  have hl' : 0 < eucl l.e l.s := hl
  refine ⟨by rw [div_pos_iff_of_pos_right hl'], by rw [div_lt_iff₀ hl', zero_mul], ?_⟩
  constructor
  · intro h0
    have e := (foot_spec l h p).2.2.1
    rw [signedDist_eq, h0, abs_zero] at e
    have hd : dist2 p (l.foot p) = 0 := by rw [← eucl_sq, e]; ring
    unfold dist2 at hd
    have hx : p.x = (l.foot p).x := by nlinarith [sq_nonneg (p.x - (l.foot p).x), sq_nonneg (p.y - (l.foot p).y)]
    have hy : p.y = (l.foot p).y := by nlinarith [sq_nonneg (p.x - (l.foot p).x), sq_nonneg (p.y - (l.foot p).y)]
    have : p = l.foot p := by ext <;> assumption
    rw [this]; exact ⟨_, foot_eq l h p⟩
  · rintro ⟨t, rfl⟩
    rw [div_eq_zero_iff]; left
    unfold leftOf lerp; ring

/-! ### Parallels -/

/-- **C44.** The parallel at distance `d`: same direction vector, and every one of its points has signed
distance exactly `d` from the line (hence lies on the left for `d > 0`, on the right for `d < 0`, at
distance `|d|`). -/
theorem parallel_spec (l : Ln) (h : l.s ≠ l.e) (d : ℝ) :
    (l.parallel d).e - (l.parallel d).s = l.e - l.s ∧
    ∀ q, OnLine (l.parallel d).s (l.parallel d).e q → l.signedDist q = d ∧
      (∀ z, OnLine l.s l.e z → |d| ≤ eucl q z) ∧ eucl q (l.foot q) = |d| := by
  have hl := len_pos h
  have hl2 := len_sq (l.e - l.s)
  simp only [P2.sub_x, P2.sub_y] at hl2
  have hne : (l.e - l.s).length ≠ 0 := hl.ne'
  have hdir : (l.parallel d).e - (l.parallel d).s = l.e - l.s := by
    unfold Ln.parallel; ext
    · simp only [P2.sub_x, P2.add_x]; ring
    · simp only [P2.sub_y, P2.add_y]; ring
  refine ⟨hdir, ?_⟩
  rintro q ⟨t, rfl⟩
  have hs : l.signedDist (lerp (l.parallel d).s (l.parallel d).e t) = d := by
    have hx := congrArg P2.x hdir
    have hy := congrArg P2.y hdir
    simp only [P2.sub_x, P2.sub_y] at hx hy
    unfold Ln.signedDist lerp
    simp only [P2.sub_x, P2.sub_y]
    rw [hx, hy]
    unfold Ln.parallel unit
    simp only [P2.add_x, P2.add_y, P2.sub_x, P2.sub_y]
    rw [div_eq_iff hne]
    field_simp
    rw [hl2]; ring
  obtain ⟨_, _, h3, h4⟩ := foot_spec l h (lerp (l.parallel d).s (l.parallel d).e t)
  rw [hs] at h3
  exact ⟨hs, fun z hz => h3 ▸ h4 z hz, h3⟩

/-- **C44.** Exactly what `pointRelativePosition` reports: left, right or on the line, where the
tolerance is compared with distance times length of the line (not with the distance). -/
theorem relPos_spec (l : Ln) (h : l.s ≠ l.e) (p : P2) (tol : ℝ) :
    (l.relPos p tol = 1 ↔ |tol| / eucl l.e l.s < l.signedDist p) ∧
    (l.relPos p tol = -1 ↔ l.signedDist p < -(|tol| / eucl l.e l.s)) ∧
    (l.relPos p tol = 0 ↔ |l.signedDist p| ≤ |tol| / eucl l.e l.s) := by
  have hl' : 0 < eucl l.e l.s := len_pos h
  have ht := abs_nonneg tol
  rw [signedDist_eq]
  rw [abs_div, abs_of_pos hl', div_lt_div_iff_of_pos_right hl', div_le_div_iff_of_pos_right hl',
    ← neg_div, div_lt_div_iff_of_pos_right hl', abs_le]
  have hd : l.relPos p tol = if leftOf l.s l.e p > |tol| then 1 else
      if leftOf l.s l.e p < -|tol| then -1 else 0 := rfl
  rw [hd]
  refine ⟨?_, ?_, ?_⟩
  · split_ifs with h1 h2
    · simpa using h1
    · simp; linarith
    · simp; linarith
  · split_ifs with h1 h2
    · simp; linarith
    · simpa using h2
    · simp; linarith
  · split_ifs with h1 h2
    · simp; intro; linarith
    · simp; intro; linarith
    · simp; constructor <;> linarith

/-- **C44 (finding).** Because the tolerance is not scaled by the length, the test accepts points far off
a short line, and `selectStartPoint` then moves the start point there: for every distance `D` there is
a line and a point at distance `D` from it that is accepted with the default tolerance. -/
theorem selectStart_accepts_far (D : ℝ) (hD : 0 < D) : ∃ (l : Ln) (p : P2), l.s ≠ l.e ∧
    eucl p (l.foot p) = D ∧ (l.selectStart p) = (true, ⟨p, l.e⟩) := by
  have hx : distEps / (2 * D) ≠ 0 := by unfold distEps; positivity
  have hne : (⟨0, 0⟩ : P2) ≠ ⟨distEps / (2 * D), 0⟩ := by
    intro h; have := congrArg P2.x h; simp only at this; exact hx this.symm
  have hlen : eucl (⟨distEps / (2 * D), 0⟩ : P2) ⟨0, 0⟩ = distEps / (2 * D) := by
    unfold eucl dist2; simp only [sub_zero, ne_eq, OfNat.ofNat_ne_zero, not_false_eq_true, zero_pow, add_zero]
    rw [Real.sqrt_sq]; unfold distEps; positivity
  refine ⟨⟨⟨0, 0⟩, ⟨distEps / (2 * D), 0⟩⟩, ⟨0, D⟩, hne, ?_, ?_⟩
  · rw [(foot_spec _ hne _).2.2.1, signedDist_eq]
    show |leftOf (⟨0, 0⟩ : P2) ⟨distEps / (2 * D), 0⟩ ⟨0, D⟩ / eucl (⟨distEps / (2 * D), 0⟩ : P2) ⟨0, 0⟩| = D
    rw [hlen]
    unfold leftOf; simp only [sub_zero, zero_mul]
    rw [mul_div_cancel_left₀ _ hx, abs_of_pos hD]
  · have : (⟨⟨0, 0⟩, ⟨distEps / (2 * D), 0⟩⟩ : Ln).relPos ⟨0, D⟩ distEps = 0 := by
      rw [(relPos_spec _ hne _ _).2.2, signedDist_eq]
      show |leftOf (⟨0, 0⟩ : P2) ⟨distEps / (2 * D), 0⟩ ⟨0, D⟩ / eucl (⟨distEps / (2 * D), 0⟩ : P2) ⟨0, 0⟩|
        ≤ |distEps| / eucl (⟨distEps / (2 * D), 0⟩ : P2) ⟨0, 0⟩
      rw [hlen]
      unfold leftOf; simp only [sub_zero, zero_mul]
      rw [mul_div_cancel_left₀ _ hx, abs_of_pos hD, abs_of_pos (by unfold distEps; norm_num)]
      rw [div_div_eq_mul_div, mul_div_cancel_left₀]
      · linarith
      · unfold distEps; norm_num
    unfold Ln.selectStart
    rw [if_pos this]

/-- **C44.** Exactly when `selectStartPoint` and `selectEndPoint` of a line accept a point (its distance
from the line times the length of the line is at most the tolerance), and what they change: only the
selected end, and nothing if the point is refused. -/
theorem select_spec (l : Ln) (h : l.s ≠ l.e) (p : P2) (tol : ℝ) :
    (|l.signedDist p| ≤ |tol| / eucl l.e l.s →
      l.selectStart p tol = (true, ⟨p, l.e⟩) ∧ l.selectEnd p tol = (true, ⟨l.s, p⟩)) ∧
    (|tol| / eucl l.e l.s < |l.signedDist p| → l.selectStart p tol = (false, l) ∧ l.selectEnd p tol = (false, l)) := by
  have h0 := (relPos_spec l h p tol).2.2
  constructor
  · intro hle
    have := h0.2 hle
    unfold Ln.selectStart Ln.selectEnd
    rw [if_pos this, if_pos this]
    exact ⟨rfl, rfl⟩
  · intro hlt
    have : ¬ l.relPos p tol = 0 := fun e => absurd (h0.1 e) (not_le.2 hlt)
    unfold Ln.selectStart Ln.selectEnd
    rw [if_neg this, if_neg this]
    exact ⟨rfl, rfl⟩

/-- **C44.** A line built from a pose starts (forward) or ends (backward) at the pose, has the given
length and points in the direction of the pose. -/
theorem ofPose_spec (p : PPose) (len : ℝ) (dir : Int) (hd : dir ≠ 0) :
    ∃ l, Ln.ofPose p len dir = .ok l ∧ eucl l.s l.e = |len| ∧
      (l.e.x - l.s.x = |len| * Real.cos p.theta ∧ l.e.y - l.s.y = |len| * Real.sin p.theta) ∧
      (0 < dir → l.s = p.pos) ∧ (dir < 0 → l.e = p.pos) := by
  have hn : dirNorm dir = .ok dir.sign := by
    unfold dirNorm; rw [if_neg hd]
    congr 1
    rcases lt_or_gt_of_ne hd with h | h
    · rw [abs_of_neg h, Int.sign_eq_neg_one_of_neg h, Int.tdiv_neg, Int.tdiv_self hd]
    · rw [abs_of_pos h, Int.sign_eq_one_of_pos h, Int.tdiv_self hd]
  have hlen : ∀ a b : P2, b.x - a.x = |len| * Real.cos p.theta → b.y - a.y = |len| * Real.sin p.theta →
      eucl a b = |len| := by
    intro a b h1 h2
    have hcs := Real.sin_sq_add_cos_sq p.theta
    unfold eucl dist2
    rw [show (a.x - b.x) ^ 2 + (a.y - b.y) ^ 2 = |len| ^ 2 by
      rw [show a.x - b.x = -(b.x - a.x) by ring, show a.y - b.y = -(b.y - a.y) by ring, h1, h2]
      linear_combination |len| ^ 2 * hcs]
    exact Real.sqrt_sq (abs_nonneg _)
  unfold Ln.ofPose
  rw [hn]
  simp only [CRes.ok_bind, CRes.pure_eq]
  rcases lt_or_gt_of_ne hd with h | h
  · rw [Int.sign_eq_neg_one_of_neg h, if_neg (by decide)]
    refine ⟨_, rfl, hlen _ _ ?_ ?_, ⟨?_, ?_⟩, fun h' => absurd h' (by omega), fun _ => rfl⟩
    all_goals simp only [P2.sub_x, P2.sub_y, P2.smul]; ring
  · rw [Int.sign_eq_one_of_pos h, if_pos rfl]
    refine ⟨_, rfl, hlen _ _ ?_ ?_, ⟨?_, ?_⟩, fun _ => rfl, fun h' => absurd h' (by omega)⟩
    all_goals simp only [P2.add_x, P2.add_y, P2.smul]; ring

end PathPlanning.Shapes
