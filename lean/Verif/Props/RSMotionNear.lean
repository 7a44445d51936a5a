import Verif.Props.RSClearance

/-!
# C100: the points of a motion whose cells have been tested
-/

noncomputable section

namespace PathPlanning.RS
open Spec

/-! ### What the tests mean for the points of the motion -/

theorem motionClear_elem {map : MapIf} {r : ℝ} : ∀ (pre : List (Elem × ℝ)) {q : Pose} {e : Elem} {a : ℝ}
    {post : List (Elem × ℝ)}, MotionClear map r q (pre ++ (e, a) :: post) → ElemClear map r (driveAll r q pre) e a
  | [], _, _, _, _, h => h.1
  | _ :: pre, _, _, _, _, h => motionClear_elem pre h.2

/-- A straight that passed the test. -/
theorem elemClear_straight_near {map : MapIf} {r : ℝ} {q : Pose} {d : Dir} {a s : ℝ}
    (hc : ElemClear map r q (.straight d) a) (h0 : 0 ≤ s) (h1 : s ≤ a) {c : Int × Int}
    (hin : PtInCell (drive r q (.straight d) s).pt c) :
    ∃ c' : Int × Int, CellsWithin 2 c c' ∧ (map.inMap c'.1 c'.2 = true → map.free c'.1 c'.2 = true) := by
  obtain ⟨_, cells, hd, hfree⟩ := hc
  have t0 : 0 ≤ s / a := div_nonneg h0 (h0.trans h1)
  have t1 : s / a ≤ 1 := div_le_one_of_le₀ h1 (h0.trans h1)
  have hsa : s / a * a = s := by
    rcases eq_or_lt_of_le (h0.trans h1) with h | h
    · rw [← h] at h1; rw [← h]; simp; linarith
    · field_simp
  obtain ⟨c', hm, b1, b2⟩ := Clear.line_cover hd (s / a) t0 t1
  have hcell := ptInCell_eq hin
  refine ⟨c', ?_, hfree c' hm⟩
  have key : ∀ a' b' p : ℝ, p = a' + s / a * (b' - a') → ∀ n : Int,
      abs (((truncC a' : Int) : ℝ) + s / a * ((truncC b' : Int) - (truncC a' : Int)) - n) ≤ 1 → |⌊p⌋ - n| ≤ 2 := by
    rintro a' b' p rfl n hn
    obtain ⟨n1, n2⟩ := abs_le.1 hn
    obtain ⟨a1, a2⟩ := truncC_near a'
    obtain ⟨q1, q2⟩ := truncC_near b'
    have u1 := mix_gt t0 t1 (a := a' - truncC a') (b := b' - truncC b') (m := -1) (by linarith) (by linarith)
    have u2 := mix_gt t0 t1 (a := truncC a' - a') (b := truncC b' - b') (m := -1) (by linarith) (by linarith)
    refine Clear.floor_near ?_ ?_ <;> push_cast <;> nlinarith
  rw [hcell]
  refine ⟨key _ _ _ ?_ _ b1, key _ _ _ ?_ _ b2⟩
  · simp only [Spec.drive, Pose.pt]
    linear_combination (-(dirSign d * Real.cos q.theta)) * hsa
  · simp only [Spec.drive, Pose.pt]
    linear_combination (-(dirSign d * Real.sin q.theta)) * hsa

/-- The beginning and the end of a straight that passed the test lie in tested cells. -/
theorem elemClear_straight_ends {map : MapIf} {r : ℝ} {q : Pose} {d : Dir} {a : ℝ}
    (hc : ElemClear map r q (.straight d) a) :
    map.inMap (truncC q.x) (truncC q.y) = true ∧ map.free (truncC q.x) (truncC q.y) = true ∧
    ∀ B, B = drive r q (.straight d) a → map.inMap (truncC B.x) (truncC B.y) = true →
      map.free (truncC B.x) (truncC B.y) = true := by
  obtain ⟨h1, cells, hd, hfree⟩ := hc
  refine ⟨h1, hfree _ (List.mem_of_mem_head? hd.first) h1, ?_⟩
  rintro B rfl
  exact hfree _ (List.mem_of_mem_getLast? hd.last)

/-- A turn that passed the test: a point of it, more than `π/(R-1)` of turning away from both ends (`R`
the radius in whole cells), lies in a cell at most two rows and columns away from a cell of the map that
was tested free. -/
theorem elemClear_turn_near {map : MapIf} (hpos : ∀ x y, map.inMap x y = true → 0 ≤ x ∧ 0 ≤ y) {r : ℝ} {q : Pose}
    {o : Ori} {d : Dir} {a s : ℝ} (hc : ElemClear map r q (.turn o d) a) (hR : 2 ≤ r)
    (h0 : Real.pi / (⌊r⌋ - 1) ≤ s) (h1 : s ≤ a - Real.pi / (⌊r⌋ - 1)) {c : Int × Int}
    (hin : PtInCell (drive r q (.turn o d) s).pt c) :
    ∃ c' : Int × Int, map.inMap c'.1 c'.2 = true ∧ map.free c'.1 c'.2 = true ∧ CellsWithin 2 c c' := by
  simp only [ElemClear] at hc
  set z := turnCentre r o q with hz
  have hR2 : 2 ≤ ⌊r⌋ := Int.le_floor.2 (by exact_mod_cast hR)
  rw [truncC_nonneg (by linarith : 0 ≤ r)] at hc
  set R := ⌊r⌋ with hRdef
  have hR' : (2 : ℝ) ≤ R := by exact_mod_cast hR2
  have hRpos : (0 : ℝ) < R - 1 := by linarith
  have hpi := Real.pi_pos
  -- the centre has no negative coordinates
  have left := hc (truncC z.x - R, truncC z.y) (by
    unfold RingCell
    simp only [sub_self, abs_zero]
    rw [show truncC z.x - R - truncC z.x = -R by ring, abs_neg, abs_of_nonneg (by omega : 0 ≤ R),
      max_eq_left (by omega), min_eq_right (by omega)]
    constructor <;> nlinarith)
  have below := hc (truncC z.x, truncC z.y - R) (by
    unfold RingCell
    simp only [sub_self, abs_zero]
    rw [show truncC z.y - R - truncC z.y = -R by ring, abs_neg, abs_of_nonneg (by omega : 0 ≤ R),
      max_eq_right (by omega), min_eq_left (by omega)]
    constructor <;> nlinarith)
  have cx0 : 1 ≤ truncC z.x := by have := (hpos _ _ left.1).1; simp only at this; omega
  have cy0 : 1 ≤ truncC z.y := by have := (hpos _ _ below.1).2; simp only at this; omega
  have cx : 0 ≤ z.x := by
    by_contra hlt; push Not at hlt
    have := truncC_near z.x
    have h3 : (1 : ℝ) ≤ truncC z.x := by exact_mod_cast cx0
    linarith [this.2]
  have cy : 0 ≤ z.y := by
    by_contra hlt; push Not at hlt
    have := truncC_near z.y
    have h3 : (1 : ℝ) ≤ truncC z.y := by exact_mod_cast cy0
    linarith [this.2]
  -- the point
  have hσ1 : oriSign o * dirSign d = 1 ∨ oriSign o * dirSign d = -1 := by
    cases o <;> cases d <;> norm_num [oriSign, dirSign]
  set σ : ℝ := oriSign o * dirSign d with hσ
  have hat : ∀ t : ℝ, (drive r q (.turn o d) t).x = z.x + r * Real.cos (q.theta - oriSign o * (Real.pi / 2) + σ * t) ∧
      (drive r q (.turn o d) t).y = z.y + r * Real.sin (q.theta - oriSign o * (Real.pi / 2) + σ * t) := by
    intro t
    have e : q.theta - oriSign o * (Real.pi / 2) + σ * t = (q.theta + σ * t) - oriSign o * (Real.pi / 2) := by ring
    rw [e]
    simp only [Spec.drive, hz, turnCentre, ← hσ]
    cases o <;> simp only [oriSign, one_mul, neg_mul, sub_neg_eq_add, Real.cos_sub_pi_div_two, Real.sin_sub_pi_div_two,
      Real.cos_add_pi_div_two, Real.sin_add_pi_div_two] <;> constructor <;> ring
  set φ := q.theta - oriSign o * (Real.pi / 2) + σ * s with hφ
  have hcell := ptInCell_eq hin
  simp only [Pose.pt] at hcell
  rw [(hat s).1, (hat s).2, ← hφ] at hcell
  obtain ⟨u, v, hring, hdot, hX, hco⟩ := Clear.ring_cover (R := R) (by omega) φ
  obtain ⟨⟨x1, x2⟩, ⟨y1, y2⟩⟩ := hco r (z.x - ⌊z.x⌋) (z.y - ⌊z.y⌋)
    (Int.floor_le _) (Int.lt_floor_add_one _) (by linarith [Int.floor_le z.x])
    (by linarith [Int.lt_floor_add_one z.x]) (by linarith [Int.floor_le z.y])
    (by linarith [Int.lt_floor_add_one z.y])
  have tx : truncC z.x = ⌊z.x⌋ := truncC_nonneg cx
  have ty : truncC z.y = ⌊z.y⌋ := truncC_nonneg cy
  have rc := hring (truncC z.x, truncC z.y)
  obtain ⟨hmap, hfree⟩ := hc _ rc
  refine ⟨(truncC z.x + u, truncC z.y + v), hmap, hfree ?_, ?_⟩
  · obtain ⟨Δ, ρ, hρ, hρ2, eu, ev, hΔ⟩ := Clear.turn_to u v φ hdot
    have hacc := (ringCell_accurate (by omega) rc).1
    simp only [add_sub_cancel_left] at hacc
    have hρR : (R : ℝ) - 1 < ρ := by
      by_contra hle; push Not at hle
      have h5 : ρ ^ 2 ≤ ((R : ℝ) - 1) ^ 2 := pow_le_pow_left₀ hρ.le hle 2
      have h6 : ((R : ℝ) - 1) ^ 2 < (u : ℝ) ^ 2 + (v : ℝ) ^ 2 := by exact_mod_cast hacc
      linarith
    have hΔR : |Δ| ≤ Real.pi / (R - 1) := by
      rw [le_div_iff₀ hRpos]
      have h7 : |Δ| * (R - 1) ≤ |Δ| * ρ := mul_le_mul_of_nonneg_left hρR.le (abs_nonneg _)
      have h8 : Real.pi / 2 * |(v : ℝ) * Real.cos φ - u * Real.sin φ| ≤ Real.pi / 2 * 2 :=
        mul_le_mul_of_nonneg_left hX.le (by positivity)
      linarith
    have hσΔ : |σ * Δ| ≤ Real.pi / (R - 1) := by
      rcases hσ1 with h | h <;> rw [h] <;> simpa using hΔR
    obtain ⟨d3, d4⟩ := abs_le.1 hσΔ
    have hr0 : r ≠ 0 := by linarith
    have hr1 : 0 < r := by linarith
    refine ⟨s + σ * Δ, ρ / r, by linarith, by linarith, div_pos hρ hr1, ?_⟩
    have e3 : q.theta - oriSign o * (Real.pi / 2) + σ * (s + σ * Δ) = φ + Δ := by
      have : σ * σ = 1 := by rcases hσ1 with h | h <;> rw [h] <;> norm_num
      rw [hφ]
      linear_combination Δ * this
    rw [(hat _).1, (hat _).2, e3]
    simp only [add_sub_cancel_left]
    constructor
    · rw [eu]; field_simp
    · rw [ev]; field_simp
  · rw [hcell]
    constructor
    · refine Clear.floor_near ?_ ?_ <;> rw [tx] <;> push_cast <;> linarith
    · refine Clear.floor_near ?_ ?_ <;> rw [ty] <;> push_cast <;> linarith

end PathPlanning.RS
