import Verif.Model.FloatAngle
import Verif.Spec.FloatAngle
import Verif.Props.Managers
import Verif.Props.FloatMap
import Mathlib.Analysis.Real.Pi.Bounds

/-!
# C106: orientation slots in floating point
-/

namespace PathPlanning
open Spec

variable {F : Fmt} {clamp : ℝ → ℝ}

theorem piF_err (F : Fmt) : |piF F - Real.pi| ≤ 3.15 * F.u := by
  have := F.ok.err Real.pi
  rw [abs_of_pos Real.pi_pos] at this
  have h := Real.pi_lt_d2
  have := mul_le_mul_of_nonneg_left h.le F.u_nonneg
  unfold piF; linarith

/-- Error of a rounded result. -/
theorem fl_near (F : Fmt) {x y d B : ℝ} (h : |x - y| ≤ d) (hB : |x| ≤ B) : |F.fl x - y| ≤ d + F.u * B := by
  have h1 := F.ok.err x
  have h2 := mul_le_mul_of_nonneg_left hB F.u_nonneg
  have h3 := abs_sub_le (F.fl x) x y
  linarith

theorem abs_le_of_near {x y d B : ℝ} (h : |x - y| ≤ d) (hB : |y| ≤ B) : |x| ≤ B + d := by
  have := abs_sub_abs_le_abs_sub x y
  linarith

/-- Error of a quotient. -/
theorem div_near {s T v w a b : ℝ} (hs : |s - v| ≤ a) (hT : |T - w| ≤ b) (hv : |v| ≤ w) (hT6 : 6 ≤ T) (hw : 0 < w) :
    |s / T - v / w| ≤ a / 6 + b / 6 := by
  have hT0 : 0 < T := by linarith
  have e : s / T - v / w = (s - v) / T + v / w * ((w - T) / T) := by field_simp; ring
  rw [e]
  refine (abs_add_le _ _).trans ?_
  rw [abs_div, abs_of_pos hT0, abs_mul, abs_div, abs_div, abs_of_pos hT0, abs_of_pos hw, abs_sub_comm w T]
  have ha : 0 ≤ a := (abs_nonneg _).trans hs
  have hb : 0 ≤ b := (abs_nonneg _).trans hT
  have h1 : |s - v| / T ≤ a / 6 := div_le_div₀ ha hs (by norm_num) hT6
  have h2 : |T - w| / T ≤ b / 6 := div_le_div₀ hb hT (by norm_num) hT6
  have h3 : |v| / w ≤ 1 := by rw [div_le_one hw]; exact hv
  have h4 : |v| / w * (|T - w| / T) ≤ 1 * (b / 6) := mul_le_mul h3 h2 (by positivity) (by norm_num)
  linarith

/-- **C106, error.** The position computed for an orientation differs from the exact one by at most `e/6 + 8u` sectors
per sector of the circle, `e` being the error of the clamp. -/
theorem slotCoordF_err (hu : F.u ≤ 1 / 64) {slots : Nat} {θ c e : ℝ} (he : e ≤ 1) (hc : Normalised θ c)
    (hn : |clamp θ - c| ≤ e) :
    |slotCoordF F clamp slots θ - sectorPos (slots - 1) c| ≤ (e / 6 + 8 * F.u) * ((slots - 1 : Nat) : ℝ) := by
  have u0 := F.u_nonneg
  have e0 : 0 ≤ e := (abs_nonneg _).trans hn
  have p1 := Real.pi_gt_d2
  have p2 := Real.pi_lt_d2
  obtain ⟨c1, c2, -⟩ := hc
  have hP := piF_err F
  unfold slotCoordF sectorPos
  generalize piF F = P at hP ⊢
  generalize clamp θ = c' at hn ⊢
  have hnn : (0 : ℝ) ≤ ((slots - 1 : Nat) : ℝ) := Nat.cast_nonneg _
  generalize ((slots - 1 : Nat) : ℝ) = n at hnn ⊢
  -- the sum
  have hv0 : 0 ≤ c + Real.pi := by linarith
  have hv : |c + Real.pi| ≤ 2 * Real.pi := by rw [abs_of_nonneg hv0]; linarith
  have s1 : |(c' + P) - (c + Real.pi)| ≤ e + 3.15 * F.u := by
    have : (c' + P) - (c + Real.pi) = (c' - c) + (P - Real.pi) := by ring
    rw [this]; exact (abs_add_le _ _).trans (add_le_add hn hP)
  have s2 : |c' + P| ≤ 7.4 := by
    have := abs_le_of_near s1 hv
    linarith
  have s3 := fl_near F s1 s2
  generalize F.fl (c' + P) = s at s3 ⊢
  -- twice pi
  have t1 : |2 * P - 2 * Real.pi| ≤ 6.3 * F.u := by
    rw [← mul_sub, abs_mul, abs_two]; linarith
  have t2 : |2 * P| ≤ 6.4 := by
    have := abs_le_of_near t1 (B := 6.3) (by rw [abs_of_pos (by linarith)]; linarith)
    linarith
  have t3 := fl_near F t1 t2
  generalize F.fl (2 * P) = T at t3 ⊢
  have T6 : 6 ≤ T := by
    have := (abs_le.1 t3).1
    linarith
  -- the quotient
  have q1 := div_near s3 t3 hv T6 (by linarith)
  have hv1 : |(c + Real.pi) / (2 * Real.pi)| ≤ 1 := by
    rw [abs_div, abs_of_pos (show 0 < 2 * Real.pi by linarith), div_le_one (by linarith)]; exact hv
  have q2 := abs_le_of_near q1 hv1
  have q2' : |s / T| ≤ 1.3 := by linarith
  have q3 := fl_near F q1 q2'
  have q4 : |F.fl (s / T) - (c + Real.pi) / (2 * Real.pi)| ≤ e / 6 + 5.2 * F.u := q3.trans (by linarith)
  generalize F.fl (s / T) = q at q4 ⊢
  have q5 : |q| ≤ 1.3 := by
    have := abs_le_of_near q4 hv1
    linarith
  -- the number of sectors
  have n1 := F.ok.err n
  rw [abs_of_nonneg hnn] at n1
  have n2 : |F.fl n| ≤ 1.02 * n := by
    have := abs_le_of_near n1 (abs_of_nonneg hnn).le
    nlinarith
  generalize F.fl n = N at n1 n2 ⊢
  generalize (c + Real.pi) / (2 * Real.pi) = w at q4 hv1 ⊢
  have m1 : |q * N - w * n| ≤ 1.3 * (F.u * n) + (e / 6 + 5.2 * F.u) * n := by
    have : q * N - w * n = q * (N - n) + (q - w) * n := by ring
    rw [this]
    refine (abs_add_le _ _).trans ?_
    rw [abs_mul, abs_mul, abs_of_nonneg hnn]
    exact add_le_add (mul_le_mul q5 n1 (abs_nonneg _) (by norm_num)) (mul_le_mul_of_nonneg_right q4 hnn)
  have m2 : |q * N| ≤ 1.3 * (1.02 * n) := by
    rw [abs_mul]; exact mul_le_mul q5 n2 (abs_nonneg _) (by norm_num)
  have m3 := fl_near F m1 m2
  refine m3.trans ?_
  have : 0 ≤ F.u * n := mul_nonneg u0 hnn
  nlinarith

theorem sectorPos_range {θ c : ℝ} (hc : Normalised θ c) (n : Nat) : 0 ≤ sectorPos n c ∧ sectorPos n c ≤ n := by
  have hp := Real.pi_pos
  obtain ⟨c1, c2, -⟩ := hc
  have h0 : 0 ≤ (c + Real.pi) / (2 * Real.pi) := div_nonneg (by linarith) (by linarith)
  have h1 : (c + Real.pi) / (2 * Real.pi) ≤ 1 := by rw [div_le_one (by linarith)]; linarith
  have hn : (0 : ℝ) ≤ n := Nat.cast_nonneg n
  exact ⟨mul_nonneg h0 hn, by unfold sectorPos; nlinarith⟩

/-- A number less than one away from `[0, n]` is converted to `unsigned`, and less than one away from `x`. -/
theorem castU_close {x y : ℝ} {n : Nat} (hn : n < 2 ^ 31) (h0 : 0 ≤ x) (h1 : x ≤ n) (h : |y - x| < 1) :
    ∃ t : Nat, castU y = .ok t ∧ t ≤ n ∧ (⌊x⌋ - 1 ≤ (t : ℤ)) ∧ (t : ℤ) ≤ ⌊x⌋ + 1 := by
  obtain ⟨a1, a2⟩ := abs_lt.1 h
  have fx := Int.floor_le x
  have fx' := Int.lt_floor_add_one x
  have fx0 : 0 ≤ ⌊x⌋ := Int.floor_nonneg.2 h0
  by_cases hy : 0 ≤ y
  · have fy := Int.floor_le y
    have fy' := Int.lt_floor_add_one y
    have fy0 : 0 ≤ ⌊y⌋ := Int.floor_nonneg.2 hy
    have h2 : ⌊y⌋ < (n : ℤ) + 1 := by
      rw [Int.floor_lt]; push_cast; linarith
    have h3 : ⌊y⌋ < ⌊x⌋ + 2 := by
      rw [Int.floor_lt]; push_cast; linarith
    have h4 : ⌊x⌋ < ⌊y⌋ + 2 := by
      rw [Int.floor_lt]; push_cast; linarith
    refine ⟨⌊y⌋.toNat, ?_, by omega, by omega, by omega⟩
    unfold castU
    rw [truncC_nonneg hy, if_pos ⟨fy0, by omega⟩]
  · have h3 : ⌊x⌋ < 1 := by
      rw [Int.floor_lt]; push_cast; linarith
    refine ⟨0, ?_, Nat.zero_le _, by omega, by omega⟩
    unfold castU
    rw [truncC_eq_zero (by linarith) (by linarith)]
    rfl

theorem slot_small {slots : Nat} {e : ℝ} (h : (e + 48 * F.u) * slots < 6) (hs : 1 ≤ slots) (e0 : 0 ≤ e) :
    (e / 6 + 8 * F.u) * ((slots - 1 : Nat) : ℝ) < 1 := by
  have u0 := F.u_nonneg
  rw [Nat.cast_sub hs, Nat.cast_one]
  nlinarith

/-- **C106, range and neighbours.** The slot number computed for an orientation exists and is below the number of slots:
rounding errors lead neither to undefined conversions nor to accesses outside the node array.  It is the exact slot number
or one next to it. -/
theorem angle2indexF_range (hu : F.u ≤ 1 / 64) {slots : Nat} (hs : 1 < slots) (hs2 : slots < 2 ^ 31) {θ e : ℝ}
    (hε : (e + 48 * F.u) * slots < 6) (he : e ≤ 1) (hn : ClampedNear clamp e θ) :
    ∃ t : Nat, angle2indexF F clamp slots θ = .ok t ∧ t < slots ∧
      ∃ c, Normalised θ c ∧ |clamp θ - c| ≤ e ∧ abs ((t : ℤ) - ⌊sectorPos (slots - 1) c⌋) ≤ 1 := by
  obtain ⟨c, hc, hcn⟩ := hn
  have e0 : 0 ≤ e := (abs_nonneg _).trans hcn
  have h1 := slotCoordF_err (slots := slots) hu he hc hcn
  have h2 := slot_small hε hs.le e0
  obtain ⟨r0, r1⟩ := sectorPos_range hc (slots - 1)
  obtain ⟨t, ht, htn, ht1, ht2⟩ := castU_close (by omega) r0 r1 (h1.trans_lt h2)
  exact ⟨t, ht, by omega, c, hc, hcn, abs_le.2 ⟨by omega, by omega⟩⟩

/-- **C106, same slot.** An orientation that is not within `e + 48u` sectors (relative to the circle) of the border of its
sector gets its exact slot. -/
theorem angle2indexF_exact (hu : F.u ≤ 1 / 64) {slots t : Nat} (hs2 : slots < 2 ^ 31) (ht : t < slots)
    {θ c e : ℝ} (he : e ≤ 1) (hc : Normalised θ c) (hn : |clamp θ - c| ≤ e)
    (h1 : t + (e / 6 + 8 * F.u) * ((slots - 1 : Nat) : ℝ) ≤ sectorPos (slots - 1) c)
    (h2 : sectorPos (slots - 1) c < t + 1 - (e / 6 + 8 * F.u) * ((slots - 1 : Nat) : ℝ)) :
    angle2indexF F clamp slots θ = .ok t := by
  have h := abs_le.1 (slotCoordF_err (slots := slots) hu he hc hn)
  exact castU_floor (by linarith [h.1]) (by linarith [h.2]) (by unfold u32; omega)

/-- The orientation stored in the nodes of a slot is off by at most `64 u` from the exact one. -/
theorem slotThetaF_err (hu : F.u ≤ 1 / 64) {slots t : Nat} (hs : 1 < slots) (ht : t < slots) :
    |slotThetaF F slots t - slotTheta slots t| ≤ 64 * F.u := by
  have u0 := F.u_nonneg
  have p1 := Real.pi_gt_d2
  have p2 := Real.pi_lt_d2
  have hP := piF_err F
  have hsR : (0 : ℝ) < slots := by exact_mod_cast (by omega : 0 < slots)
  have htR : (0 : ℝ) ≤ t := Nat.cast_nonneg t
  have hts : (t : ℝ) ≤ slots := by exact_mod_cast ht.le
  unfold slotThetaF slotTheta
  generalize piF F = P at hP ⊢
  generalize (slots : ℝ) = n at *
  generalize (t : ℝ) = k at *
  -- -pi
  have a1 : |(0 - P) - (0 - Real.pi)| ≤ 3.15 * F.u := by
    have : (0 - P) - (0 - Real.pi) = -(P - Real.pi) := by ring
    rw [this, abs_neg]; exact hP
  have a2 : |0 - P| ≤ 3.2 := by
    have := abs_le_of_near a1 (B := 3.15) (by rw [zero_sub, abs_neg, abs_of_pos (by linarith)]; linarith)
    linarith
  have a3 := fl_near F a1 a2
  generalize F.fl (0 - P) = a at a3 ⊢
  -- 2 pi
  have t1 : |2 * P - 2 * Real.pi| ≤ 6.3 * F.u := by
    rw [← mul_sub, abs_mul, abs_two]; linarith
  have t2 : |2 * P| ≤ 6.4 := by
    have := abs_le_of_near t1 (B := 6.3) (by rw [abs_of_pos (by linarith)]; linarith)
    linarith
  have t3 := fl_near F t1 t2
  generalize F.fl (2 * P) = T at t3 ⊢
  have T7 : |T| ≤ 6.5 := by
    have := abs_le_of_near t3 (B := 6.3) (by rw [abs_of_pos (by linarith)]; linarith)
    linarith
  have n1 := F.ok.err n
  rw [abs_of_pos hsR] at n1
  have n2 := abs_le.1 n1
  generalize F.fl n = N at n1 n2 ⊢
  have hN : 63 / 64 * n ≤ N := by nlinarith [n2.1]
  have hN0 : 0 < N := by linarith
  -- the quotient, multiplied by the number of slots
  have d1 : |T / N - 2 * Real.pi / n| * n ≤ 21 * F.u := by
    have ee : T / N - 2 * Real.pi / n = ((T - 2 * Real.pi) * n - 2 * Real.pi * (N - n)) / (N * n) := by
      field_simp; ring
    rw [ee, abs_div, abs_of_pos (mul_pos hN0 hsR), div_mul_eq_mul_div, div_le_iff₀ (mul_pos hN0 hsR)]
    have b1 : |(T - 2 * Real.pi) * n - 2 * Real.pi * (N - n)| ≤ (12.7 * F.u) * n + 6.3 * (F.u * n) := by
      refine (abs_sub _ _).trans ?_
      rw [abs_mul, abs_mul, abs_of_pos hsR, abs_of_pos (show 0 < 2 * Real.pi by linarith)]
      refine add_le_add (mul_le_mul_of_nonneg_right (t3.trans (by linarith)) hsR.le) ?_
      exact mul_le_mul (by linarith) n1 (abs_nonneg _) (by norm_num)
    have b2 : (12.7 * F.u) * n + 6.3 * (F.u * n) ≤ 21 * F.u * N := by nlinarith
    calc _ ≤ (21 * F.u * N) * n := mul_le_mul_of_nonneg_right (b1.trans b2) hsR.le
      _ = _ := by ring
  have d2 : |T / N| * n ≤ 6.7 := by
    rw [abs_div, abs_of_pos hN0, div_mul_eq_mul_div, div_le_iff₀ hN0]
    nlinarith
  have d3 : |F.fl (T / N) - 2 * Real.pi / n| * n ≤ 28 * F.u := by
    have := F.ok.err (T / N)
    have h3 := abs_sub_le (F.fl (T / N)) (T / N) (2 * Real.pi / n)
    have : |F.fl (T / N) - T / N| * n ≤ F.u * 6.7 := by
      calc _ ≤ (F.u * |T / N|) * n := mul_le_mul_of_nonneg_right this hsR.le
        _ = F.u * (|T / N| * n) := by ring
        _ ≤ _ := mul_le_mul_of_nonneg_left d2 u0
    nlinarith
  generalize F.fl (T / N) = d at d3 ⊢
  have d4 : |d| * n ≤ 6.8 := by
    have := abs_sub_abs_le_abs_sub d (2 * Real.pi / n)
    have h2 : |2 * Real.pi / n| * n = 2 * Real.pi := by
      rw [abs_of_pos (div_pos (by linarith) hsR)]; field_simp
    nlinarith
  -- the product
  have k1 := F.ok.err k
  rw [abs_of_nonneg htR] at k1
  generalize F.fl k = M at k1 ⊢
  have m1 : |d * M - 2 * Real.pi / n * k| ≤ 35 * F.u := by
    have ee : d * M - 2 * Real.pi / n * k = d * (M - k) + (d - 2 * Real.pi / n) * k := by ring
    rw [ee]
    refine (abs_add_le _ _).trans ?_
    rw [abs_mul, abs_mul, abs_of_nonneg htR]
    have b1 : |d| * |M - k| ≤ 6.8 * F.u := by
      calc |d| * |M - k| ≤ |d| * (F.u * n) := mul_le_mul_of_nonneg_left
            (k1.trans (mul_le_mul_of_nonneg_left hts u0)) (abs_nonneg _)
        _ = F.u * (|d| * n) := by ring
        _ ≤ F.u * 6.8 := mul_le_mul_of_nonneg_left d4 u0
        _ = _ := by ring
    have b2 : |d - 2 * Real.pi / n| * k ≤ 28 * F.u :=
      (mul_le_mul_of_nonneg_left hts (abs_nonneg _)).trans d3
    linarith
  have hk : |2 * Real.pi / n * k| ≤ 6.3 := by
    rw [abs_of_nonneg (by positivity), div_mul_eq_mul_div, div_le_iff₀ hsR]
    nlinarith
  have m2 := abs_le_of_near m1 hk
  have m3 := fl_near F m1 (B := 6.9) (by linarith)
  generalize F.fl (d * M) = g at m3 ⊢
  -- the sum
  have z1 : |a + g - (0 - Real.pi + 2 * Real.pi / n * k)| ≤ (3.15 * F.u + F.u * 3.2) + (35 * F.u + F.u * 6.9) := by
    have ee : a + g - (0 - Real.pi + 2 * Real.pi / n * k) = (a - (0 - Real.pi)) + (g - 2 * Real.pi / n * k) := by ring
    rw [ee]; exact (abs_add_le _ _).trans (add_le_add a3 m3)
  have z2 := abs_le_of_near z1 (B := 9.5) (by
    refine (abs_add_le _ _).trans ?_
    rw [zero_sub, abs_neg, abs_of_pos (by linarith)]; linarith)
  have z3 := fl_near F z1 (B := 10.3) (by linarith)
  exact z3.trans (by linarith)

/-- **C106, stored orientations.** In floating point, too, the orientation stored in the nodes of slot `t ≥ 1` is looked up
in slot `t - 1`, provided the clamp leaves this orientation alone, up to an error `e`. -/
theorem angle2indexF_slotTheta (hu : F.u ≤ 1 / 64) {slots t : Nat} (hs : 1 < slots) (hs2 : slots < 2 ^ 31) (ht : 1 ≤ t)
    (hts : t < slots) {e : ℝ} (he : e ≤ 1) (hε : (e + 120 * F.u) * slots ^ 2 < 6)
    (hn : |clamp (slotThetaF F slots t) - slotThetaF F slots t| ≤ e) :
    angle2indexF F clamp slots (slotThetaF F slots t) = .ok (t - 1) := by
  have u0 := F.u_nonneg
  have e0 : 0 ≤ e := (abs_nonneg _).trans hn
  have p1 := Real.pi_gt_d2
  have p2 := Real.pi_lt_d2
  have hsR : (2 : ℝ) ≤ slots := by exact_mod_cast hs
  have htR : (1 : ℝ) ≤ t := by exact_mod_cast ht
  have hts' : (t : ℝ) + 1 ≤ slots := by exact_mod_cast hts
  have herr := abs_le.1 (slotThetaF_err hu hs hts)
  have ex : slotTheta slots t = -Real.pi + 2 * Real.pi * (t / slots) := by
    unfold slotTheta; field_simp; ring
  rw [ex] at herr
  have hsm : ((slots - 1 : Nat) : ℝ) = slots - 1 := by
    rw [Nat.cast_sub (by omega)]; simp
  have htm : ((t - 1 : Nat) : ℝ) = t - 1 := by rw [Nat.cast_sub ht]; simp
  have hs0 : (0 : ℝ) < slots := by linarith
  have f0 : 1 / (slots : ℝ) ≤ t / slots := div_le_div_of_nonneg_right htR hs0.le
  have f1 : (t : ℝ) / slots ≤ 1 - 1 / slots := by
    rw [le_sub_iff_add_le, ← add_div, div_le_one hs0]; exact hts'
  have hf : (t : ℝ) / slots * slots = t := by field_simp
  have hg : 1 / (slots : ℝ) * slots = 1 := by field_simp
  have hε2 : (e + 120 * F.u) * slots < 6 * (1 / slots) := by
    rw [mul_one_div, lt_div_iff₀ hs0]; linarith
  have g0 : 0 < 1 / (slots : ℝ) := by positivity
  generalize (t : ℝ) / slots = f at *
  generalize 1 / (slots : ℝ) = g at *
  have k1 : 120 * F.u * slots ≤ (e + 120 * F.u) * slots := mul_le_mul_of_nonneg_right (by linarith) hs0.le
  have k2 : 120 * F.u < 6 * g := by nlinarith
  have hnorm : Normalised (slotThetaF F slots t) (slotThetaF F slots t) :=
    ⟨by nlinarith [herr.1], by nlinarith [herr.2], 0, by simp⟩
  have hpos : |sectorPos (slots - 1) (slotThetaF F slots t) - f * (slots - 1)| ≤ 11 * F.u * (slots - 1) := by
    unfold sectorPos
    rw [hsm, ← sub_mul, abs_mul, abs_of_nonneg (show (0 : ℝ) ≤ slots - 1 by linarith)]
    refine mul_le_mul_of_nonneg_right ?_ (by linarith)
    have : (slotThetaF F slots t + Real.pi) / (2 * Real.pi) - f =
        (slotThetaF F slots t - (-Real.pi + 2 * Real.pi * f)) / (2 * Real.pi) := by field_simp; ring
    rw [this, abs_div, abs_of_pos (show 0 < 2 * Real.pi by linarith), div_le_iff₀ (by linarith)]
    refine (abs_le.2 herr).trans ?_
    nlinarith
  have hpos := abs_le.1 hpos
  have hfs : f * (slots - 1) = t - f := by rw [mul_sub, hf]; ring
  rw [hfs] at hpos
  have hb : (e / 6 + 8 * F.u) * ((slots : ℝ) - 1) + 11 * F.u * (slots - 1) < g := by
    have : (e / 6 + 8 * F.u) * ((slots : ℝ) - 1) + 11 * F.u * (slots - 1) ≤ (e + 120 * F.u) * slots / 6 := by nlinarith
    linarith
  refine angle2indexF_exact hu hs2 (by omega) he hnorm hn ?_ ?_ <;> rw [hsm, htm]
  · linarith [hpos.1]
  · linarith [hpos.2]

/-! ### The slots of the library, in `double` -/

/-- **C106, `double`.** With 32 or 36 slots and a clamp that is off by at most `10^-3` every orientation gets a slot that
exists, and the orientation stored in slot `t ≥ 1` gets slot `t - 1`. -/
theorem angle2index_double {r : ℝ → ℤ} (hr : WholeRounding r) {slots : Nat} (hs : slots = 32 ∨ slots = 36) :
    (∀ θ, ClampedNear clamp (1 / 1000) θ →
      ∃ t : Nat, angle2indexF (doubleFmt r hr) clamp slots θ = .ok t ∧ t < slots ∧
        ∃ c, Normalised θ c ∧ |clamp θ - c| ≤ 1 / 1000 ∧ abs ((t : ℤ) - ⌊sectorPos (slots - 1) c⌋) ≤ 1) ∧
    ∀ t, 1 ≤ t → t < slots →
      |clamp (slotThetaF (doubleFmt r hr) slots t) - slotThetaF (doubleFmt r hr) slots t| ≤ 1 / 1000 →
      angle2indexF (doubleFmt r hr) clamp slots (slotThetaF (doubleFmt r hr) slots t) = .ok (t - 1) := by
  have hu : (doubleFmt r hr).u = (2 : ℝ)⁻¹ ^ 53 := rfl
  have hu1 : (doubleFmt r hr).u ≤ 1 / 64 := by rw [hu]; norm_num
  constructor
  · intro θ h
    refine angle2indexF_range hu1 (by omega) (by omega) ?_ (by norm_num) h
    rw [hu]
    rcases hs with rfl | rfl <;> norm_num
  · intro t h1 h2 h
    refine angle2indexF_slotTheta hu1 (by omega) (by omega) h1 h2 (by norm_num) ?_ h
    rw [hu]
    rcases hs with rfl | rfl <;> norm_num

/-- The hypotheses are met: an exact clamp satisfies the specification with any error. -/
theorem clampedNear_of_spec (hc : ClampSpec clamp) {e : ℝ} (he : 0 ≤ e) (θ : ℝ) : ClampedNear clamp e θ :=
  ⟨clamp θ, ⟨hc.lo θ, hc.hi θ, hc.mod θ⟩, by simpa using he⟩

/-- ... and so does one with an error: `M_PI` itself, which is not an orientation in `[-π, π]` if it is rounded upwards,
is still put into a slot that exists. -/
theorem angle2index_double_pi {r : ℝ → ℤ} (hr : WholeRounding r) (hcl : clamp Real.pi = piF (doubleFmt r hr)) :
    ∃ t : Nat, angle2indexF (doubleFmt r hr) clamp 32 Real.pi = .ok t ∧ t < 32 ∧ 30 ≤ t := by
  have hp := Real.pi_pos
  have h := piF_err (doubleFmt r hr)
  have hu : (doubleFmt r hr).u = (2 : ℝ)⁻¹ ^ 53 := rfl
  have hnorm : Normalised Real.pi Real.pi := ⟨by linarith, le_refl _, 0, by simp⟩
  have hcn : |clamp Real.pi - Real.pi| ≤ 1 / 1000 := by
    rw [hcl]; refine h.trans ?_; rw [hu]; norm_num
  have h1 := slotCoordF_err (F := doubleFmt r hr) (slots := 32) (by rw [hu]; norm_num) (by norm_num) hnorm hcn
  have h2 := slot_small (F := doubleFmt r hr) (slots := 32) (e := 1 / 1000) (by rw [hu]; norm_num) (by norm_num) (by norm_num)
  obtain ⟨r0, r1⟩ := sectorPos_range hnorm (32 - 1)
  obtain ⟨t, ht, htn, ht1, -⟩ := castU_close (by norm_num) r0 r1 (h1.trans_lt h2)
  refine ⟨t, ht, by omega, ?_⟩
  have : sectorPos (32 - 1) Real.pi = ((31 : ℤ) : ℝ) := by
    unfold sectorPos; push_cast; field_simp; norm_num
  rw [this, Int.floor_intCast] at ht1
  omega

end PathPlanning
