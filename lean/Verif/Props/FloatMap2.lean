import Verif.Props.FloatMap

/-!
# C88: where the conversions fail
-/

namespace PathPlanning
open Spec

variable {r : ℝ → ℤ} {p : ℕ}

/-- A number less than half a unit of the last digit above a `p`-digit number is rounded to it. -/
theorem binary_down (hr : WholeRounding r) (hp : 0 < p) {x : ℝ} {k e : ℤ} (hk : 2 ^ (p - 1) ≤ k) (hk' : k < 2 ^ p)
    (h1 : (k : ℝ) * 2 ^ e ≤ x) (h2 : x < (k + 1 / 2) * 2 ^ e) : binary r p x = k * 2 ^ e := by
  have h2e : (0 : ℝ) < 2 ^ e := by positivity
  have hk0 : 0 < k := lt_of_lt_of_le (by positivity) hk
  have hkr : (0 : ℝ) < k := by exact_mod_cast hk0
  have hx : 0 < x := lt_of_lt_of_le (mul_pos hkr h2e) h1
  have hlog : Int.log 2 x = e + (p - 1 : ℕ) := by
    apply le_antisymm
    · have hlt : x < (2 : ℝ) ^ (e + (p - 1 : ℕ) + 1) := by
        have e1 : (2 : ℝ) ^ (e + (p - 1 : ℕ) + 1) = 2 ^ p * 2 ^ e := by
          rw [show e + ((p - 1 : ℕ) : ℤ) + 1 = (p : ℤ) + e by omega, zpow_add₀ (by norm_num), zpow_natCast]
        have e2 : ((k : ℝ) + 1) ≤ 2 ^ p := by exact_mod_cast hk'
        rw [e1]
        calc x < (k + 1 / 2) * 2 ^ e := h2
          _ ≤ (k + 1) * 2 ^ e := mul_le_mul_of_nonneg_right (by linarith) h2e.le
          _ ≤ _ := mul_le_mul_of_nonneg_right e2 h2e.le
      have := (Int.lt_zpow_iff_log_lt (b := 2) (by norm_num) hx (x := e + (p - 1 : ℕ) + 1)).1 (by exact_mod_cast hlt)
      omega
    · apply (Int.zpow_le_iff_le_log (b := 2) (by norm_num) hx).1
      have e1 : (2 : ℝ) ^ (e + (p - 1 : ℕ)) = 2 ^ (p - 1) * 2 ^ e := by
        rw [add_comm, zpow_add₀ (by norm_num), zpow_natCast]
      have e2 : (2 : ℝ) ^ (p - 1) ≤ k := by exact_mod_cast hk
      show ((2 : ℕ) : ℝ) ^ _ ≤ x
      push_cast
      rw [e1]
      exact (mul_le_mul_of_nonneg_right e2 h2e.le).trans h1
  have hle : lastExp p x = e := by
    unfold lastExp
    rw [hlog]
    omega
  have hr1 : k ≤ r (x / 2 ^ e) := by
    have := hr.mono (show (k : ℝ) ≤ x / 2 ^ e by rw [le_div_iff₀ h2e]; exact h1)
    rwa [hr.int] at this
  have hr2 : r (x / 2 ^ e) < k + 1 := by
    have h3 := (abs_le.1 (hr.err (x / 2 ^ e))).2
    have h4 : x / 2 ^ e < k + 1 / 2 := by rw [div_lt_iff₀ h2e]; exact h2
    have : (r (x / 2 ^ e) : ℝ) < k + 1 := by linarith
    exact_mod_cast this
  unfold binary binaryPos
  rw [if_pos hx, hle, show r (x / 2 ^ e) = k by omega]

/-- `k·2^e` with at most `p` digits is representable. -/
theorem binary_exact (hr : WholeRounding r) (hp : 0 < p) {k e : ℤ} (hk : 0 < k) (hk' : k ≤ 2 ^ p) :
    binary r p (k * 2 ^ e) = k * 2 ^ e := by
  have h2e : (0 : ℝ) < 2 ^ e := by positivity
  have hx : (0 : ℝ) < k * 2 ^ e := mul_pos (by exact_mod_cast hk) h2e
  unfold binary
  rw [if_pos hx]
  exact binaryPos_rep hr hp hk hk'

namespace GridMap

theorem castU_zero : castU (0 : ℝ) = .ok 0 := by
  have := castU_floor (n := 0) (d := (0 : ℝ)) (by norm_num) (by norm_num) (by norm_num [u32])
  simpa using this

/-- The cell computed for the origin itself is cell 0. -/
theorem coordF_origin (F : Fmt) (o res : ℝ) : coordF F o res o = 0 := by
  simp [coordF, F.fl_zero]

/-- **C88 (failure of the `float` overload).**  Cell width 1/16 m, origin 4194304 m (a usual northing in a national
grid): the centre of cell 1 given as `float` is converted back to cell 0. -/
theorem roundtrip_float_fails (hrr : WholeRounding r) (m : GridMap ℝ) (hres : m.res = 1 / 16) (hox : m.ox = 2 ^ 22)
    (hoy : m.oy = 2 ^ 22) :
    m.point2cellF (doubleFmt r hrr) (m.cell2pointFloat (doubleFmt r hrr) (floatFmt r hrr) ⟨1, 1⟩).1
      (m.cell2pointFloat (doubleFmt r hrr) (floatFmt r hrr) ⟨1, 1⟩).2 ≠ .ok (true, ⟨1, 1⟩) := by
  have hc : (floatFmt r hrr).fl (centreF (doubleFmt r hrr) (2 ^ 22) (1 / 16) 1) = 2 ^ 22 := by
    have e1 : (doubleFmt r hrr).fl (((1 : ℕ) : ℝ) + 1 / 2) = 3 / 2 := by
      have := binary_exact hrr (p := 53) (by norm_num) (k := 3) (e := -1) (by norm_num) (by norm_num)
      have h2 : ((3 : ℤ) : ℝ) * 2 ^ (-1 : ℤ) = ((1 : ℕ) : ℝ) + 1 / 2 := by norm_num
      rw [h2] at this
      show binary r 53 _ = _
      rw [this]; norm_num
    have e2 : (doubleFmt r hrr).fl (1 / 16 * (3 / 2)) = 3 / 32 := by
      have := binary_exact hrr (p := 53) (by norm_num) (k := 3) (e := -5) (by norm_num) (by norm_num)
      have h2 : ((3 : ℤ) : ℝ) * 2 ^ (-5 : ℤ) = 1 / 16 * (3 / 2) := by norm_num
      rw [h2] at this
      show binary r 53 _ = _
      rw [this]; norm_num
    have e3 : (doubleFmt r hrr).fl (3 / 32 + 2 ^ 22) = 3 / 32 + 2 ^ 22 := by
      have := binary_exact hrr (p := 53) (by norm_num) (k := 2 ^ 27 + 3) (e := -5) (by norm_num) (by norm_num)
      have h2 : ((2 ^ 27 + 3 : ℤ) : ℝ) * 2 ^ (-5 : ℤ) = 3 / 32 + 2 ^ 22 := by norm_num
      rw [h2] at this
      exact this
    have e4 : (floatFmt r hrr).fl (3 / 32 + 2 ^ 22) = 2 ^ 22 := by
      have := binary_down hrr (p := 24) (by norm_num) (k := 2 ^ 23) (e := -1) (x := 3 / 32 + 2 ^ 22) (by norm_num)
        (by norm_num) (by norm_num) (by norm_num)
      show binary r 24 _ = _
      rw [this]; norm_num
    unfold centreF
    rw [e1, e2, e3, e4]
  unfold point2cellF cell2pointFloat
  simp only [hres, hox, hoy, hc, coordF_origin, castU_zero]
  intro h
  simp at h

/-- **C88 (failure of the `double` round trip).**  With the origin `2^54` cells away the centre of cell 1 is converted back
to cell 0: a bound on the origin is needed. -/
theorem roundtrip_double_fails (hrr : WholeRounding r) (m : GridMap ℝ) (hres : m.res = 1) (hox : m.ox = 2 ^ 54)
    (hoy : m.oy = 2 ^ 54) :
    m.point2cellF (doubleFmt r hrr) (m.cell2pointF (doubleFmt r hrr) ⟨1, 1⟩).1
      (m.cell2pointF (doubleFmt r hrr) ⟨1, 1⟩).2 ≠ .ok (true, ⟨1, 1⟩) := by
  have hc : centreF (doubleFmt r hrr) (2 ^ 54) 1 1 = 2 ^ 54 := by
    have e1 : (doubleFmt r hrr).fl (((1 : ℕ) : ℝ) + 1 / 2) = 3 / 2 := by
      have := binary_exact hrr (p := 53) (by norm_num) (k := 3) (e := -1) (by norm_num) (by norm_num)
      have h2 : ((3 : ℤ) : ℝ) * 2 ^ (-1 : ℤ) = ((1 : ℕ) : ℝ) + 1 / 2 := by norm_num
      rw [h2] at this
      show binary r 53 _ = _
      rw [this]; norm_num
    have e2 : (doubleFmt r hrr).fl (1 * (3 / 2)) = 3 / 2 := by
      rw [one_mul, ← e1]; exact (doubleFmt r hrr).ok.idem _
    have e4 : (doubleFmt r hrr).fl (3 / 2 + 2 ^ 54) = 2 ^ 54 := by
      have := binary_down hrr (p := 53) (by norm_num) (k := 2 ^ 52) (e := 2) (x := 3 / 2 + 2 ^ 54) (by norm_num)
        (by norm_num) (by norm_num) (by norm_num)
      show binary r 53 _ = _
      rw [this]; norm_num
    unfold centreF
    rw [e1, e2, e4]
  unfold point2cellF cell2pointF
  simp only [hres, hox, hoy, hc, coordF_origin, castU_zero]
  intro h
  simp at h

/-- The hypotheses of the round trip are met by an ordinary map: 1000 x 800 cells of 5 cm, origin (-12.3, 4.5). -/
example : ∃ m : GridMap ℝ, 0 < m.res ∧ m.width = 1000 ∧ m.height = 800 ∧ |m.ox| ≤ 2 ^ 50 * m.res ∧ |m.oy| ≤ 2 ^ 50 * m.res ∧
    (⟨999, 799⟩ : UCell).x < m.width ∧ (⟨999, 799⟩ : UCell).y < m.height ∧
    WellInside m.ox m.res (1 / 10 ^ 6) 10 (-11.78) := by
  refine ⟨(mk' 1000 800 (5 / 100)).setOrigin (-12.3) 4.5, ?_⟩
  simp only [mk', setOrigin, WellInside]
  norm_num [abs_le]

end GridMap
end PathPlanning
