import Verif.Spec.Float
import Mathlib.Tactic.Linarith

/-!
# Rounding to nearest with `p` binary digits is a rounding with relative error `2^-p`
-/

namespace PathPlanning.Spec

/-- Mathlib's `round` (halves up) is an example of a rounding to whole numbers. -/
theorem wholeRounding_round : WholeRounding (round : ℝ → ℤ) where
  mono x y h := by
    rw [round_eq, round_eq]; exact Int.floor_le_floor (by linarith)
  int n := round_intCast n
  err x := by rw [abs_sub_comm]; exact abs_sub_round x

variable {r : ℝ → ℤ} {p : ℕ}

theorem scaled_bounds (hp : 0 < p) {x : ℝ} (hx : 0 < x) :
    (2 : ℝ) ^ (p - 1 : ℕ) ≤ x / 2 ^ lastExp p x ∧ x / 2 ^ lastExp p x < 2 ^ p := by
  have h2 : (0 : ℝ) < 2 ^ lastExp p x := by positivity
  have hlo : (2 : ℝ) ^ Int.log 2 x ≤ x := by
    have := Int.zpow_log_le_self (b := 2) (by norm_num) hx
    exact_mod_cast this
  have hhi : x < (2 : ℝ) ^ (Int.log 2 x + 1) := by
    have := Int.lt_zpow_succ_log_self (b := 2) (by norm_num) x
    exact_mod_cast this
  constructor
  · rw [le_div_iff₀ h2]
    refine le_trans (le_of_eq ?_) hlo
    rw [← zpow_natCast, ← zpow_add₀ (by norm_num)]
    congr 1
    unfold lastExp
    omega
  · rw [div_lt_iff₀ h2]
    refine lt_of_lt_of_eq hhi ?_
    rw [← zpow_natCast, ← zpow_add₀ (by norm_num)]
    congr 1
    unfold lastExp
    omega

theorem round_bounds (hr : WholeRounding r) (hp : 0 < p) {x : ℝ} (hx : 0 < x) :
    (2 : ℤ) ^ (p - 1 : ℕ) ≤ r (x / 2 ^ lastExp p x) ∧ r (x / 2 ^ lastExp p x) ≤ 2 ^ p := by
  obtain ⟨h1, h2⟩ := scaled_bounds hp hx
  constructor
  · have := hr.mono h1
    rwa [show ((2 : ℝ) ^ (p - 1)) = (((2 : ℤ) ^ (p - 1) : ℤ) : ℝ) by push_cast; rfl, hr.int] at this
  · have := hr.mono h2.le
    rwa [show ((2 : ℝ) ^ p) = (((2 : ℤ) ^ p : ℤ) : ℝ) by push_cast; rfl, hr.int] at this

/-- Bounds of the rounded number by powers of two. -/
theorem binaryPos_bounds (hr : WholeRounding r) (hp : 0 < p) {x : ℝ} (hx : 0 < x) :
    (2 : ℝ) ^ Int.log 2 x ≤ binaryPos r p x ∧ binaryPos r p x ≤ 2 ^ (Int.log 2 x + 1) := by
  obtain ⟨h1, h2⟩ := round_bounds hr hp hx
  have h0 : (0 : ℝ) < 2 ^ lastExp p x := by positivity
  unfold binaryPos
  constructor
  · have : ((2 : ℝ) ^ (p - 1 : ℕ)) ≤ (r (x / 2 ^ lastExp p x) : ℝ) := by exact_mod_cast h1
    refine le_trans (le_of_eq ?_) (mul_le_mul_of_nonneg_right this h0.le)
    rw [← zpow_natCast, ← zpow_add₀ (by norm_num)]
    congr 1
    unfold lastExp
    omega
  · have : (r (x / 2 ^ lastExp p x) : ℝ) ≤ ((2 : ℝ) ^ p) := by exact_mod_cast h2
    refine le_trans (mul_le_mul_of_nonneg_right this h0.le) (le_of_eq ?_)
    rw [← zpow_natCast, ← zpow_add₀ (by norm_num)]
    congr 1
    unfold lastExp
    omega

theorem binaryPos_pos (hr : WholeRounding r) (hp : 0 < p) {x : ℝ} (hx : 0 < x) : 0 < binaryPos r p x :=
  lt_of_lt_of_le (by positivity) (binaryPos_bounds hr hp hx).1

theorem binaryPos_mono (hr : WholeRounding r) (hp : 0 < p) {x y : ℝ} (hx : 0 < x) (hxy : x ≤ y) :
    binaryPos r p x ≤ binaryPos r p y := by
  have hy : 0 < y := lt_of_lt_of_le hx hxy
  have hl : Int.log 2 x ≤ Int.log 2 y := Int.log_mono_right hx hxy
  rcases hl.lt_or_eq with h | h
  · refine (binaryPos_bounds hr hp hx).2.trans (le_trans ?_ (binaryPos_bounds hr hp hy).1)
    exact zpow_le_zpow_right₀ (by norm_num) (by omega)
  · have he : lastExp p x = lastExp p y := by unfold lastExp; rw [h]
    unfold binaryPos
    rw [he]
    have h0 : (0 : ℝ) < 2 ^ lastExp p y := by positivity
    refine mul_le_mul_of_nonneg_right ?_ h0.le
    exact_mod_cast hr.mono (div_le_div_of_nonneg_right hxy h0.le)

/-- Whole multiples of the last digit, with at most `p` digits, are not changed. -/
theorem binaryPos_rep (hr : WholeRounding r) (hp : 0 < p) {k : ℤ} {e : ℤ} (hk : 0 < k) (hk' : k ≤ 2 ^ p) :
    binaryPos r p (k * 2 ^ e) = k * 2 ^ e := by
  have h2e : (0 : ℝ) < 2 ^ e := by positivity
  have hx : (0 : ℝ) < k * 2 ^ e := mul_pos (by exact_mod_cast hk) h2e
  -- the quotient is whole
  have main : ∃ n : ℤ, (k * 2 ^ e : ℝ) / 2 ^ lastExp p (k * 2 ^ e : ℝ) = n := by
    by_cases hle : lastExp p (k * 2 ^ e : ℝ) ≤ e
    · refine ⟨k * 2 ^ (e - lastExp p (k * 2 ^ e : ℝ)).toNat, ?_⟩
      push_cast
      rw [mul_div_assoc, ← zpow_sub₀ (by norm_num)]
      congr 1
      rw [← zpow_natCast]
      congr 1
      omega
    · -- then the number is `2^(p+e)`
      push Not at hle
      have hlog : p + e ≤ Int.log 2 (k * 2 ^ e : ℝ) := by unfold lastExp at hle; omega
      have h1 : (2 : ℝ) ^ (p + e : ℤ) ≤ k * 2 ^ e := by
        refine le_trans (zpow_le_zpow_right₀ (by norm_num) hlog) ?_
        have := Int.zpow_log_le_self (b := 2) (by norm_num) hx
        exact_mod_cast this
      have h3 : (k * 2 ^ e : ℝ) = 2 ^ (p + e : ℤ) := by
        refine le_antisymm ?_ h1
        rw [zpow_add₀ (by norm_num), zpow_natCast]
        exact mul_le_mul_of_nonneg_right (by exact_mod_cast hk') h2e.le
      have h4 : Int.log 2 (k * 2 ^ e : ℝ) = p + e := by
        rw [h3]; exact_mod_cast Int.log_zpow (R := ℝ) (b := 2) (by norm_num) (p + e)
      refine ⟨2 ^ (p - 1), ?_⟩
      unfold lastExp
      rw [h4, h3, ← zpow_sub₀ (by norm_num)]
      push_cast
      rw [← zpow_natCast]
      congr 1
      omega
  obtain ⟨n, hn⟩ := main
  unfold binaryPos
  rw [hn, hr.int, ← hn, div_mul_cancel₀]
  positivity

theorem binaryPos_idem (hr : WholeRounding r) (hp : 0 < p) {x : ℝ} (hx : 0 < x) :
    binaryPos r p (binaryPos r p x) = binaryPos r p x := by
  obtain ⟨h1, h2⟩ := round_bounds hr hp hx
  have h3 : (0 : ℤ) < r (x / 2 ^ lastExp p x) := lt_of_lt_of_le (by positivity) h1
  exact binaryPos_rep hr hp (e := lastExp p x) h3 h2

theorem binaryPos_err (hr : WholeRounding r) {x : ℝ} (hx : 0 < x) :
    |binaryPos r p x - x| ≤ (2 : ℝ)⁻¹ ^ p * x := by
  have h0 : (0 : ℝ) < 2 ^ lastExp p x := by positivity
  have hlo : (2 : ℝ) ^ Int.log 2 x ≤ x := by
    have := Int.zpow_log_le_self (b := 2) (by norm_num) hx
    exact_mod_cast this
  have e : binaryPos r p x - x = (r (x / 2 ^ lastExp p x) - x / 2 ^ lastExp p x) * 2 ^ lastExp p x := by
    unfold binaryPos
    rw [sub_mul, div_mul_cancel₀ _ h0.ne']
  rw [e, abs_mul, abs_of_pos h0]
  refine (mul_le_mul_of_nonneg_right (hr.err _) h0.le).trans ?_
  have : (1 / 2 : ℝ) * 2 ^ lastExp p x = (2 : ℝ)⁻¹ ^ p * 2 ^ Int.log 2 x := by
    unfold lastExp
    rw [inv_pow, ← zpow_natCast (2 : ℝ) p, ← zpow_neg, ← zpow_add₀ (by norm_num),
      show (1 / 2 : ℝ) = 2 ^ (-1 : ℤ) by norm_num, ← zpow_add₀ (by norm_num)]
    congr 1
    omega
  rw [this]
  exact mul_le_mul_of_nonneg_left hlo (by positivity)

/-- **Rounding to nearest satisfies the contract** with relative error `2^-p`: for every number of digits and every way of
breaking ties. -/
theorem binary_rounding (hr : WholeRounding r) (hp : 0 < p) : Rounding (binary r p) ((2 : ℝ)⁻¹ ^ p) where
  mono x y h := by
    unfold binary
    rcases lt_trichotomy x 0 with hx | hx | hx
    · rw [if_neg (by linarith), if_pos hx]
      rcases lt_trichotomy y 0 with hy | hy | hy
      · rw [if_neg (by linarith), if_pos hy]
        exact neg_le_neg (binaryPos_mono hr hp (by linarith) (by linarith))
      · rw [if_neg (by linarith), if_neg (by linarith)]
        have := binaryPos_pos (p := p) hr hp (x := -x) (by linarith)
        linarith
      · rw [if_pos hy]
        have := binaryPos_pos (p := p) hr hp (x := -x) (by linarith)
        have := binaryPos_pos (p := p) hr hp hy
        linarith
    · rw [if_neg (by linarith), if_neg (by linarith)]
      rcases (hx ▸ h : (0 : ℝ) ≤ y).lt_or_eq with hy | hy
      · rw [if_pos hy]; exact (binaryPos_pos hr hp hy).le
      · rw [if_neg (by linarith), if_neg (by linarith)]
    · rw [if_pos hx, if_pos (by linarith)]
      exact binaryPos_mono hr hp hx h
  idem x := by
    rcases lt_trichotomy x 0 with hx | hx | hx
    · have e : binary r p x = - binaryPos r p (-x) := by unfold binary; rw [if_neg (by linarith), if_pos hx]
      have hpos := binaryPos_pos (p := p) hr hp (x := -x) (by linarith)
      rw [e]
      unfold binary
      rw [if_neg (by linarith), if_pos (by linarith), neg_neg, binaryPos_idem hr hp (by linarith)]
    · have e : binary r p x = 0 := by unfold binary; rw [if_neg (by linarith), if_neg (by linarith)]
      rw [e]
      unfold binary
      rw [if_neg (by linarith), if_neg (by linarith)]
    · have e : binary r p x = binaryPos r p x := by unfold binary; rw [if_pos hx]
      have hpos := binaryPos_pos (p := p) hr hp hx
      rw [e]
      unfold binary
      rw [if_pos hpos, binaryPos_idem hr hp hx]
  err x := by
    unfold binary
    rcases lt_trichotomy x 0 with hx | hx | hx
    · rw [if_neg (by linarith), if_pos hx, abs_of_neg hx]
      have := binaryPos_err (p := p) hr (x := -x) (by linarith)
      rwa [show - binaryPos r p (-x) - x = -(binaryPos r p (-x) - -x) by ring, abs_neg]
    · rw [if_neg (by linarith), if_neg (by linarith), hx]; simp
    · rw [if_pos hx, abs_of_pos hx]
      exact binaryPos_err hr hx

/-- Whole numbers with at most `p` digits are not changed. -/
theorem binary_int (hr : WholeRounding r) (hp : 0 < p) (n : ℤ) (hn : |n| ≤ 2 ^ p) : binary r p n = n := by
  have key : ∀ m : ℤ, 0 < m → m ≤ 2 ^ p → binaryPos r p m = m := by
    intro m h1 h2
    have := binaryPos_rep hr hp (e := 0) h1 h2
    simpa using this
  obtain ⟨h1, h2⟩ := abs_le.1 hn
  unfold binary
  rcases lt_trichotomy n 0 with h | h | h
  · have h' : (n : ℝ) < 0 := by exact_mod_cast h
    rw [if_neg (by linarith), if_pos h']
    have := key (-n) (by omega) (by omega)
    push_cast at this
    rw [this, neg_neg]
  · subst h; simp
  · rw [if_pos (by exact_mod_cast h)]
    exact key n h h2

end PathPlanning.Spec
