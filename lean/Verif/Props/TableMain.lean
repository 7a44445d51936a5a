import Verif.Model.TableMain
import Verif.Props.Table

/-!
# C68 — the parameters of the table generator
-/

namespace PathPlanning.Table

/-- **C68 (parameters).**  The program refuses (exit code 2) exactly the parameters outside of the documented ranges. -/
theorem main_refuses (dimension angles : Int) (res : ℝ) :
    main dimension angles res = .ok (.exit 2) ↔ ¬ ((0 ≤ dimension ∧ dimension ≤ 100) ∧ (1 ≤ angles ∧ angles ≤ 36) ∧ 0 < res ∧ res ≤ 2) := by
  unfold main
  by_cases h1 : dimension < 0 ∨ dimension > 100
  · rw [if_pos h1]; simp only [true_iff]; intro h; omega
  rw [if_neg h1]
  by_cases h2 : angles < 1 ∨ angles > 36
  · rw [if_pos h2]; simp only [true_iff]; intro h; omega
  rw [if_neg h2]
  by_cases h3 : res ≤ 0 ∨ res > 2
  · rw [if_pos h3]; simp only [true_iff]; rintro ⟨_, _, a, b⟩; rcases h3 with h | h <;> linarith
  rw [if_neg h3]
  push Not at h1 h2 h3
  constructor
  · intro h
    simp only [CRes.bind_eq_ok] at h
    obtain ⟨p, _, h⟩ := h
    simp only [CRes.pure_eq, CRes.ok.injEq] at h
    cases h
  · intro h; exact absurd ⟨⟨h1.1, h1.2⟩, ⟨h2.1, h2.2⟩, h3.1, h3.2⟩ h

/-- **C68 (size of the table).**  For parameters in range whose quotient is below `2^31`, the table gets as many cells per side
as fit into the dimension; otherwise the conversion to `int` is undefined - the smallest resolutions are not refused. -/
theorem main_pixels {dimension angles : Int} {res : ℝ} (h1 : 0 ≤ dimension ∧ dimension ≤ 100) (h2 : 1 ≤ angles ∧ angles ≤ 36)
    (h3 : 0 < res ∧ res ≤ 2) :
    ((dimension : ℝ) / res < 2147483648 → ∃ n : Int, main dimension angles res = .ok (.run n) ∧ 0 ≤ n ∧
        n * res ≤ dimension ∧ dimension < (n + 1) * res) ∧
    (2147483648 ≤ (dimension : ℝ) / res → main dimension angles res = .ub) := by
  have h0 : 0 ≤ (dimension : ℝ) / res := div_nonneg (by exact_mod_cast h1.1) h3.1.le
  have hm : main dimension angles res = (castI ((dimension : ℝ) / res)).bind fun p => .ok (.run p) := by
    unfold main
    rw [if_neg (by omega), if_neg (by omega), if_neg (by push Not; exact h3)]
    rfl
  rw [hm]
  unfold castI
  rw [truncC_nonneg h0]
  have hf0 : 0 ≤ ⌊(dimension : ℝ) / res⌋ := Int.floor_nonneg.2 h0
  constructor
  · intro h
    have hlt : ⌊(dimension : ℝ) / res⌋ < 2147483648 := Int.floor_lt.2 (by push_cast; exact h)
    refine ⟨⌊(dimension : ℝ) / res⌋, ?_, hf0, ?_, ?_⟩
    · rw [if_pos ⟨by omega, hlt⟩]; rfl
    · have := Int.floor_le ((dimension : ℝ) / res)
      rwa [le_div_iff₀ h3.1] at this
    · have := Int.lt_floor_add_one ((dimension : ℝ) / res)
      rwa [div_lt_iff₀ h3.1] at this
  · intro h
    have hge : 2147483648 ≤ ⌊(dimension : ℝ) / res⌋ := Int.le_floor.2 (by push_cast; exact h)
    rw [if_neg (by omega)]; rfl

/-- **C68 (overflow).**  The size of a layer is computed without overflow exactly for at most 46340 cells per side. -/
theorem layerSize_iff {n : Int} (h : 0 ≤ n) : layerSize n = .ok (n * n) ↔ n ≤ 46340 := by
  unfold layerSize
  constructor
  · intro h1
    by_contra hc
    rw [if_neg] at h1
    · cases h1
    · intro ⟨_, h2⟩
      nlinarith
  · intro h1
    rw [if_pos]
    constructor <;> nlinarith

/-- **C68, finding.**  One metre at a resolution of `10^-5`: accepted, but the layers are too big for an `int`. -/
theorem main_accepts_too_fine : main 1 16 (1 / 100000) = .ok (.run 100000) ∧ layerSize 100000 = .ub := by
  constructor
  · obtain ⟨n, e, _, h1, h2⟩ := (main_pixels (dimension := 1) (angles := 16) (res := 1 / 100000) (by norm_num) (by norm_num)
      (by norm_num)).1 (by norm_num)
    rw [e]
    have a : (n : ℝ) ≤ 100000 := by push_cast at h1; linarith
    have b : (100000 : ℝ) < n + 1 := by push_cast at h2; linarith
    have a' : n ≤ 100000 := by exact_mod_cast a
    have b' : (100000 : Int) < n + 1 := by exact_mod_cast b
    have : n = 100000 := by omega
    rw [this]
  · unfold layerSize; rw [if_neg (by norm_num)]

end PathPlanning.Table
