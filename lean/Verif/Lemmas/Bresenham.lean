import Verif.Model.Bresenham
import Verif.Spec.Line
import Mathlib.Tactic.NormNum
import Mathlib.Algebra.Order.Group.Unbundled.Abs

/-!
# Invariant of the Bresenham iteration
-/

namespace PathPlanning

/-- Invariant after `k` steps with `i` steps in x and `j` steps in y. -/
structure LInv (a b k i j e : Int) : Prop where
  he : e = a - b - (i * b - j * a)
  i0 : 0 ≤ i
  ia : i ≤ a
  j0 : 0 ≤ j
  jb : j ≤ b
  flat : b ≤ a → i = k ∧ -a ≤ 2 * (i * b - j * a) ∧ 2 * (i * b - j * a) ≤ a ∧ (a = b → i = j)
  steep : a < b → j = k ∧ -b ≤ 2 * (i * b - j * a) ∧ 2 * (i * b - j * a) ≤ b

theorem LInv.init {a b : Int} (ha : 0 ≤ a) (hb : 0 ≤ b) : LInv a b 0 0 0 (a - b) := by
  constructor <;> omega

theorem LInv.end_flat {a b k i j e : Int} (h : LInv a b k i j e) (hab : b ≤ a) (hi : i = a) :
    j = b := by
  obtain ⟨h1, h2, h3, h4⟩ := h.flat hab
  rcases eq_or_lt_of_le (h.i0.trans h.ia) with h0 | h0
  · have := h.j0; have := h.jb; omega
  · subst hi
    have : i * (2 * (b - j) - 1) ≤ 0 := by nlinarith
    have : 2 * (b - j) - 1 ≤ 0 := by
      by_contra hc
      have := mul_pos h0 (not_le.1 hc)
      omega
    have := h.jb
    omega

theorem LInv.end_steep {a b k i j e : Int} (h : LInv a b k i j e) (hab : a < b) (hj : j = b) :
    i = a := by
  obtain ⟨h1, h2, h3⟩ := h.steep hab
  have h0 : 0 < b := by have := h.i0; have := h.ia; omega
  subst hj
  have : j * (2 * (a - i) - 1) ≤ 0 := by nlinarith
  have : 2 * (a - i) - 1 ≤ 0 := by
    by_contra hc
    have := mul_pos h0 (not_le.1 hc)
    omega
  have := h.ia
  omega

theorem LInv.end_iff {a b k i j e : Int} (h : LInv a b k i j e) :
    (i = a ∧ j = b) ↔ k = max a b := by
  rcases le_or_gt b a with hab | hab
  · obtain ⟨h1, -⟩ := h.flat hab
    rw [max_eq_left hab, ← h1]
    exact ⟨fun h => h.1, fun hi => ⟨hi, h.end_flat hab hi⟩⟩
  · obtain ⟨h1, -⟩ := h.steep hab
    rw [max_eq_right hab.le, ← h1]
    exact ⟨fun h => h.2, fun hj => ⟨h.end_steep hab hj, hj⟩⟩

/-- One step keeps the invariant; at least one coordinate moves. -/
theorem LInv.step {a b k i j e : Int} (h : LInv a b k i j e) (hne : ¬ (i = a ∧ j = b)) :
    ∃ i' j' e' : Int,
      i' = (if 2 * e > -b then i + 1 else i) ∧
      j' = (if 2 * e < a then j + 1 else j) ∧
      e' = e + (if 2 * e > -b then -b else 0) + (if 2 * e < a then a else 0) ∧
      LInv a b (k + 1) i' j' e' ∧ (2 * e > -b ∨ 2 * e < a) := by
  refine ⟨_, _, _, rfl, rfl, rfl, ?_⟩
  have he := h.he
  have i0 := h.i0
  have ia := h.ia
  have j0 := h.j0
  have jb := h.jb
  rcases le_or_gt b a with hab | hab
  · obtain ⟨h1, h2, h3, h4⟩ := h.flat hab
    have hia : i < a := by
      rcases eq_or_lt_of_le ia with hi | hi
      · exact absurd ⟨hi, h.end_flat hab hi⟩ hne
      · exact hi
    have hx : 2 * e > -b := by
      rcases eq_or_lt_of_le hab with heq | hlt
      · have hij := h4 heq.symm
        subst hij; subst heq
        have : i * b - i * b = 0 := sub_self _
        omega
      · omega
    simp only [if_pos hx]
    by_cases hy : 2 * e < a
    · simp only [if_pos hy]
      have hjb : j < b := by
        have hm : i * b ≤ (a - 1) * b := mul_le_mul_of_nonneg_right (by omega) (by omega)
        have : a * (2 * (j - b) + 1) < 0 := by nlinarith
        by_contra hc
        have hge : 0 ≤ 2 * (j - b) + 1 := by omega
        have := mul_nonneg (i0.trans ia) hge
        omega
      refine ⟨⟨by rw [he]; ring, by omega, by omega, by omega, by omega, fun _ => ?_,
        fun hc => absurd hab (not_le.2 hc)⟩, Or.inl hx⟩
      have e1 : (i + 1) * b - (j + 1) * a = (i * b - j * a) + b - a := by ring
      rw [e1]
      refine ⟨by omega, by omega, by omega, fun hq => by have := h4 hq; omega⟩
    · simp only [if_neg hy]
      refine ⟨⟨by rw [he]; ring, by omega, by omega, by omega, by omega, fun _ => ?_,
        fun hc => absurd hab (not_le.2 hc)⟩, Or.inl hx⟩
      have e1 : (i + 1) * b - j * a = (i * b - j * a) + b := by ring
      rw [e1]
      refine ⟨by omega, by omega, by omega, fun hq => ?_⟩
      have hij := h4 hq
      subst hij; subst hq
      have : i * a - i * a = 0 := sub_self _
      omega
  · obtain ⟨h1, h2, h3⟩ := h.steep hab
    have hjb : j < b := by
      rcases eq_or_lt_of_le jb with hj | hj
      · exact absurd ⟨h.end_steep hab hj, hj⟩ hne
      · exact hj
    have hy : 2 * e < a := by omega
    simp only [if_pos hy]
    by_cases hx : 2 * e > -b
    · simp only [if_pos hx]
      have hia : i < a := by
        have hm : j * a ≤ (b - 1) * a := mul_le_mul_of_nonneg_right (by omega) (by omega)
        have : b * (2 * (i - a) + 1) < 0 := by nlinarith
        by_contra hc
        have hge : 0 ≤ 2 * (i - a) + 1 := by omega
        have := mul_nonneg (j0.trans jb) hge
        omega
      refine ⟨⟨by rw [he]; ring, by omega, by omega, by omega, by omega,
        fun hc => absurd hab (not_lt.2 hc), fun _ => ?_⟩, Or.inl hx⟩
      have e1 : (i + 1) * b - (j + 1) * a = (i * b - j * a) + b - a := by ring
      rw [e1]
      refine ⟨by omega, by omega, by omega⟩
    · simp only [if_neg hx]
      refine ⟨⟨by rw [he]; ring, by omega, by omega, by omega, by omega,
        fun hc => absurd hab (not_lt.2 hc), fun _ => ?_⟩, Or.inr hy⟩
      have e1 : i * b - (j + 1) * a = (i * b - j * a) - a := by ring
      rw [e1]
      refine ⟨by omega, by omega, by omega⟩

namespace Bres
variable {K : Type}

/-- Relation between a reachable iterator state and the abstract step counters. -/
structure At (m : GridMap K) (x0 y0 x1 y1 : Int) (s : Bres K) (k i j : Int) : Prop where
  hm : s.map = some m
  hx1 : s.x1 = x1
  hy1 : s.y1 = y1
  hdx : s.dx = |x1 - x0|
  hdy : s.dy = -|y1 - y0|
  hsx : s.sx = if x0 < x1 then 1 else -1
  hsy : s.sy = if y0 < y1 then 1 else -1
  hx : s.x = x0 + s.sx * i
  hy : s.y = y0 + s.sy * j
  inv : LInv |x1 - x0| |y1 - y0| k i j s.err

theorem at_start (m : GridMap K) (x0 y0 x1 y1 : Int) :
    At m x0 y0 x1 y1 (start m x0 y0 x1 y1) 0 0 0 := by
  refine ⟨rfl, rfl, rfl, rfl, rfl, rfl, rfl, by simp [start], by simp [start], ?_⟩
  have := LInv.init (abs_nonneg (x1 - x0)) (abs_nonneg (y1 - y0))
  rwa [sub_eq_add_neg] at this

/-- `x = x1` iff all steps of that axis were made. -/
theorem axis_end {x0 x1 i : Int} (_hi0 : 0 ≤ i) (_hi : i ≤ |x1 - x0|) :
    x0 + (if x0 < x1 then 1 else -1) * i = x1 ↔ i = |x1 - x0| := by
  split
  · rename_i h
    rw [abs_of_pos (by omega)]; omega
  · rename_i h
    rw [abs_of_nonpos (by omega)] at *; omega

theorem At.done_iff {m : GridMap K} {x0 y0 x1 y1 : Int} {s : Bres K} {k i j : Int}
    (h : At m x0 y0 x1 y1 s k i j) : (s.x = s.x1 ∧ s.y = s.y1) ↔ k = max |x1 - x0| |y1 - y0| := by
  rw [← h.inv.end_iff, h.hx, h.hy, h.hx1, h.hy1, h.hsx, h.hsy, axis_end h.inv.i0 h.inv.ia,
    axis_end h.inv.j0 h.inv.jb]

theorem At.step {m : GridMap K} {x0 y0 x1 y1 : Int} {s : Bres K} {k i j : Int}
    (h : At m x0 y0 x1 y1 s k i j) (hk : k ≠ max |x1 - x0| |y1 - y0|) :
    s.next.1 = true ∧ ∃ i' j', At m x0 y0 x1 y1 s.next.2 (k + 1) i' j' ∧
      (i' = i ∨ i' = i + 1) ∧ (j' = j ∨ j' = j + 1) ∧ (i' ≠ i ∨ j' ≠ j) := by
  have hne : ¬ (s.x = s.x1 ∧ s.y = s.y1) := by rw [h.done_iff]; exact hk
  have hne' : ¬ (i = |x1 - x0| ∧ j = |y1 - y0|) := by rw [h.inv.end_iff]; exact hk
  obtain ⟨i', j', e', hi', hj', he', hinv, hor⟩ := h.inv.step hne'
  have hd := h.hdx
  have hdy := h.hdy
  have hx := h.hx
  have hy := h.hy
  have hm := h.hm
  have hx1 := h.hx1
  have hy1 := h.hy1
  have hsx := h.hsx
  have hsy := h.hsy
  have main : s.next.1 = true ∧ At m x0 y0 x1 y1 s.next.2 (k + 1) i' j' := by
    unfold next
    rw [if_neg hne]
    refine ⟨rfl, ?_⟩
    by_cases c1 : 2 * s.err > s.dy
    · have c1' : 2 * s.err > -|y1 - y0| := by rw [← hdy]; exact c1
      by_cases c2 : 2 * s.err < s.dx
      · have c2' : 2 * s.err < |x1 - x0| := by rw [← hd]; exact c2
        simp only [c1, c2, if_true, if_pos c1', if_pos c2'] at *
        refine ⟨hm, hx1, hy1, hd, hdy, hsx, hsy, ?_, ?_, ?_⟩
        · simp only; rw [hi', hx]; ring
        · simp only; rw [hj', hy]; ring
        · simp only; rw [hd, hdy, ← he']; exact hinv
      · have c2' : ¬ 2 * s.err < |x1 - x0| := by rw [← hd]; exact c2
        simp only [c1, c2, if_true, if_false, if_pos c1', if_neg c2'] at *
        refine ⟨hm, hx1, hy1, hd, hdy, hsx, hsy, ?_, ?_, ?_⟩
        · simp only; rw [hi', hx]; ring
        · simp only; rw [hj', hy]
        · simp only; rw [add_zero] at he'; rw [hdy, ← he']; exact hinv
    · have c1' : ¬ 2 * s.err > -|y1 - y0| := by rw [← hdy]; exact c1
      by_cases c2 : 2 * s.err < s.dx
      · have c2' : 2 * s.err < |x1 - x0| := by rw [← hd]; exact c2
        simp only [c1, c2, if_true, if_false, if_neg c1', if_pos c2'] at *
        refine ⟨hm, hx1, hy1, hd, hdy, hsx, hsy, ?_, ?_, ?_⟩
        · simp only; rw [hi', hx]
        · simp only; rw [hj', hy]; ring
        · simp only; rw [add_zero] at he'; rw [hd, ← he']; exact hinv
      · have c2' : ¬ 2 * s.err < |x1 - x0| := by rw [← hd]; exact c2
        rcases hor with hor | hor
        · exact absurd hor c1'
        · exact absurd hor c2'
  refine ⟨main.1, i', j', main.2, ?_, ?_, ?_⟩
  · rw [hi']; split <;> simp
  · rw [hj']; split <;> simp
  · rcases hor with hor | hor
    · left; rw [hi', if_pos hor]; omega
    · right; rw [hj', if_pos hor]; omega

theorem after_succ (s : Bres K) (k : Nat) : s.after (k + 1) = (s.after k).next.2 := by
  unfold after; rw [Function.iterate_succ_apply']

theorem At.stay {m : GridMap K} {x0 y0 x1 y1 : Int} {s : Bres K} {k i j : Int}
    (h : At m x0 y0 x1 y1 s k i j) (hk : k = max |x1 - x0| |y1 - y0|) : s.next = (false, s) := by
  unfold next; rw [if_pos (h.done_iff.2 hk)]

theorem len_cast (x0 y0 x1 y1 : Int) :
    (Spec.lineLength x0 y0 x1 y1 : Int) = max |x1 - x0| |y1 - y0| := by
  unfold Spec.lineLength; rw [Int.abs_eq_natAbs, Int.abs_eq_natAbs]; omega

/-- State after `k ≤ N` calls. -/
theorem at_after (m : GridMap K) (x0 y0 x1 y1 : Int) (k : Nat)
    (hk : k ≤ Spec.lineLength x0 y0 x1 y1) :
    ∃ i j, At m x0 y0 x1 y1 ((start m x0 y0 x1 y1).after k) k i j := by
  induction k with
  | zero => exact ⟨0, 0, at_start m x0 y0 x1 y1⟩
  | succ k ih =>
    obtain ⟨i, j, h⟩ := ih (by omega)
    have hl := len_cast x0 y0 x1 y1
    obtain ⟨-, i', j', h', -⟩ := h.step (by omega)
    refine ⟨i', j', ?_⟩
    rw [after_succ]
    exact_mod_cast h'

theorem after_stay (m : GridMap K) (x0 y0 x1 y1 : Int) (k : Nat)
    (hk : Spec.lineLength x0 y0 x1 y1 ≤ k) :
    (start m x0 y0 x1 y1).after k =
      (start m x0 y0 x1 y1).after (Spec.lineLength x0 y0 x1 y1) := by
  induction k, hk using Nat.le_induction with
  | base => rfl
  | succ k hk ih =>
    obtain ⟨i, j, h⟩ := at_after m x0 y0 x1 y1 _ le_rfl
    rw [after_succ, ih, h.stay (len_cast x0 y0 x1 y1)]

end Bres
end PathPlanning
