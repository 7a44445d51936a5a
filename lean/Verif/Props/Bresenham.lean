import Verif.Lemmas.Bresenham
import Verif.Props.GridMap

/-!
# Properties C13-C17: line iterator, line areas, line-of-sight checks
-/

set_option linter.unusedSectionVars false

namespace PathPlanning

open Spec

namespace Bres
variable {K : Type}

/-- The current cell of the iterator. -/
def cell (s : Bres K) : Int × Int := (s.x, s.y)

theorem setGrid_inMap (b : Bres K) (m : GridMap K) {x0 y0 x1 y1 : Int}
    (hs : m.isInMap x0 y0 = true) (he : m.isInMap x1 y1 = true) :
    b.setGrid m x0 y0 x1 y1 = start m x0 y0 x1 y1 := by simp [setGrid, hs, he]

theorem axis_box {x0 x1 i : Int} (h0 : 0 ≤ i) (h1 : i ≤ |x1 - x0|) :
    min x0 x1 ≤ x0 + (if x0 < x1 then 1 else -1) * i ∧
      x0 + (if x0 < x1 then 1 else -1) * i ≤ max x0 x1 := by
  split
  · rename_i h; rw [abs_of_pos (by omega)] at h1; omega
  · rename_i h; rw [abs_of_nonpos (by omega)] at h1; omega

theorem At.box {m : GridMap K} {x0 y0 x1 y1 : Int} {s : Bres K} {k i j : Int}
    (h : At m x0 y0 x1 y1 s k i j) : InBox (x0, y0) (x1, y1) s.cell := by
  have h1 := axis_box h.inv.i0 h.inv.ia
  have h2 := axis_box h.inv.j0 h.inv.jb
  unfold InBox cell
  simp only
  rw [h.hx, h.hy, h.hsx, h.hsy]
  exact ⟨h1.1, h1.2, h2.1, h2.2⟩

theorem sgn_mul (x0 x1 : Int) : (if x0 < x1 then 1 else -1) * |x1 - x0| = x1 - x0 := by
  split
  · rw [abs_of_pos (by omega)]; omega
  · rw [abs_of_nonpos (by omega)]; omega

theorem At.half {m : GridMap K} {x0 y0 x1 y1 : Int} {s : Bres K} {k i j : Int}
    (h : At m x0 y0 x1 y1 s k i j) : WithinHalfCell (x0, y0) (x1, y1) s.cell := by
  unfold WithinHalfCell cell
  simp only
  have e1 : s.x - x0 = s.sx * i := by rw [h.hx]; ring
  have e2 : s.y - y0 = s.sy * j := by rw [h.hy]; ring
  have e3 : y1 - y0 = s.sy * |y1 - y0| := by rw [h.hsy, sgn_mul]
  have e4 : x1 - x0 = s.sx * |x1 - x0| := by rw [h.hsx, sgn_mul]
  have e5 : (s.x - x0) * (y1 - y0) - (s.y - y0) * (x1 - x0) =
      (s.sx * s.sy) * (i * |y1 - y0| - j * |x1 - x0|) := by
    rw [e1, e2]
    calc s.sx * i * (y1 - y0) - s.sy * j * (x1 - x0)
        = s.sx * i * (s.sy * |y1 - y0|) - s.sy * j * (s.sx * |x1 - x0|) := by
          rw [← e3, ← e4]
      _ = _ := by ring
  have e6 : |s.sx * s.sy| = 1 := by
    rw [h.hsx, h.hsy]; split <;> split <;> rfl
  rw [e5, abs_mul, e6, one_mul]
  rcases le_or_gt |y1 - y0| |x1 - x0| with hab | hab
  · obtain ⟨-, h2, h3, -⟩ := h.inv.flat hab
    rw [max_eq_left hab]
    rcases abs_cases (i * |y1 - y0| - j * |x1 - x0|) with ⟨hh, -⟩ | ⟨hh, -⟩ <;> rw [hh] <;> omega
  · obtain ⟨-, h2, h3⟩ := h.inv.steep hab
    rw [max_eq_right hab.le]
    rcases abs_cases (i * |y1 - y0| - j * |x1 - x0|) with ⟨hh, -⟩ | ⟨hh, -⟩ <;> rw [hh] <;> omega

theorem At.adj {m : GridMap K} {x0 y0 x1 y1 : Int} {s t : Bres K} {k l i j i' j' : Int}
    (h : At m x0 y0 x1 y1 s k i j) (h' : At m x0 y0 x1 y1 t l i' j')
    (hi : i' = i ∨ i' = i + 1) (hj : j' = j ∨ j' = j + 1) (hne : i' ≠ i ∨ j' ≠ j) :
    EightAdjacent s.cell t.cell := by
  have a1 : t.x - s.x = s.sx * (i' - i) := by rw [h.hx, h'.hx, h.hsx, h'.hsx]; ring
  have a2 : t.y - s.y = s.sy * (j' - j) := by rw [h.hy, h'.hy, h.hsy, h'.hsy]; ring
  have hs1 : s.sx = 1 ∨ s.sx = -1 := by rw [h.hsx]; split <;> simp
  have hs2 : s.sy = 1 ∨ s.sy = -1 := by rw [h.hsy]; split <;> simp
  unfold EightAdjacent cell
  simp only [ne_eq, Prod.mk.injEq]
  rw [a1, a2, abs_mul, abs_mul]
  have n1 : |s.sx| = 1 := by rcases hs1 with h | h <;> rw [h] <;> rfl
  have n2 : |s.sy| = 1 := by rcases hs2 with h | h <;> rw [h] <;> rfl
  rw [n1, n2]
  refine ⟨?_, ?_, ?_⟩
  · rintro ⟨q1, q2⟩
    have b1 : s.sx * (i' - i) = 0 := by rw [← a1]; omega
    have b2 : s.sy * (j' - j) = 0 := by rw [← a2]; omega
    rcases mul_eq_zero.1 b1 with c | c <;> rcases mul_eq_zero.1 b2 with d | d <;> omega
  · rcases hi with h | h <;> rw [h] <;> simp
  · rcases hj with h | h <;> rw [h] <;> simp

/-- **C13.** After `setGrid` with endpoints on the map, for the iterator (whatever it was used for
before): it stands on the start cell; the `k`-th call of `next` (from 0) returns true iff
`k < max(|Δx|,|Δy|)`; each successful step goes to an 8-neighbour; after that many steps it stands
on the end cell forever; every cell is in the bounding box of the endpoints and in the map; and no
cell is visited twice. -/
theorem line_correct (b : Bres K) (m : GridMap K) (x0 y0 x1 y1 : Int)
    (hs : m.isInMap x0 y0 = true) (he : m.isInMap x1 y1 = true) :
    let s := b.setGrid m x0 y0 x1 y1
    let N := lineLength x0 y0 x1 y1
    s.cell = (x0, y0) ∧
    (∀ k, (s.after k).next.1 = decide (k < N)) ∧
    (∀ k, k < N → EightAdjacent (s.after k).cell (s.after (k + 1)).cell) ∧
    (∀ k, N ≤ k → (s.after k).cell = (x1, y1)) ∧
    (∀ k, InBox (x0, y0) (x1, y1) (s.after k).cell) ∧
    (∀ k, m.isInMap (s.after k).cell.1 (s.after k).cell.2 = true) ∧
    (∀ k l, k < l → l ≤ N → (s.after k).cell ≠ (s.after l).cell) := by
  simp only
  rw [setGrid_inMap b m hs he]
  have hl := len_cast x0 y0 x1 y1
  have box : ∀ k, InBox (x0, y0) (x1, y1) ((start m x0 y0 x1 y1).after k).cell := by
    intro k
    rcases le_total k (lineLength x0 y0 x1 y1) with h | h
    · obtain ⟨i, j, hat⟩ := at_after m x0 y0 x1 y1 k h
      exact hat.box
    · rw [after_stay m x0 y0 x1 y1 k h]
      obtain ⟨i, j, hat⟩ := at_after m x0 y0 x1 y1 _ le_rfl
      exact hat.box
  have fin : ((start m x0 y0 x1 y1).after (lineLength x0 y0 x1 y1)).cell = (x1, y1) ∧
      ((start m x0 y0 x1 y1).after (lineLength x0 y0 x1 y1)).next.1 = false := by
    obtain ⟨i, j, hat⟩ := at_after m x0 y0 x1 y1 _ le_rfl
    have hd := hat.done_iff.2 hl
    rw [hat.hx1, hat.hy1] at hd
    refine ⟨by simp [cell, hd.1, hd.2], by rw [hat.stay hl]⟩
  refine ⟨rfl, ?_, ?_, ?_, box, ?_, ?_⟩
  · intro k
    by_cases hk : k < lineLength x0 y0 x1 y1
    · obtain ⟨i, j, hat⟩ := at_after m x0 y0 x1 y1 k hk.le
      rw [(hat.step (by omega)).1]; simp [hk]
    · rw [after_stay m x0 y0 x1 y1 k (not_lt.1 hk), fin.2]; simp [hk]
  · intro k hk
    obtain ⟨i, j, hat⟩ := at_after m x0 y0 x1 y1 k hk.le
    obtain ⟨-, i', j', hat', h1, h2, h3⟩ := hat.step (by omega)
    rw [after_succ]
    exact hat.adj hat' h1 h2 h3
  · intro k hk
    rw [after_stay m x0 y0 x1 y1 k hk, fin.1]
  · intro k
    obtain ⟨h1, h2, h3, h4⟩ := box k
    simp only [GridMap.isInMap, Bool.not_eq_true', Bool.or_eq_false_iff,
      decide_eq_false_iff_not] at *
    omega
  · intro k l hkl hlN heq
    obtain ⟨i, j, hat⟩ := at_after m x0 y0 x1 y1 k (by omega)
    obtain ⟨i', j', hat'⟩ := at_after m x0 y0 x1 y1 l hlN
    simp only [cell, Prod.mk.injEq] at heq
    have hx := heq.1
    have hy := heq.2
    rw [hat.hx, hat'.hx, hat.hsx, hat'.hsx] at hx
    rw [hat.hy, hat'.hy, hat.hsy, hat'.hsy] at hy
    have ei : i = i' := by split at hx <;> omega
    have ej : j = j' := by split at hy <;> omega
    rcases le_or_gt |y1 - y0| |x1 - x0| with hab | hab
    · have := (hat.inv.flat hab).1; have := (hat'.inv.flat hab).1; omega
    · have := (hat.inv.steep hab).1; have := (hat'.inv.steep hab).1; omega

example : (GridMap.mk' 10 10 (1 : ℚ)).isInMap 7 1 = true ∧
    (GridMap.mk' 10 10 (1 : ℚ)).isInMap 2 9 = true := by decide +kernel

/-- A test, not a theorem: the cells of the line (7,1) → (4,3). -/
example : (List.range 5).map (fun k =>
      ((fresh.setGrid (GridMap.mk' 10 10 (1 : ℚ)) 7 1 4 3).after k).cell) =
    [(7, 1), (6, 2), (5, 2), (4, 3), (4, 3)] := by decide +kernel

/-- **C14.** Every visited cell deviates by at most half a cell (along the minor axis) from the
ideal line. -/
theorem line_accurate (b : Bres K) (m : GridMap K) (x0 y0 x1 y1 : Int)
    (hs : m.isInMap x0 y0 = true) (he : m.isInMap x1 y1 = true) (k : Nat) :
    WithinHalfCell (x0, y0) (x1, y1) ((b.setGrid m x0 y0 x1 y1).after k).cell := by
  rw [setGrid_inMap b m hs he]
  rcases le_total k (lineLength x0 y0 x1 y1) with h | h
  · obtain ⟨i, j, hat⟩ := at_after m x0 y0 x1 y1 k h
    exact hat.half
  · rw [after_stay m x0 y0 x1 y1 k h]
    obtain ⟨i, j, hat⟩ := at_after m x0 y0 x1 y1 _ le_rfl
    exact hat.half

/-- Off-map endpoints make an empty iteration: `next` returns false at once and the current cell is
(0,0), whatever the endpoints were. -/
theorem line_off_map (b : Bres K) (m : GridMap K) (x0 y0 x1 y1 : Int)
    (h : m.isInMap x0 y0 = false ∨ m.isInMap x1 y1 = false) (k : Nat) :
    ((b.setGrid m x0 y0 x1 y1).after k).next.1 = false ∧
    ((b.setGrid m x0 y0 x1 y1).after k).cell = (0, 0) := by
  have hc : (!m.isInMap x0 y0 || !m.isInMap x1 y1) = true := by rcases h with h | h <;> simp [h]
  have hs : (b.setGrid m x0 y0 x1 y1).next = (false, b.setGrid m x0 y0 x1 y1) := by
    unfold setGrid next; rw [if_pos hc]; simp
  have ha : (b.setGrid m x0 y0 x1 y1).after k = b.setGrid m x0 y0 x1 y1 := by
    induction k with
    | zero => rfl
    | succ k ih => rw [after_succ, ih, hs]
  rw [ha, hs]
  refine ⟨rfl, ?_⟩
  unfold setGrid; rw [if_pos hc]; rfl

/-- ... and on a fresh iterator `isFree()` then dereferences an uninitialised pointer. -/
theorem line_off_map_isFree_ub (m : GridMap K) (x0 y0 x1 y1 : Int)
    (h : m.isInMap x0 y0 = false ∨ m.isInMap x1 y1 = false) :
    (fresh.setGrid m x0 y0 x1 y1).isFree = .ub := by
  have hc : (!m.isInMap x0 y0 || !m.isInMap x1 y1) = true := by rcases h with h | h <;> simp [h]
  unfold setGrid; rw [if_pos hc]; rfl

example : (GridMap.mk' 10 10 (1 : ℚ)).isInMap 10 1 = false := by decide +kernel

/-- **C17.** On maps with at most `715827882` (a third of `2^31`) cells per side no intermediate value of the iterator
overflows a 32-bit `int`: the overflow-checked step never has undefined behaviour and agrees with
the unchecked one, in every reachable state. -/
theorem line_no_overflow (b : Bres K) (m : GridMap K) (hw : m.width ≤ 715827882)
    (hh : m.height ≤ 715827882) (x0 y0 x1 y1 : Int) (hs : m.isInMap x0 y0 = true)
    (he : m.isInMap x1 y1 = true) (k : Nat) :
    ((b.setGrid m x0 y0 x1 y1).after k).nextC =
      .ok ((b.setGrid m x0 y0 x1 y1).after k).next := by
  have i1 := (GridMap.isInMap_iff m (by omega) (by omega) _ _).1 hs
  have i2 := (GridMap.isInMap_iff m (by omega) (by omega) _ _).1 he
  have hl := len_cast x0 y0 x1 y1
  rw [setGrid_inMap b m hs he]
  have key : ∀ k, k ≤ lineLength x0 y0 x1 y1 → ((start m x0 y0 x1 y1).after k).nextC =
      .ok ((start m x0 y0 x1 y1).after k).next := by
    intro k hk
    obtain ⟨i, j, hat⟩ := at_after m x0 y0 x1 y1 k hk
    by_cases hend : (k : Int) = max |x1 - x0| |y1 - y0|
    · rw [hat.stay hend, nextC, if_pos (hat.done_iff.2 hend)]
    · have hne : ¬ _ := fun h => hend (hat.done_iff.1 h)
      have a1 : |x1 - x0| ≤ 715827881 := by rw [abs_le]; omega
      have a2 : |y1 - y0| ≤ 715827881 := by rw [abs_le]; omega
      have n1 := abs_nonneg (x1 - x0)
      have n2 := abs_nonneg (y1 - y0)
      have hinv := hat.inv.he
      have bnd : -715827881 ≤ 2 * (i * |y1 - y0| - j * |x1 - x0|) ∧
          2 * (i * |y1 - y0| - j * |x1 - x0|) ≤ 715827881 := by
        rcases le_or_gt |y1 - y0| |x1 - x0| with hab | hab
        · have := hat.inv.flat hab; omega
        · have := hat.inv.steep hab; omega
      have hdx := hat.hdx
      have hdy := hat.hdy
      have hsx : ((start m x0 y0 x1 y1).after k).sx = 1 ∨
          ((start m x0 y0 x1 y1).after k).sx = -1 := by rw [hat.hsx]; split <;> simp
      have hsy : ((start m x0 y0 x1 y1).after k).sy = 1 ∨
          ((start m x0 y0 x1 y1).after k).sy = -1 := by rw [hat.hsy]; split <;> simp
      have hbox := hat.box
      unfold InBox cell at hbox
      simp only at hbox
      generalize (start m x0 y0 x1 y1).after k = s at *
      unfold nextC next
      rw [if_neg hne, if_neg hne]
      have f0 : fits (2 * s.err) = true := by simp [fits]; omega
      have f1 : fits (s.err + s.dy) = true := by simp [fits]; omega
      have f2 : fits (s.x + s.sx) = true := by simp [fits]; omega
      have f3 : fits s.err = true := by simp [fits]; omega
      have f4 : fits s.x = true := by simp [fits]; omega
      have f5 : fits (s.err + s.dy + s.dx) = true := by simp [fits]; omega
      have f6 : fits (s.err + s.dx) = true := by simp [fits]; omega
      have f7 : fits (s.y + s.sy) = true := by simp [fits]; omega
      have f8 : fits s.y = true := by simp [fits]; omega
      by_cases c1 : 2 * s.err > s.dy <;> by_cases c2 : 2 * s.err < s.dx <;>
        simp [c1, c2, f0, f1, f2, f3, f4, f5, f6, f7, f8]
  rcases le_total k (lineLength x0 y0 x1 y1) with h | h
  · exact key k h
  · rw [after_stay m x0 y0 x1 y1 k h]; exact key _ le_rfl

example : (GridMap.mk' 7 5 (1 : ℚ)).width ≤ 2 ^ 29 ∧ (GridMap.mk' 7 5 (1 : ℚ)).height ≤ 2 ^ 29 ∧
    (GridMap.mk' 7 5 (1 : ℚ)).isInMap 0 4 = true ∧ (GridMap.mk' 7 5 (1 : ℚ)).isInMap 6 0 = true := by
  decide +kernel

end Bres

/-! ## C15 — line areas -/

/-- The loop body of `LineArea::set` is the iterator's step. -/
theorem lineLoop_eq {K : Type} (m : GridMap K) (x0 y0 x1 y1 : Int) (fuel : Nat) :
    ∀ (k : Nat) (acc : List (Int × Int)), k ≤ lineLength x0 y0 x1 y1 →
      lineLength x0 y0 x1 y1 - k < fuel →
      lineLoop x1 y1 |x1 - x0| (-|y1 - y0|) (if x0 < x1 then 1 else -1)
        (if y0 < y1 then 1 else -1) fuel ((Bres.start m x0 y0 x1 y1).after k).x
        ((Bres.start m x0 y0 x1 y1).after k).y ((Bres.start m x0 y0 x1 y1).after k).err acc =
      some (acc ++ (List.range' k (lineLength x0 y0 x1 y1 - k + 1)).map
        fun l => ((Bres.start m x0 y0 x1 y1).after l).cell) := by
  have hl := Bres.len_cast x0 y0 x1 y1
  induction fuel with
  | zero => intro k acc _ h; omega
  | succ fuel ih =>
    intro k acc hk hf
    obtain ⟨i, j, hat⟩ := Bres.at_after m x0 y0 x1 y1 k hk
    have hd := hat.done_iff
    rw [hat.hx1, hat.hy1] at hd
    rw [lineLoop]
    by_cases hend : k = lineLength x0 y0 x1 y1
    · rw [if_pos (hd.2 (by omega))]
      subst hend
      simp [Bres.cell]
    · have hne : ¬ (((Bres.start m x0 y0 x1 y1).after k).x = x1 ∧
          ((Bres.start m x0 y0 x1 y1).after k).y = y1) := by rw [hd]; omega
      rw [if_neg hne]
      have e := ih (k + 1) (acc ++ [((Bres.start m x0 y0 x1 y1).after k).cell]) (by omega) (by omega)
      rw [Bres.after_succ] at e
      have hne' : ¬ (((Bres.start m x0 y0 x1 y1).after k).x = ((Bres.start m x0 y0 x1 y1).after k).x1 ∧
          ((Bres.start m x0 y0 x1 y1).after k).y = ((Bres.start m x0 y0 x1 y1).after k).y1) := by
        rw [hat.hx1, hat.hy1]; exact hne
      have hr : (List.range' k (lineLength x0 y0 x1 y1 - k + 1)) =
          k :: List.range' (k + 1) (lineLength x0 y0 x1 y1 - (k + 1) + 1) := by
        have : lineLength x0 y0 x1 y1 - k + 1 = (lineLength x0 y0 x1 y1 - (k + 1) + 1) + 1 := by omega
        rw [this, List.range'_succ]
      rw [hr, List.map_cons]
      have hdx := hat.hdx
      have hdy := hat.hdy
      have hsx := hat.hsx
      have hsy := hat.hsy
      rw [Bres.next, if_neg hne'] at e
      simp only [hdx, hdy] at e
      rw [← hsx, ← hsy] at e ⊢
      by_cases c1 : 2 * ((Bres.start m x0 y0 x1 y1).after k).err > -|y1 - y0| <;>
      by_cases c2 : 2 * ((Bres.start m x0 y0 x1 y1).after k).err < |x1 - x0| <;>
      · simp only [c1, c2, if_true, if_false, hdx, hdy] at e ⊢
        simp only [Bres.cell] at e ⊢
        rw [e]; simp

/-- **C15.** With enough fuel (i.e. the loop terminates) the line area stores exactly
`max(|Δx|,|Δy|)+1` cells: the start cell followed by the cells of the Bresenham iterator. -/
theorem lineCells_eq {K : Type} (m : GridMap K) (x0 y0 x1 y1 : Int) (fuel : Nat)
    (hf : lineLength x0 y0 x1 y1 < fuel) :
    lineCells fuel x0 y0 x1 y1 = some ((List.range (lineLength x0 y0 x1 y1 + 1)).map
      fun l => ((Bres.start m x0 y0 x1 y1).after l).cell) := by
  have := lineLoop_eq m x0 y0 x1 y1 fuel 0 [] (Nat.zero_le _) (by omega)
  rw [List.range_eq_range']
  simpa [lineCells, Bres.after, Bres.start] using this

section num
variable {K : Type} [Field K] [LinearOrder K] [IsStrictOrderedRing K] [FloorRing K]

/-- **C15, whole function.** For points in the squares of the in-map cells `c` and `d`,
`LineArea::set` stores the line from `c` to `d`: the start cell first, the end cell last, consecutive
cells 8-adjacent, `max(|Δx|,|Δy|)+1` of them, all in the map. -/
theorem lineArea_correct (m : GridMap K) (hr : 0 < m.res) (hw : m.width < 2 ^ 31)
    (hh : m.height < 2 ^ 31) (c d : UCell) (p q : K × K)
    (hc : c.x < m.width ∧ c.y < m.height) (hd : d.x < m.width ∧ d.y < m.height)
    (hp : InCell m.ox m.oy m.res c.x c.y p.1 p.2) (hq : InCell m.ox m.oy m.res d.x d.y q.1 q.2)
    (fuel : Nat) (hf : lineLength c.x c.y d.x d.y < fuel) :
    ∃ cells, lineAreaSet fuel m p q = .ok (some cells) ∧
      cells.length = lineLength c.x c.y d.x d.y + 1 ∧
      cells.head? = some ((c.x : Int), (c.y : Int)) ∧
      cells.getLast? = some ((d.x : Int), (d.y : Int)) ∧
      cells.IsChain EightAdjacent ∧
      (∀ z ∈ cells, m.isInMap z.1 z.2 = true ∧
        WithinHalfCell (c.x, c.y) (d.x, d.y) z) := by
  have hpc := GridMap.point2cell_of_inCell m hr hw hh c.x c.y hc.1 hc.2 _ _ hp
  have hqd := GridMap.point2cell_of_inCell m hr hw hh d.x d.y hd.1 hd.2 _ _ hq
  have inD : ∀ (x y : Nat) (u v : K), x < m.width → y < m.height →
      InCell m.ox m.oy m.res x y u v → m.isInMapD u v = true := by
    intro x y u v hx hy ⟨_, h2, _, h4⟩
    unfold GridMap.isInMapD
    simp only [Bool.and_eq_true, decide_eq_true_eq, div_lt_iff₀ hr]
    have h5 : ((x : K) + 1) ≤ m.width := by exact_mod_cast hx
    have h6 : ((y : K) + 1) ≤ m.height := by exact_mod_cast hy
    have h7 := mul_le_mul_of_nonneg_right h5 hr.le
    have h8 := mul_le_mul_of_nonneg_right h6 hr.le
    constructor <;> linarith
  have inI : ∀ (z : UCell), z.x < m.width ∧ z.y < m.height → m.isInMap z.x z.y = true := by
    intro z hz
    rw [GridMap.isInMap_iff m hw hh]; omega
  have hcells := lineCells_eq m c.x c.y d.x d.y fuel hf
  obtain ⟨s1, s2, s3, s4, s5, s6, s7⟩ :=
    Bres.line_correct Bres.fresh m c.x c.y d.x d.y (inI c hc) (inI d hd)
  have acc := Bres.line_accurate Bres.fresh m c.x c.y d.x d.y (inI c hc) (inI d hd)
  simp only [Bres.setGrid_inMap Bres.fresh m (inI c hc) (inI d hd)] at s1 s3 s4 s6 acc
  refine ⟨(List.range (lineLength c.x c.y d.x d.y + 1)).map
      fun l => ((Bres.start m c.x c.y d.x d.y).after l).cell, ?_, ?_, ?_, ?_, ?_, ?_⟩
  · rw [lineAreaSet]
    rw [inD _ _ _ _ hc.1 hc.2 hp, inD _ _ _ _ hd.1 hd.2 hq, hpc, hqd]
    simp only [Bool.not_true, Bool.or_self, Bool.false_eq_true, if_false, CRes.ok_bind]
    rw [toI32_small (by omega), toI32_small (by omega), toI32_small (by omega),
      toI32_small (by omega), hcells]
    rfl
  · simp
  · rw [List.range_succ_eq_map]; simp [Bres.after, s1]
  · rw [List.range_succ]
    simp [s4 _ le_rfl]
  · rw [List.isChain_map, List.isChain_range]
    intro k hk
    exact s3 k (by omega)
  · intro z hz
    obtain ⟨k, -, rfl⟩ := List.mem_map.1 hz
    exact ⟨s6 k, acc k⟩

/-- Non-vacuity of `lineArea_correct`: cells (1,0) and (6,4) of an 8×6 map of resolution 1/2. -/
example : ∃ m : GridMap ℚ, 0 < m.res ∧ m.width < 2 ^ 31 ∧ m.height < 2 ^ 31 ∧
    (1 < m.width ∧ 0 < m.height) ∧ (6 < m.width ∧ 4 < m.height) ∧
    InCell m.ox m.oy m.res 1 0 (3/4 : ℚ) 0 ∧ InCell m.ox m.oy m.res 6 4 (3 : ℚ) (9/4) :=
  ⟨GridMap.mk' 8 6 (1/2 : ℚ), by norm_num [GridMap.mk', InCell]⟩

/-! ## C16 — line-of-sight checks of the map manager -/

theorem lineScan_eq {m : GridMap K} {x0 y0 x1 y1 : Int} (ok : UCell → CRes Bool) (fuel : Nat) :
    ∀ k : Nat, k ≤ lineLength x0 y0 x1 y1 → lineLength x0 y0 x1 y1 - k < fuel →
    (∀ l, k < l → l ≤ lineLength x0 y0 x1 y1 →
      ∃ r, ok ⟨wrapI ((Bres.start m x0 y0 x1 y1).after l).x,
        wrapI ((Bres.start m x0 y0 x1 y1).after l).y⟩ = .ok r) →
    ∃ r, lineScan ok fuel ((Bres.start m x0 y0 x1 y1).after k) = .ok (some r) ∧
      (r = true ↔ ∀ l, k < l → l ≤ lineLength x0 y0 x1 y1 →
        ok ⟨wrapI ((Bres.start m x0 y0 x1 y1).after l).x,
          wrapI ((Bres.start m x0 y0 x1 y1).after l).y⟩ = .ok true) := by
  have hl := Bres.len_cast x0 y0 x1 y1
  induction fuel with
  | zero => intro k _ h; omega
  | succ fuel ih =>
    intro k hk hf hdef
    obtain ⟨i, j, hat⟩ := Bres.at_after m x0 y0 x1 y1 k hk
    rw [lineScan]
    by_cases hend : k = lineLength x0 y0 x1 y1
    · rw [hat.stay (by omega)]
      refine ⟨true, rfl, ?_⟩
      simp only [true_iff]
      intro l h1 h2; omega
    · have hs := (hat.step (by omega)).1
      simp only [hs, if_true]
      rw [← Bres.after_succ]
      obtain ⟨r, hr⟩ := hdef (k + 1) (by omega) (by omega)
      rw [hr]
      cases r with
      | false =>
        refine ⟨false, rfl, ?_⟩
        simp only [Bool.false_eq_true, false_iff]
        intro hall
        have := hall (k + 1) (by omega) (by omega)
        rw [hr] at this; simp at this
      | true =>
        obtain ⟨r, h1, h2⟩ := ih (k + 1) (by omega) (by omega)
          (fun l ha hb => hdef l (by omega) hb)
        refine ⟨r, by simpa using h1, h2.trans ⟨fun h l ha hb => ?_, fun h l ha hb => h l (by omega) hb⟩⟩
        rcases Nat.lt_or_ge (k + 1) l with hq | hq
        · exact h l hq hb
        · have : l = k + 1 := by omega
          subst this; exact hr

/-- Reading an in-map cell of a well-formed map is defined. -/
theorem GridMap.read_ok (m : GridMap K) (hsz : m.width * m.height < 2 ^ 32)
    (hlen : m.width * m.height ≤ m.data.length) {x y : Nat} (hx : x < m.width) (hy : y < m.height) :
    ∃ v, m.getValue ⟨x, y⟩ = .ok v := by
  have h1 := GridMap.cell_lt hx hy
  have h2 : m.index ⟨x, y⟩ = y * m.width + x := by
    have : u32 = 2 ^ 32 := by decide
    unfold GridMap.index wrapU
    rw [Nat.mod_eq_of_lt (a := y * m.width) (by omega), Nat.mod_eq_of_lt (by simp only; omega)]
  exact ⟨_, by rw [GridMap.getValue, h2]; exact vget_of_lt (by omega)⟩

/-- A map whose storage matches its size. -/
structure GridMap.WellFormed (m : GridMap K) : Prop where
  w : m.width < 2 ^ 31
  h : m.height < 2 ^ 31
  size : m.width * m.height < 2 ^ 32
  len : m.width * m.height ≤ m.data.length

/-- The cells of the digital line from `(x0,y0)` to `(x1,y1)`, start and end included. -/
def digitalLine (m : GridMap K) (x0 y0 x1 y1 : Int) : List (Int × Int) :=
  (List.range (lineLength x0 y0 x1 y1 + 1)).map fun k => ((Bres.start m x0 y0 x1 y1).after k).cell

/-- Generic form: the scan examines exactly the cells of the digital line after the start. -/
theorem lineCheck_iff (b : Bres K) (m : GridMap K) (wf : m.WellFormed) (ok : UCell → CRes Bool)
    (hok : ∀ x y, x < m.width → y < m.height → ∃ r, ok ⟨x, y⟩ = .ok r) (sx sy ex ey : K)
    (h0 : 0 ≤ sx ∧ 0 ≤ sy ∧ 0 ≤ ex ∧ 0 ≤ ey)
    (hs : m.isInMap ⌊sx⌋ ⌊sy⌋ = true) (he : m.isInMap ⌊ex⌋ ⌊ey⌋ = true) (fuel : Nat)
    (hf : lineLength ⌊sx⌋ ⌊sy⌋ ⌊ex⌋ ⌊ey⌋ < fuel) :
    ∃ r, lineCheck fuel b m ok sx sy ex ey = .ok (some r) ∧
      (r = true ↔ ∀ z ∈ (digitalLine m ⌊sx⌋ ⌊sy⌋ ⌊ex⌋ ⌊ey⌋).tail,
        ok ⟨z.1.toNat, z.2.toNat⟩ = .ok true) ∧
      (∀ z ∈ digitalLine m ⌊sx⌋ ⌊sy⌋ ⌊ex⌋ ⌊ey⌋, z.1.toNat < m.width ∧ z.2.toNat < m.height) := by
  obtain ⟨s1, s2, s3, s4, s5, s6, s7⟩ := Bres.line_correct b m _ _ _ _ hs he
  simp only [Bres.setGrid_inMap b m hs he] at s6
  have hcell : ∀ l, wrapI ((Bres.start m ⌊sx⌋ ⌊sy⌋ ⌊ex⌋ ⌊ey⌋).after l).x =
        ((Bres.start m ⌊sx⌋ ⌊sy⌋ ⌊ex⌋ ⌊ey⌋).after l).cell.1.toNat ∧
      wrapI ((Bres.start m ⌊sx⌋ ⌊sy⌋ ⌊ex⌋ ⌊ey⌋).after l).y =
        ((Bres.start m ⌊sx⌋ ⌊sy⌋ ⌊ex⌋ ⌊ey⌋).after l).cell.2.toNat ∧
      ((Bres.start m ⌊sx⌋ ⌊sy⌋ ⌊ex⌋ ⌊ey⌋).after l).cell.1.toNat < m.width ∧
      ((Bres.start m ⌊sx⌋ ⌊sy⌋ ⌊ex⌋ ⌊ey⌋).after l).cell.2.toNat < m.height := by
    intro l
    have hin := (GridMap.isInMap_iff m wf.w wf.h _ _).1 (s6 l)
    have := wf.w
    have := wf.h
    refine ⟨wrapI_of_lt hin.1 ?_, wrapI_of_lt hin.2.2.1 ?_, ?_, ?_⟩
    · have := hin.2.1; simp only [Bres.cell] at this; omega
    · have := hin.2.2.2; simp only [Bres.cell] at this; omega
    · omega
    · omega
  have hscan := lineScan_eq (m := m) (x0 := ⌊sx⌋) (y0 := ⌊sy⌋) (x1 := ⌊ex⌋) (y1 := ⌊ey⌋)
    ok fuel 0 (Nat.zero_le _) (by omega) (by
      intro l _ _
      rw [(hcell l).1, (hcell l).2.1]
      exact hok _ _ (hcell l).2.2.1 (hcell l).2.2.2)
  obtain ⟨r, h1, h2⟩ := hscan
  refine ⟨r, ?_, h2.trans ?_, ?_⟩
  · rw [lineCheck, if_neg (by
      simp only [not_or, not_lt]; exact h0), Bres.setGrid_inMap b m hs he]
    exact h1
  · have ht : (digitalLine m ⌊sx⌋ ⌊sy⌋ ⌊ex⌋ ⌊ey⌋).tail =
        (List.range' 1 (lineLength ⌊sx⌋ ⌊sy⌋ ⌊ex⌋ ⌊ey⌋)).map
          fun k => ((Bres.start m ⌊sx⌋ ⌊sy⌋ ⌊ex⌋ ⌊ey⌋).after k).cell := by
      unfold digitalLine
      rw [List.range_eq_range', List.range'_succ, List.map_cons, List.tail_cons]
    rw [ht]
    constructor
    · intro h z hz
      obtain ⟨k, hk, rfl⟩ := List.mem_map.1 hz
      rw [List.mem_range'_1] at hk
      have := h k (by omega) (by omega)
      rwa [(hcell k).1, (hcell k).2.1] at this
    · intro h l ha hb
      have := h _ (List.mem_map.2 ⟨l, List.mem_range'_1.2 ⟨by omega, by omega⟩, rfl⟩)
      rwa [(hcell l).1, (hcell l).2.1]
  · intro z hz
    obtain ⟨k, -, rfl⟩ := List.mem_map.1 hz
    exact ⟨(hcell k).2.2.1, (hcell k).2.2.2⟩

/-- **C16 (partial).** For non-negative coordinates whose cells are on the map,
`Manager::isFree(sx,sy,ex,ey)` terminates without undefined behaviour and returns true iff every
cell of the digital line *except the start cell* is free.  Missing from the full claim: the start
cell (`lineFree_ignores_start`) and endpoints off the map (`lineFree_off_map_true`), where the claim
is false. -/
theorem lineFree_iff_partial (b : Bres K) (m : GridMap K) (wf : m.WellFormed) (sx sy ex ey : K)
    (h0 : 0 ≤ sx ∧ 0 ≤ sy ∧ 0 ≤ ex ∧ 0 ≤ ey)
    (hs : m.isInMap ⌊sx⌋ ⌊sy⌋ = true) (he : m.isInMap ⌊ex⌋ ⌊ey⌋ = true) (fuel : Nat)
    (hf : lineLength ⌊sx⌋ ⌊sy⌋ ⌊ex⌋ ⌊ey⌋ < fuel) :
    ∃ r, managerLineFree fuel b m sx sy ex ey = .ok (some r) ∧
      (r = true ↔ ∀ z ∈ (digitalLine m ⌊sx⌋ ⌊sy⌋ ⌊ex⌋ ⌊ey⌋).tail,
        m.isFree ⟨z.1.toNat, z.2.toNat⟩ = .ok true) := by
  obtain ⟨r, h1, h2, -⟩ := lineCheck_iff b m wf m.isFree (by
    intro x y hx hy
    obtain ⟨v, hv⟩ := GridMap.read_ok m wf.size wf.len hx hy
    exact ⟨m.freeByte v, by rw [GridMap.isFree, hv]; rfl⟩) sx sy ex ey h0 hs he fuel hf
  exact ⟨r, h1, h2⟩

/-- **C16 (partial), free-or-unknown variant.** Under the same conditions
`Manager::isFreeOrUnknown(sx,sy,ex,ey)` returns true iff every cell of the digital line except the
start cell is free or without information; with lower threshold < upper threshold: iff none of
them is occupied. -/
theorem lineFreeOrUnknown_iff_partial (b : Bres K) (m : GridMap K) (wf : m.WellFormed)
    (ht : m.lower < m.upper) (sx sy ex ey : K)
    (h0 : 0 ≤ sx ∧ 0 ≤ sy ∧ 0 ≤ ex ∧ 0 ≤ ey)
    (hs : m.isInMap ⌊sx⌋ ⌊sy⌋ = true) (he : m.isInMap ⌊ex⌋ ⌊ey⌋ = true) (fuel : Nat)
    (hf : lineLength ⌊sx⌋ ⌊sy⌋ ⌊ex⌋ ⌊ey⌋ < fuel) :
    ∃ r, managerLineFreeOrUnknown fuel b m sx sy ex ey = .ok (some r) ∧
      (r = true ↔ ∀ z ∈ (digitalLine m ⌊sx⌋ ⌊sy⌋ ⌊ex⌋ ⌊ey⌋).tail,
        m.isOccupied ⟨z.1.toNat, z.2.toNat⟩ = .ok false) := by
  have val : ∀ x y, x < m.width → y < m.height →
      ∃ r, (do let n ← m.isNoInformation ⟨x, y⟩
               if n then pure true else m.isFree ⟨x, y⟩ : CRes Bool) = .ok r ∧
        (r = true ↔ m.isOccupied ⟨x, y⟩ = .ok false) := by
    intro x y hx hy
    obtain ⟨v, hv⟩ := GridMap.read_ok m wf.size wf.len hx hy
    rcases GridMap.classification_exactly_one m ⟨x, y⟩ v hv ht with ⟨a, b, c⟩ | ⟨a, b, c⟩ | ⟨a, b, c⟩
    · exact ⟨true, by rw [a, c]; rfl, by simp [b]⟩
    · exact ⟨false, by rw [a, c]; rfl, by rw [b]; simp⟩
    · exact ⟨true, by rw [c]; rfl, by simp [b]⟩
  obtain ⟨r, h1, h2, h3⟩ := lineCheck_iff b m wf (fun c => do
    let n ← m.isNoInformation c
    if n then pure true else m.isFree c) (fun x y hx hy => by
      obtain ⟨r, hr, -⟩ := val x y hx hy
      exact ⟨r, hr⟩) sx sy ex ey h0 hs he fuel hf
  refine ⟨r, h1, h2.trans ?_⟩
  apply forall₂_congr
  intro z hz
  obtain ⟨b1, b2⟩ := h3 z (List.mem_of_mem_tail hz)
  obtain ⟨r', e1, e2⟩ := val _ _ b1 b2
  rw [← e2, e1]; simp

/-- Non-vacuity: an 8×6 map with an occupied cell on the line. -/
example : (GridMap.mk' 8 6 (1 : ℚ)).WellFormed ∧
    (GridMap.mk' 8 6 (1 : ℚ)).isInMap 1 2 = true ∧ (GridMap.mk' 8 6 (1 : ℚ)).isInMap 7 5 = true := by
  refine ⟨⟨?_, ?_, ?_, ?_⟩, ?_, ?_⟩ <;> decide +kernel

/-- **C16 is false of the code (1).** If an endpoint's cell is off the map the line is reported free,
whatever the map contains. -/
theorem lineFree_off_map_true (b : Bres K) (m : GridMap K) (sx sy ex ey : K)
    (h0 : 0 ≤ sx ∧ 0 ≤ sy ∧ 0 ≤ ex ∧ 0 ≤ ey)
    (h : m.isInMap ⌊sx⌋ ⌊sy⌋ = false ∨ m.isInMap ⌊ex⌋ ⌊ey⌋ = false) (fuel : Nat) (hf : 0 < fuel) :
    managerLineFree fuel b m sx sy ex ey = .ok (some true) ∧
    managerLineFreeOrUnknown fuel b m sx sy ex ey = .ok (some true) := by
  obtain ⟨n, rfl⟩ : ∃ n, fuel = n + 1 := ⟨fuel - 1, by omega⟩
  have := (Bres.line_off_map b m _ _ _ _ h 0).1
  simp only [Bres.after, Function.iterate_zero, id_eq] at this
  have h0' : ¬ (sx < 0 ∨ sy < 0 ∨ ex < 0 ∨ ey < 0) := by
    simp only [not_or, not_lt]; exact h0
  simp [managerLineFree, managerLineFreeOrUnknown, lineCheck, if_neg h0', lineScan, this]

/-- **C16 is false of the code (2).** The start cell is not examined: a "line" whose start and end are
the same cell is reported free even if this cell is occupied (cf. `.tail` in
`lineFree_iff_partial` for longer lines). -/
theorem lineFree_ignores_start (b : Bres K) (m : GridMap K) (sx sy : K)
    (h0 : 0 ≤ sx ∧ 0 ≤ sy) (fuel : Nat) (hf : 0 < fuel) :
    managerLineFree fuel b m sx sy sx sy = .ok (some true) := by
  obtain ⟨n, rfl⟩ : ∃ n, fuel = n + 1 := ⟨fuel - 1, by omega⟩
  have h0' : ¬ (sx < 0 ∨ sy < 0 ∨ sx < 0 ∨ sy < 0) := by
    simp only [not_or, not_lt]; exact ⟨h0.1, h0.2, h0.1, h0.2⟩
  have : (b.setGrid m ⌊sx⌋ ⌊sy⌋ ⌊sx⌋ ⌊sy⌋).next.1 = false := by
    unfold Bres.setGrid Bres.next
    split
    · simp
    · simp [Bres.start]
  rw [managerLineFree, lineCheck, if_neg h0', lineScan]
  simp [this]

end num
end PathPlanning
