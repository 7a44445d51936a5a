import Verif.Props.Bresenham

/-!
# C13, C17: what the line iterator reads; where its arithmetic overflows
-/

namespace PathPlanning
namespace Bres
variable {K : Type}

/-- **C13 (reads).**  After `setGrid` with endpoints on the map and any number of `next` calls, `coordinates`, `value`,
`isFree`, `isOccupied` and `isNoInformation` report the cell the iterator stands on: the byte stored for that cell
(row-major) and the answers of the map for it. -/
theorem line_reads (b : Bres K) (m : GridMap K) (wf : m.WellFormed) (x0 y0 x1 y1 : Int)
    (hs : m.isInMap x0 y0 = true) (he : m.isInMap x1 y1 = true) (k : Nat) :
    let s := (b.setGrid m x0 y0 x1 y1).after k
    ∃ x y : Nat, s.cell = ((x : Int), (y : Int)) ∧ x < m.width ∧ y < m.height ∧ s.coordinates = ⟨x, y⟩ ∧
      s.isFree = m.isFree ⟨x, y⟩ ∧ s.isOccupied = m.isOccupied ⟨x, y⟩ ∧
      s.isNoInformation = m.isNoInformation ⟨x, y⟩ ∧
      ∃ v, m.data[y * m.width + x]? = some v ∧ s.value = .ok v := by
  intro s
  have hin := (line_correct b m x0 y0 x1 y1 hs he).2.2.2.2.2.1 k
  have hmap : s.map = some m := by
    have h0 : (b.setGrid m x0 y0 x1 y1).map = some m := by rw [setGrid_inMap b m hs he]; rfl
    have hstep : ∀ t : Bres K, t.map = some m → (next t).2.map = some m := by
      intro t ht
      unfold next
      by_cases hc : t.x = t.x1 ∧ t.y = t.y1
      · rw [if_pos hc]; exact ht
      · rw [if_neg hc]
        by_cases c1 : 2 * t.err > t.dy <;> simp only [c1, if_true, if_false] <;> split <;> simpa using ht
    show (after _ k).map = some m
    unfold after
    induction k with
    | zero => exact h0
    | succ n ih =>
      rw [Function.iterate_succ_apply']
      exact hstep _ (ih ((line_correct b m x0 y0 x1 y1 hs he).2.2.2.2.2.1 n))
  change m.isInMap s.cell.1 s.cell.2 = true at hin
  have hb := (GridMap.isInMap_iff m wf.w wf.h _ _).1 hin
  have hw := wf.w
  have hh := wf.h
  obtain ⟨x, hx⟩ : ∃ x : Nat, s.x = x := ⟨s.x.toNat, by simp only [cell] at hb; omega⟩
  obtain ⟨y, hy⟩ : ∃ y : Nat, s.y = y := ⟨s.y.toNat, by simp only [cell] at hb; omega⟩
  simp only [cell, hx, hy] at hb
  have ex : wrapI s.x = x := by rw [hx, wrapI_of_lt (by omega) (by omega)]; simp
  have ey : wrapI s.y = y := by rw [hy, wrapI_of_lt (by omega) (by omega)]; simp
  have hxl : x < m.width := by omega
  have hyl : y < m.height := by omega
  refine ⟨x, y, by simp [cell, hx, hy], hxl, hyl, by simp [coordinates, ex, ey], ?_, ?_, ?_, ?_⟩
  · simp only [isFree, hmap, ex, ey]
  · simp only [isOccupied, hmap, ex, ey]
  · simp only [isNoInformation, hmap, ex, ey]
  · have h1 := GridMap.cell_lt hxl hyl
    have hsz := wf.size
    have hlen := wf.len
    have h2 : m.index ⟨x, y⟩ = y * m.width + x := by
      have : u32 = 2 ^ 32 := by decide
      unfold GridMap.index wrapU
      rw [Nat.mod_eq_of_lt (a := y * m.width) (by omega), Nat.mod_eq_of_lt (by simp only; omega)]
    refine ⟨m.data[y * m.width + x]'(by omega), List.getElem?_eq_getElem (by omega), ?_⟩
    simp only [value, hmap, ex, ey, GridMap.getValue, h2]
    exact vget_of_lt (by omega)

/-- **C17, finding.**  On a map with more than `2^30` cells per row the very first step along the row overflows: the
error term is doubled before it is compared. -/
theorem line_overflow (b : Bres K) (m : GridMap K) (x0 y0 x1 : Int) (hs : m.isInMap x0 y0 = true)
    (he : m.isInMap x1 y0 = true) (hlong : 2 ^ 30 ≤ |x1 - x0|) :
    (b.setGrid m x0 y0 x1 y0).nextC = .ub := by
  rw [setGrid_inMap b m hs he]
  have hne : ¬ (x0 = x1 ∧ y0 = y0) := by
    rintro ⟨rfl, -⟩
    simp at hlong
  unfold nextC
  rw [if_neg (by simpa [start] using hne)]
  have : fits (2 * (start m x0 y0 x1 y0).err) = false := by
    simp only [start, fits, sub_self, abs_zero, neg_zero, add_zero]
    simp only [Bool.and_eq_false_iff, decide_eq_false_iff_not, not_le]
    right
    omega
  simp [this]

/-- **C17, finding.**  The same happens along a column. -/
theorem line_overflow_col (b : Bres K) (m : GridMap K) (x0 y0 y1 : Int) (hs : m.isInMap x0 y0 = true)
    (he : m.isInMap x0 y1 = true) (hlong : 2 ^ 30 < |y1 - y0|) :
    (b.setGrid m x0 y0 x0 y1).nextC = .ub := by
  rw [setGrid_inMap b m hs he]
  have hne : ¬ (x0 = x0 ∧ y0 = y1) := by
    rintro ⟨-, rfl⟩
    simp at hlong
  unfold nextC
  rw [if_neg (by simpa [start] using hne)]
  have : fits (2 * (start m x0 y0 x0 y1).err) = false := by
    simp only [start, fits, sub_self, abs_zero, zero_add]
    simp only [Bool.and_eq_false_iff, decide_eq_false_iff_not, not_le]
    left
    omega
  simp [this]

section num
open Spec
variable {K : Type} [Field K] [LinearOrder K] [IsStrictOrderedRing K] [FloorRing K]

/-- **C13 (world coordinates).**  `set` with points in the squares of two cells of the map starts exactly the iteration
that `setGrid` starts for these cells. -/
theorem set_correct (b : Bres K) (m : GridMap K) (hr : 0 < m.res) (hw : m.width < 2 ^ 31)
    (hh : m.height < 2 ^ 31) (c d : UCell) (p q : K × K)
    (hc : c.x < m.width ∧ c.y < m.height) (hd : d.x < m.width ∧ d.y < m.height)
    (hp : InCell m.ox m.oy m.res c.x c.y p.1 p.2) (hq : InCell m.ox m.oy m.res d.x d.y q.1 q.2) :
    b.set m p q = .ok (b.setGrid m c.x c.y d.x d.y) := by
  have hpc := GridMap.point2cell_of_inCell m hr hw hh c.x c.y hc.1 hc.2 _ _ hp
  have hqd := GridMap.point2cell_of_inCell m hr hw hh d.x d.y hd.1 hd.2 _ _ hq
  have inD : ∀ (x y : Nat) (u v : K), x < m.width → y < m.height →
      InCell m.ox m.oy m.res x y u v → m.isInMapD u v = true := by
    intro x y u v hx hy ⟨_, h2, _, h4⟩
    unfold GridMap.isInMapD
    simp only [Bool.and_eq_true, decide_eq_true_eq, div_lt_iff₀ hr]
    have h5 : ((x : K) + 1) ≤ m.width := by exact_mod_cast hx
    have h6 : ((y : K) + 1) ≤ m.height := by exact_mod_cast hy
    have h7 := mul_le_mul_of_nonneg_right h5 hr.le
    have h8 := mul_le_mul_of_nonneg_right h6 hr.le
    constructor <;> linarith
  have inI : ∀ (z : UCell), z.x < m.width ∧ z.y < m.height → m.isInMap z.x z.y = true := by
    intro z hz
    rw [GridMap.isInMap_iff m hw hh]; omega
  rw [Bres.set, inD _ _ _ _ hc.1 hc.2 hp, inD _ _ _ _ hd.1 hd.2 hq, hpc, hqd]
  simp only [Bool.not_true, Bool.or_self, Bool.false_eq_true, if_false, CRes.ok_bind]
  rw [toI32_small (by omega), toI32_small (by omega), toI32_small (by omega),
    toI32_small (by omega), setGrid_inMap b m (inI c hc) (inI d hd)]
  rfl

/-- **C13 (world coordinates, off the map).**  If one of the points lies on or beyond the upper or right edge of the map,
`set` leaves an iterator without steps that stands on cell (0,0) and still refers to its previous map. -/
theorem set_off_map (b : Bres K) (m : GridMap K) (hr : 0 < m.res) (p q : K × K)
    (hoff : m.ox + m.width * m.res ≤ p.1 ∨ m.oy + m.height * m.res ≤ p.2 ∨
      m.ox + m.width * m.res ≤ q.1 ∨ m.oy + m.height * m.res ≤ q.2) :
    ∃ s, b.set m p q = .ok s ∧ s.cell = (0, 0) ∧ s.map = b.map ∧ s.next = (false, s) := by
  have hin : (!m.isInMapD p.1 p.2 || !m.isInMapD q.1 q.2) = true := by
    unfold GridMap.isInMapD
    simp only [Bool.or_eq_true, Bool.not_eq_true', Bool.and_eq_false_iff, decide_eq_false_iff_not, not_lt,
      le_div_iff₀ hr]
    rcases hoff with h | h | h | h
    · exact .inl (.inl (by linarith))
    · exact .inl (.inr (by linarith))
    · exact .inr (.inl (by linarith))
    · exact .inr (.inr (by linarith))
  refine ⟨{ b with x0 := 0, y0 := 0, x := 0, y := 0, x1 := 0, y1 := 0 }, ?_, rfl, rfl, ?_⟩
  · rw [Bres.set, if_pos hin]
  · unfold next
    rw [if_pos ⟨rfl, rfl⟩]

/-- **C15 (partial).**  If one of the endpoints lies on or beyond the upper or right edge of the map, `LineArea::set`
stores no cell.  Missing: endpoints left of or below the map, where the claim is false (`lineArea_below_ub`). -/
theorem lineArea_off_map_partial (m : GridMap K) (hr : 0 < m.res) (p q : K × K)
    (hoff : m.ox + m.width * m.res ≤ p.1 ∨ m.oy + m.height * m.res ≤ p.2 ∨
      m.ox + m.width * m.res ≤ q.1 ∨ m.oy + m.height * m.res ≤ q.2) (fuel : Nat) :
    lineAreaSet fuel m p q = .ok (some []) := by
  have hin : (!m.isInMapD p.1 p.2 || !m.isInMapD q.1 q.2) = true := by
    unfold GridMap.isInMapD
    simp only [Bool.or_eq_true, Bool.not_eq_true', Bool.and_eq_false_iff, decide_eq_false_iff_not, not_lt,
      le_div_iff₀ hr]
    rcases hoff with h | h | h | h
    · exact .inl (.inl (by linarith))
    · exact .inl (.inr (by linarith))
    · exact .inr (.inl (by linarith))
    · exact .inr (.inr (by linarith))
  rw [lineAreaSet, if_pos hin]

/-- **C15 is false of the code** left of and below the map: if no endpoint lies beyond the upper or right edge and the
start lies a cell or more left of the map, `LineArea::set` has undefined behaviour (the test for being on the map passes and
the negative coordinate is converted to `unsigned int`). -/
theorem lineArea_below_ub (m : GridMap K) (hr : 0 < m.res) (p q : K × K)
    (hp : p.1 ≤ m.ox - m.res ∨ p.2 ≤ m.oy - m.res)
    (hpx : p.1 < m.ox + m.width * m.res) (hpy : p.2 < m.oy + m.height * m.res)
    (hqx : q.1 < m.ox + m.width * m.res) (hqy : q.2 < m.oy + m.height * m.res) (fuel : Nat) :
    lineAreaSet fuel m p q = .ub := by
  have hin : (!m.isInMapD p.1 p.2 || !m.isInMapD q.1 q.2) = false := by
    unfold GridMap.isInMapD
    simp only [Bool.or_eq_false_iff, Bool.not_eq_false', Bool.and_eq_true, decide_eq_true_eq, div_lt_iff₀ hr]
    exact ⟨⟨by linarith, by linarith⟩, by linarith, by linarith⟩
  have hub : m.point2cell p.1 p.2 = .ub := by
    rcases hp with h | h
    · exact GridMap.point2cell_ub_below m hr _ _ h
    · have h1 : (p.2 - m.oy) / m.res ≤ -1 := by rw [div_le_iff₀ hr]; linarith
      have ht := truncC_neg h1
      have : castU ((p.2 - m.oy) / m.res) = .ub := by simp [castU, not_le.2 ht]
      have hx : castU ((p.1 - m.ox) / m.res) = .ub ∨ ∃ x, castU ((p.1 - m.ox) / m.res) = .ok x := by
        unfold castU; split <;> simp
      unfold GridMap.point2cell
      rw [this]
      rcases hx with h2 | ⟨x, h2⟩ <;> rw [h2] <;> rfl
  rw [lineAreaSet, hin, hub]
  rfl

example : ∃ m : GridMap ℚ, 0 < m.res ∧ (-1 : ℚ) ≤ m.ox - m.res ∧ (-1 : ℚ) < m.ox + m.width * m.res ∧
    (1 : ℚ) < m.oy + m.height * m.res :=
  ⟨GridMap.mk' 8 6 (1/2 : ℚ), by norm_num [GridMap.mk']⟩

example : ∃ m : GridMap ℚ, 0 < m.res ∧ InCell m.ox m.oy m.res 1 0 (3/4 : ℚ) 0 ∧ m.ox + m.width * m.res ≤ (4 : ℚ) :=
  ⟨GridMap.mk' 8 6 (1/2 : ℚ), by norm_num [GridMap.mk', InCell]⟩

end num

/-- The hypotheses are met: a 3 × 2 map, the line from (0,0) to (2,1); a map of `2^30 + 2` columns for the finding. -/
example : (GridMap.mk' 3 2 (1 : Rat)).isInMap 2 1 = true := by decide
example : (GridMap.mk' (2 ^ 30 + 2) 1 (1 : Rat)).isInMap (2 ^ 30 + 1) 0 = true := by
  simp [GridMap.isInMap, GridMap.mk', toI32]

end Bres
end PathPlanning
