import Verif.Props.Collision
import Verif.Props.DistTrans2
import Verif.Props.DynLine
import Verif.Props.GridMap
import Verif.Props.GridSearch
import Mathlib.Analysis.SpecialFunctions.Pow.Real
import Mathlib.Tactic.IntervalCases

/-!
# Theorems added after seeded errors survived
-/

namespace PathPlanning
open Spec

/-! ### C02: a new map -/

namespace GridMap

/-- **C02 (defaults).**  On a map as constructed, a cell is free iff its value is at most 50, occupied iff it is at least
200, without information in between; no value is set aside as "no information". -/
theorem fresh_thresholds {K : Type} [Zero K] (w h : Nat) (r : K) (v : UInt8) :
    ((mk' w h r).freeByte v = true ↔ v.toNat ≤ 50) ∧ ((mk' w h r).occByte v = true ↔ 200 ≤ v.toNat) ∧
    ((mk' w h r).noInfByte v = true ↔ 50 < v.toNat ∧ v.toNat < 200) := by
  have hn : (mk' w h r).isNoInfoByte v = false := by simp [isNoInfoByte, mk']
  simp only [freeByte, occByte, noInfByte, hn, Bool.false_eq_true, if_false, decide_eq_true_eq, Bool.and_eq_true]
  simp only [mk', UInt8.le_iff_toNat_le, UInt8.lt_iff_toNat_lt]
  exact ⟨Iff.rfl, Iff.rfl, Iff.rfl⟩

/-- **C01/C02 (defaults).**  Every cell of a new map is free. -/
theorem fresh_free {K : Type} [Zero K] (w h : Nat) (r : K) (hs : w * h < 2 ^ 32) {x y : Nat} (hx : x < w) (hy : y < h) :
    (mk' w h r).isFree ⟨x, y⟩ = .ok true ∧ (mk' w h r).ox = 0 ∧ (mk' w h r).oy = 0 ∧ (mk' w h r).res = r := by
  refine ⟨?_, rfl, rfl, rfl⟩
  have h1 : y * w + x < w * h := by
    have : (y + 1) * w ≤ h * w := Nat.mul_le_mul_right _ hy
    nlinarith
  have hidx : (mk' w h r).index ⟨x, y⟩ = y * w + x := by
    unfold index wrapU u32
    simp only [mk']
    rw [Nat.mod_eq_of_lt (show y * w < 4294967296 by omega), Nat.mod_eq_of_lt (by omega)]
  have hlen : (mk' w h r).data = List.replicate (w * h) 0 := by
    simp only [mk', wrapU, u32]
    rw [Nat.mod_eq_of_lt (by omega)]
  have hv : (mk' w h r).getValue ⟨x, y⟩ = .ok 0 := by
    unfold getValue
    rw [hidx, hlen, vget_of_lt (by simpa using h1)]
    simp
  have hb : (mk' w h r).freeByte 0 = true := by rw [(fresh_thresholds w h r 0).1]; decide
  simp [isFree, hv, hb]

example : (mk' 3 2 (1 : ℚ)).isFree ⟨2, 1⟩ = .ok true := (fresh_free 3 2 1 (by norm_num) (by norm_num) (by norm_num)).1

end GridMap

/-! ### C50: the test for unknown cells -/

namespace CMap

/-- **C50, exact behaviour of `isNoInformationRotated`.**  On the map and not occupied itself: true iff *no* in-map cell
of the footprint is without information — the opposite of what the name says (the loop of `isAreaNoInformation` answers
false at the first cell without information); off the map or on an occupied cell: false. -/
theorem isNoInformationRotated_iff {c : CMap} {f b w : ℝ} (hc : HasFootprint c f b w) (wf : c.base.base.WellFormed)
    (x y : Nat) (θ : ℝ) (hx : x < 2 ^ 31) (hy : y < 2 ^ 31) :
    ∃ n0 t k, ∃ a : RobotSt, ∃ junk, Reduced θ t ∧ NearestAway t ((k : Nat) : Int) ∧
      RobotSt.new f b w (areaTheta k) junk = .ok a ∧
      ∃ r c', c'.base = c.base ∧ HasFootprint c' f b w ∧
        (∀ n, n0 ≤ n → c.isNoInformationRotated n x y θ = .ok (some (r, c'))) ∧
        (r = true ↔ (c.base.base.isInMap x y = true ∧ c.base.base.isOccupied ⟨x, y⟩ = .ok false) ∧
           ∀ d ∈ a.cells, c.base.base.isInMap (x + d.1) (y + d.2) = true →
            MapArea.onCell c.base.base.isNoInformation (x + d.1, y + d.2) = .ok false) := by
  obtain ⟨n0, t, k, a, a', junk, h1, h2, h3, h4, h5, h6, h7, c', h8, h9, h10⟩ :=
    select_spec hc x y θ
  have ex : toI32 x = x := toI32_small (by omega)
  have ey : toI32 y = y := toI32_small (by omega)
  by_cases hin : c.base.base.isInMap x y = true
  · obtain ⟨v, hv⟩ := in_read hc wf x y (by rw [ex, ey]; exact hin) hx hy
    cases hocc : c.base.base.occByte v with
    | true =>
      refine ⟨n0, t, k, a, junk, h1, h2, h3, false, c, rfl, hc, fun n _ => ?_, ?_⟩
      · unfold isNoInformationRotated
        simp [ex, ey, hin, GridMap.isOccupied, hv, hocc]
      · simp [GridMap.isOccupied, hv, hocc]
    | false =>
      obtain ⟨s0, hb, hyld, -⟩ := robotArea_visits_all a' h5
      have gen := fun n (hn : a'.cells.length < n) =>
        MapArea.isAreaNoInformation_iff_none (m := c.base.base) wf hb hyld n (by simpa using hn)
      obtain ⟨r, hr, hiff⟩ := gen (a'.cells.length + 1) (by omega)
      refine ⟨max n0 (a'.cells.length + 1), t, k, a, junk, h1, h2, h3, r, c', h8, h9, fun n hn => ?_, ?_⟩
      · obtain ⟨r', hr', hiff'⟩ := gen n (by omega)
        have : r' = r := by
          rw [Bool.eq_iff_iff, hiff, hiff']
        subst this
        unfold isNoInformationRotated
        simp only [ex, ey, hin, GridMap.isOccupied, hv, hocc, h10 n (by omega), hr', CRes.ok_bind,
          CRes.pure_eq, Bool.not_true, Bool.false_eq_true, if_false, Option.map_some]
      · rw [hiff, h4, h6, h7, ex, ey]
        simp only [GridMap.isOccupied, hv, hocc, hin, CRes.ok_bind, CRes.pure_eq, true_and,
          List.mem_map, forall_exists_index, and_imp, forall_apply_eq_imp_iff₂]
  · refine ⟨n0, t, k, a, junk, h1, h2, h3, false, c, rfl, hc, fun n _ => ?_, ?_⟩
    · unfold isNoInformationRotated
      simp [ex, ey, hin]
    · simp [hin]

end CMap

/-! ### C54: the holonomic heuristic with padding -/

namespace DT

/-- **C54 (any padding).**  The heuristic of a cell `v` is, in units of the resolution, the length of a shortest walk from
the goal to `v` through free interior cells of the *padded* array, both ends moved by the padding; infinite for occupied
cells; the largest finite number if there is no such walk. -/
theorem holo_exact_padded {W H padding : Nat} {occ : Cell → Bool} {goal : Cell} {fuel : Nat} {c : Costs}
    (hs : holoSetMap W H padding occ goal fuel = some c) (res : ℝ) (v : Cell) :
    (∀ L, Walk (Usable (W + 2 * padding) (H + 2 * padding) occ) (goal.1 + padding, goal.2 + padding)
        (v.1 + padding, v.2 + padding) L →
      ∃ x, x ≤ L ∧ Walk (Usable (W + 2 * padding) (H + 2 * padding) occ) (goal.1 + padding, goal.2 + padding)
        (v.1 + padding, v.2 + padding) x ∧ holoCompute padding (some c) res v = some (x * res)) ∧
    ((∃ x, c (v.1 + padding, v.2 + padding) = fin x) ↔
      ∃ L, Walk (Usable (W + 2 * padding) (H + 2 * padding) occ) (goal.1 + padding, goal.2 + padding)
        (v.1 + padding, v.2 + padding) L) := by
  obtain ⟨_, h2, h3⟩ := dt_exact hs
  refine ⟨fun L hL => ?_, fun ⟨x, hx⟩ => ⟨x, h2 _ _ hx⟩, fun ⟨L, hL⟩ => ?_⟩
  · obtain ⟨x, hx, hxL⟩ := h3 _ _ hL
    exact ⟨x, hxL, h2 _ _ hx, (holoCompute_fin padding c res v).1 x hx⟩
  · obtain ⟨x, hx, _⟩ := h3 _ _ hL
    exact ⟨x, hx⟩

/-- With padding 1 the border cells of the array are reached only as ends: a walk of one step from the goal (0,0) to
(1,0) of a 2 x 1 map. -/
example : ∃ fuel c, holoSetMap 2 1 1 (fun _ => false) (0, 0) fuel = some c ∧
    ∃ x, x ≤ 1 ∧ holoCompute 1 (some c) 1 (1, 0) = some (x * 1) := by
  obtain ⟨fuel, c, hs⟩ := holo_terminates 2 1 1 (fun _ => false) (0, 0)
  refine ⟨fuel, c, hs, ?_⟩
  have hw : Walk (Usable (2 + 2 * 1) (1 + 2 * 1) (fun _ => false)) (((0 : Int), (0 : Int)).1 + ((1 : Nat) : Int), ((0 : Int), (0 : Int)).2 + ((1 : Nat) : Int))
      (((1 : Int), (0 : Int)).1 + ((1 : Nat) : Int), ((1 : Int), (0 : Int)).2 + ((1 : Nat) : Int)) (0 + stepLen (1, 1) (2, 1)) := by
    refine Walk.snoc (u := (1, 1)) ?_ (by unfold Touch; decide) ⟨by unfold Interior; decide, rfl⟩
    exact Walk.nil
  obtain ⟨x, hx, _, h⟩ := (holo_exact_padded hs 1 (1, 0)).1 _ hw
  exact ⟨x, by simpa [stepLen] using hx, h⟩

end DT

/-! ### C57: how far apart the cells tested on a line are -/

section
variable {K : Type} [Field K] [LinearOrder K] [IsStrictOrderedRing K] [FloorRing K]

/-- **C57 (skips).**  The number of cells left out between two tests is the largest number of cells that fit in half a
metre; defined for resolutions of at least a nanometre. -/
theorem dynSkips_spec (m : GridMap K) (hr : 0 < m.res) :
    (∀ k, dynSkips m = .ok k → 0 ≤ k ∧ (k : K) * m.res ≤ 1 / 2 ∧ 1 / 2 < (k + 1) * m.res) ∧
    (1 / 2 < 2147483648 * m.res → ∃ k, dynSkips m = .ok k) := by
  have hq : (0 : K) ≤ 1 / 2 / m.res := by positivity
  have ht : truncC ((1 / 2 : K) / m.res) = ⌊(1 / 2 : K) / m.res⌋ := by
    unfold truncC; rw [if_pos hq]
  unfold dynSkips castI
  rw [ht]
  refine ⟨fun k hk => ?_, fun h => ?_⟩
  · split_ifs at hk with hc
    have hk' : ⌊(1 / 2 : K) / m.res⌋ = k := by cases hk; rfl
    subst hk'
    refine ⟨Int.floor_nonneg.2 hq, ?_, ?_⟩
    · have := Int.floor_le ((1 / 2 : K) / m.res)
      rwa [le_div_iff₀ hr] at this
    · have := Int.lt_floor_add_one ((1 / 2 : K) / m.res)
      rwa [div_lt_iff₀ hr] at this
  · have h1 : ⌊(1 / 2 : K) / m.res⌋ < 2147483648 := by
      rw [Int.floor_lt]
      push_cast
      rw [div_lt_iff₀ hr]; exact h
    have h0 := Int.floor_nonneg.2 hq
    exact ⟨_, if_pos ⟨by omega, h1⟩⟩

/-- **C57 (thick obstacles are seen).**  If `skips + 1` consecutive cells of the line (more than half a metre along the
longer axis, for the skips computed by `dynSkips`) are blocked, the line is not reported free. -/
theorem dynLine_thick_obstacle (b : Bres K) (m : GridMap K) (wf : m.WellFormed) (skips : Nat)
    (sx sy ex ey : K) (hs : m.isInMap (⌊sx⌋ + 32) (⌊sy⌋ + 32) = true)
    (he : m.isInMap (⌊ex⌋ + 32) (⌊ey⌋ + 32) = true) (fuel : Nat)
    (hf : lineLength ⌊sx⌋ ⌊sy⌋ ⌊ex⌋ ⌊ey⌋ < fuel) (l : Nat) (hl : l + (skips + 1) ≤ lineLength ⌊sx⌋ ⌊sy⌋ ⌊ex⌋ ⌊ey⌋)
    (hblocked : ∀ i, l < i → i ≤ l + (skips + 1) →
      ptFree m (lineCell m ⌊sx⌋ ⌊sy⌋ ⌊ex⌋ ⌊ey⌋ i).1 (lineCell m ⌊sx⌋ ⌊sy⌋ ⌊ex⌋ ⌊ey⌋ i).2 = .ok false) :
    dynLineFree fuel skips b m sx sy ex ey = .ok (some false) := by
  obtain ⟨⟨r, hr, hiff⟩, -, -⟩ := dynLine_iff_partial b m wf skips sx sy ex ey hs he fuel hf
  rw [hr]
  cases r with
  | false => rfl
  | true =>
    exfalso
    obtain ⟨h1, -⟩ := hiff.1 rfl
    obtain ⟨j, hj1, hj2, hj3⟩ : ∃ j, l ≤ j ∧ j < l + (skips + 1) ∧ j % (skips + 1) = 0 := by
      have hm : (l + skips) % (skips + 1) < skips + 1 := Nat.mod_lt _ (by omega)
      have hd := Nat.div_add_mod (l + skips) (skips + 1)
      refine ⟨(skips + 1) * ((l + skips) / (skips + 1)), by omega, by omega, Nat.mul_mod_right _ _⟩
    have hz := h1 (lineCell m ⌊sx⌋ ⌊sy⌋ ⌊ex⌋ ⌊ey⌋ (j + 1)) ⟨j + 1, by omega, by omega, by simpa using hj3, rfl⟩
    rw [hblocked (j + 1) (by omega) (by omega)] at hz
    simp at hz

example : dynSkips (GridMap.mk' 10 10 (5 / 100 : ℚ)) = .ok 10 := by decide +kernel

end

end PathPlanning

/-! ### C28: the deliberately overestimating heuristic -/

namespace PathPlanning

/-- **C28.**  `HeuristicL2OverEstimate` between two cells of one row or column that are `k` cells apart is `res * k^1.2`:
exact for `k ≤ 1`, more than the cost of walking straight for `k ≥ 2` (so searches with it are not optimal). -/
theorem hL2Over_straight {w h : Nat} (res : ℝ) (hr : 0 < res) (n g : GNode w h) (k : Nat)
    (hk : (n.2 = g.2 ∧ |dX n g| = k) ∨ (n.1 = g.1 ∧ |dY n g| = k)) :
    hL2Over res (fun d => d ^ (1.2 : ℝ)) n g = res * (k : ℝ) ^ (1.2 : ℝ) ∧
      (k ≤ 1 → hL2Over res (fun d => d ^ (1.2 : ℝ)) n g = res * k) ∧
      (2 ≤ k → res * k < hL2Over res (fun d => d ^ (1.2 : ℝ)) n g) := by
  have e : Real.sqrt (dX n g ^ 2 + dY n g ^ 2) = k := by
    rcases hk with ⟨h1, h2⟩ | ⟨h1, h2⟩
    · have : dY n g = 0 := by simp [dY, h1]
      rw [this, ← h2, show dX n g ^ 2 + (0 : ℝ) ^ 2 = dX n g ^ 2 by ring, Real.sqrt_sq_eq_abs]
    · have : dX n g = 0 := by simp [dX, h1]
      rw [this, ← h2, show (0 : ℝ) ^ 2 + dY n g ^ 2 = dY n g ^ 2 by ring, Real.sqrt_sq_eq_abs]
  have e2 : hL2Over res (fun d => d ^ (1.2 : ℝ)) n g = res * (k : ℝ) ^ (1.2 : ℝ) := by
    simp only [hL2Over, e]
  refine ⟨e2, ?_, ?_⟩
  · intro h1
    rw [e2]
    interval_cases k
    · simp [Real.zero_rpow (by norm_num : (1.2 : ℝ) ≠ 0)]
    · simp
  · intro h1
    rw [e2]
    have h2 : (1 : ℝ) < k := by exact_mod_cast h1
    have := Real.rpow_lt_rpow_of_exponent_lt h2 (show (1 : ℝ) < 1.2 by norm_num)
    rw [Real.rpow_one] at this
    exact mul_lt_mul_of_pos_left this hr

/-- **C28.**  The distance used by the goal test of grid searches is the Euclidean distance of the cells. -/
theorem gridHypot_spec {w h : Nat} (n g : GNode w h) :
    0 ≤ gridHypot n g ∧ gridHypot n g ^ 2 = dX n g ^ 2 + dY n g ^ 2 ∧ (gridHypot n g = 0 ↔ n = g) := by
  have h0 : 0 ≤ gridHypot n g := Real.sqrt_nonneg _
  have h1 : gridHypot n g ^ 2 = dX n g ^ 2 + dY n g ^ 2 := by
    unfold gridHypot
    rw [Real.sq_sqrt (by positivity)]
    unfold dX dY
    ring
  refine ⟨h0, h1, ?_⟩
  constructor
  · intro h
    rw [h] at h1
    have hx : dX n g = 0 := by nlinarith [sq_nonneg (dX n g), sq_nonneg (dY n g)]
    have hy : dY n g = 0 := by nlinarith [sq_nonneg (dX n g), sq_nonneg (dY n g)]
    unfold dX at hx
    unfold dY at hy
    have hx' : ((n.1 : Nat) : ℝ) = ((g.1 : Nat) : ℝ) := by linarith
    have hy' : ((n.2 : Nat) : ℝ) = ((g.2 : Nat) : ℝ) := by linarith
    exact Prod.ext (Fin.ext (by exact_mod_cast hx')) (Fin.ext (by exact_mod_cast hy'))
  · rintro rfl
    have : gridHypot n n ^ 2 = 0 := by rw [h1]; simp [dX, dY]
    exact pow_eq_zero_iff (by norm_num) |>.1 this

example : |dX ((⟨5, by decide⟩, ⟨1, by decide⟩) : GNode 8 8) (⟨2, by decide⟩, ⟨1, by decide⟩)| = (3 : Nat) := by
  norm_num [dX]

end PathPlanning
