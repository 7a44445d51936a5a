import Verif.Model.FloatMap
import Verif.Props.GridMap
import Verif.Props.GridRound2

/-!
# C88: conversions between points and cells in floating point
-/

namespace PathPlanning
open Spec
namespace GridMap

variable {F G : Fmt}

/-- The coordinate `p` lies in cell number `x`, at least `ε` cells away from its two borders. -/
def _root_.PathPlanning.Spec.WellInside (o res ε : ℝ) (x : Nat) (p : ℝ) : Prop :=
  o + (x + ε) * res ≤ p ∧ p < o + (x + 1 - ε) * res

theorem coordF_cell (hu : F.u ≤ 1) {o res p : ℝ} (hr : 0 < res) {x : Nat}
    (h : WellInside o res (3 * F.u * (x + 1)) x p) : (x : ℝ) ≤ coordF F o res p ∧ coordF F o res p < x + 1 := by
  obtain ⟨h1, h2⟩ := h
  have u0 := F.u_nonneg
  have hx : (0 : ℝ) ≤ x := Nat.cast_nonneg x
  set q := (p - o) / res with hq
  have hq1 : x + 3 * F.u * (x + 1) ≤ q := by rw [hq, le_div_iff₀ hr]; linarith
  have hq2 : q < x + 1 - 3 * F.u * (x + 1) := by rw [hq, div_lt_iff₀ hr]; linarith
  have hε : 0 ≤ 3 * F.u * (x + 1) := by positivity
  have hq0 : 0 ≤ q := by linarith
  have hp0 : 0 ≤ p - o := by
    have : p - o = q * res := by rw [hq]; field_simp
    rw [this]; positivity
  obtain ⟨a1, a2, a3⟩ := F.fl_bounds hp0
  obtain ⟨b1, b2, b3⟩ := F.fl_bounds (div_nonneg a3 hr.le)
  have c1 : (1 - F.u) * q ≤ F.fl (p - o) / res := by
    rw [le_div_iff₀ hr, hq, mul_assoc, div_mul_cancel₀ _ hr.ne']; exact a1
  have c2 : F.fl (p - o) / res ≤ (1 + F.u) * q := by
    rw [div_le_iff₀ hr, hq, mul_assoc, div_mul_cancel₀ _ hr.ne']; exact a2
  have hqx : q ≤ x + 1 := by linarith
  have hsq : F.u * F.u ≤ F.u := by nlinarith
  constructor
  · have d1 : (1 - F.u) * ((1 - F.u) * q) ≤ coordF F o res p :=
      (mul_le_mul_of_nonneg_left c1 (by linarith)).trans b1
    have d2 : q - 2 * F.u * q ≤ (1 - F.u) * ((1 - F.u) * q) := by nlinarith [mul_nonneg (mul_nonneg u0 u0) hq0]
    have d3 : 2 * F.u * q ≤ 2 * F.u * (x + 1) := mul_le_mul_of_nonneg_left hqx (by linarith)
    have d4 : 2 * F.u * (x + 1) ≤ 3 * F.u * ((x : ℝ) + 1) := by nlinarith
    linarith
  · have d1 : coordF F o res p ≤ (1 + F.u) * ((1 + F.u) * q) :=
      b2.trans (mul_le_mul_of_nonneg_left c2 (by linarith))
    have d2 : (1 + F.u) * ((1 + F.u) * q) = q + 2 * F.u * q + F.u * F.u * q := by ring
    have d3 : F.u * F.u * q ≤ F.u * q := mul_le_mul_of_nonneg_right hsq hq0
    have d4 : 3 * F.u * q ≤ 3 * F.u * (x + 1) := mul_le_mul_of_nonneg_left hqx (by linarith)
    linarith

theorem point2cellF_of (m : GridMap ℝ) (hw : m.width < 2 ^ 31) (hh : m.height < 2 ^ 31) {x y : Nat}
    (hx : x < m.width) (hy : y < m.height) {px py : ℝ}
    (h1 : (x : ℝ) ≤ coordF F m.ox m.res px ∧ coordF F m.ox m.res px < x + 1)
    (h2 : (y : ℝ) ≤ coordF F m.oy m.res py ∧ coordF F m.oy m.res py < y + 1) :
    m.point2cellF F px py = .ok (true, ⟨x, y⟩) := by
  have e1 : castU (coordF F m.ox m.res px) = .ok x := by
    apply castU_floor h1.1 h1.2
    unfold u32; omega
  have e2 : castU (coordF F m.oy m.res py) = .ok y := by
    apply castU_floor h2.1 h2.2
    unfold u32; omega
  have : m.isInMap (toI32 x) (toI32 y) = true := by
    rw [isInMap_iff m hw hh, toI32_small (by omega), toI32_small (by omega)]; omega
  simp [point2cellF, e1, e2, this]

/-- **C88 (points).**  In arithmetic with rounding error `u`, for every origin and positive resolution: a point that keeps
a distance of `3u(x+1)` cells from the borders of the cell it lies in is converted to that cell. -/
theorem point2cellF_wellInside (hu : F.u ≤ 1) (m : GridMap ℝ) (hr : 0 < m.res) (hw : m.width < 2 ^ 31)
    (hh : m.height < 2 ^ 31) {x y : Nat} (hx : x < m.width) (hy : y < m.height) {px py : ℝ}
    (h1 : WellInside m.ox m.res (3 * F.u * (x + 1)) x px) (h2 : WellInside m.oy m.res (3 * F.u * (y + 1)) y py) :
    m.point2cellF F px py = .ok (true, ⟨x, y⟩) :=
  point2cellF_of m hw hh hx hy (coordF_cell hu hr h1) (coordF_cell hu hr h2)

theorem wellInside_mono {o res ε δ : ℝ} (hr : 0 ≤ res) (h : δ ≤ ε) {x : Nat} {p : ℝ} (hp : WellInside o res ε x p) :
    WellInside o res δ x p := by
  obtain ⟨h1, h2⟩ := hp
  have := mul_le_mul_of_nonneg_right h hr
  constructor <;> linarith

/-- **C88 (points, `double`).**  On every map, whatever its origin and resolution, every point at least one millionth of a
cell away from the borders of its cell is converted to the right cell. -/
theorem point2cellF_double {r : ℝ → ℤ} (hrr : WholeRounding r) (m : GridMap ℝ) (hr : 0 < m.res) (hw : m.width < 2 ^ 31)
    (hh : m.height < 2 ^ 31) {x y : Nat} (hx : x < m.width) (hy : y < m.height) {px py : ℝ}
    (h1 : WellInside m.ox m.res (1 / 10 ^ 6) x px) (h2 : WellInside m.oy m.res (1 / 10 ^ 6) y py) :
    m.point2cellF (doubleFmt r hrr) px py = .ok (true, ⟨x, y⟩) := by
  have hu : (doubleFmt r hrr).u = (2 : ℝ)⁻¹ ^ 53 := rfl
  have hb : ∀ z : Nat, z < 2 ^ 31 → 3 * (doubleFmt r hrr).u * ((z : ℝ) + 1) ≤ 1 / 10 ^ 6 := by
    intro z hz
    have : (z : ℝ) + 1 ≤ 2 ^ 31 := by exact_mod_cast hz
    rw [hu]
    calc _ ≤ 3 * (2 : ℝ)⁻¹ ^ 53 * 2 ^ 31 := mul_le_mul_of_nonneg_left this (by positivity)
      _ ≤ _ := by norm_num
  exact point2cellF_wellInside (doubleFmt r hrr).u_lt.le m hr hw hh hx hy
    (wellInside_mono hr.le (hb x (by omega)) h1) (wellInside_mono hr.le (hb y (by omega)) h2)

/-- The computed centre of a cell is the centre up to rounding. -/
theorem centreF_err (hu : F.u ≤ 1 / 16) {o res : ℝ} (hr : 0 < res) (x : Nat) :
    |centreF F o res x - (o + (x + 1 / 2) * res)| ≤ (5 * F.u * (x + 1) + F.u * (|o| / res)) * res ∧
    |centreF F o res x| ≤ 2 * ((x + 1) + |o| / res) * res := by
  have u0 := F.u_nonneg
  have hx : (0 : ℝ) ≤ (x : ℝ) := Nat.cast_nonneg x
  have hh : (0 : ℝ) ≤ (x : ℝ) + 1 / 2 := by linarith
  have ho : 0 ≤ |o| := abs_nonneg o
  have hor : |o| / res * res = |o| := div_mul_cancel₀ _ hr.ne'
  obtain ⟨a1, a2, a3⟩ := F.fl_bounds hh
  set a := F.fl ((x : ℝ) + 1 / 2) with ha
  obtain ⟨b1, b2, b3⟩ := F.fl_bounds (mul_nonneg hr.le a3)
  set b := F.fl (res * a) with hb
  set R := res * ((x : ℝ) + 1 / 2) with hR
  have hR0 : 0 ≤ R := mul_nonneg hr.le hh
  have ra1 : (1 - F.u) * R ≤ res * a := by
    calc (1 - F.u) * R = res * ((1 - F.u) * ((x : ℝ) + 1 / 2)) := by rw [hR]; ring
      _ ≤ _ := mul_le_mul_of_nonneg_left a1 hr.le
  have ra2 : res * a ≤ (1 + F.u) * R := by
    calc res * a ≤ res * ((1 + F.u) * ((x : ℝ) + 1 / 2)) := mul_le_mul_of_nonneg_left a2 hr.le
      _ = _ := by rw [hR]; ring
  have huR : 0 ≤ F.u * R := mul_nonneg u0 hR0
  have huu : F.u * F.u * R ≤ 1 / 16 * (F.u * R) := by
    rw [mul_assoc]; exact mul_le_mul_of_nonneg_right hu huR
  have huu0 : 0 ≤ F.u * F.u * R := by positivity
  have rb1 : R - 2 * (F.u * R) ≤ b := by
    have := (mul_le_mul_of_nonneg_left ra1 (by linarith : 0 ≤ 1 - F.u)).trans b1
    nlinarith
  have rb2 : b ≤ R + 3 * (F.u * R) := by
    have := b2.trans (mul_le_mul_of_nonneg_left ra2 (by linarith : 0 ≤ 1 + F.u))
    nlinarith
  have hc := F.ok.err (b + o)
  have habs : |b + o| ≤ R + 3 * (F.u * R) + |o| := by
    calc |b + o| ≤ |b| + |o| := abs_add_le _ _
      _ ≤ _ := by rw [abs_of_nonneg b3]; linarith
  have hc' : |F.fl (b + o) - (b + o)| ≤ F.u * R + 3 / 16 * (F.u * R) + F.u * |o| := by
    refine hc.trans ?_
    calc F.u * |b + o| ≤ F.u * (R + 3 * (F.u * R) + |o|) := mul_le_mul_of_nonneg_left habs u0
      _ = F.u * R + 3 * (F.u * F.u * R) + F.u * |o| := by ring
      _ ≤ _ := by linarith
  have hRx : R ≤ (x + 1) * res := by rw [hR]; nlinarith
  have huRx : F.u * R ≤ F.u * ((x + 1) * res) := mul_le_mul_of_nonneg_left hRx u0
  have hdef : centreF F o res x = F.fl (b + o) := rfl
  rw [hdef]
  have e1 : (5 * F.u * (x + 1) + F.u * (|o| / res)) * res = 5 * (F.u * ((x + 1) * res)) + F.u * |o| := by
    calc _ = 5 * (F.u * ((x + 1) * res)) + F.u * (|o| / res * res) := by ring
      _ = _ := by rw [hor]
  have e2 : 2 * ((x + 1) + |o| / res) * res = 2 * ((x + 1) * res) + 2 * |o| := by
    calc _ = 2 * ((x + 1) * res) + 2 * (|o| / res * res) := by ring
      _ = _ := by rw [hor]
  rw [e1, e2]
  have e3 : o + ((x : ℝ) + 1 / 2) * res = R + o := by rw [hR]; ring
  rw [e3]
  obtain ⟨k1, k2⟩ := abs_le.1 hc'
  have huo : F.u * |o| ≤ 1 / 16 * |o| := mul_le_mul_of_nonneg_right hu ho
  have huR' : F.u * R ≤ 1 / 16 * R := mul_le_mul_of_nonneg_right hu hR0
  have hou : 0 ≤ F.u * |o| := mul_nonneg u0 ho
  refine ⟨abs_le.2 ⟨by linarith, by linarith⟩, ?_⟩
  have h5 : |F.fl (b + o)| ≤ |F.fl (b + o) - (b + o)| + |b + o| := by
    have := abs_add_le (F.fl (b + o) - (b + o)) (b + o)
    simpa using this
  linarith

/-- A point near the centre of a cell is well inside it. -/
theorem wellInside_of_centre {o res ε e : ℝ} (hr : 0 < res) {x : Nat} {p : ℝ}
    (h : |p - (o + (x + 1 / 2) * res)| ≤ e * res) (hlt : e + ε < 1 / 2) : WellInside o res ε x p := by
  obtain ⟨h1, h2⟩ := abs_le.1 h
  have : (e + ε) * res < 1 / 2 * res := mul_lt_mul_of_pos_right hlt hr
  constructor <;> linarith

/-- **C88 (round trip).**  In arithmetic with rounding error `u`, a cell converted to a point and back is the same cell, as
long as the distances of the map origin and of the cell are not astronomical: `8u(x+1) + u·|origin|/resolution < 1/2`. -/
theorem point2cellF_cell2pointF (hu : F.u ≤ 1 / 16) (m : GridMap ℝ) (hr : 0 < m.res) (hw : m.width < 2 ^ 31)
    (hh : m.height < 2 ^ 31) (c : UCell) (hx : c.x < m.width) (hy : c.y < m.height)
    (h1 : 8 * F.u * (c.x + 1) + F.u * (|m.ox| / m.res) < 1 / 2)
    (h2 : 8 * F.u * (c.y + 1) + F.u * (|m.oy| / m.res) < 1 / 2) :
    m.point2cellF F (m.cell2pointF F c).1 (m.cell2pointF F c).2 = .ok (true, c) := by
  have hu1 : F.u ≤ 1 := hu.trans (by norm_num)
  have := point2cellF_wellInside hu1 m hr hw hh hx hy
    (wellInside_of_centre (ε := 3 * F.u * (c.x + 1)) hr (centreF_err hu hr c.x).1 (by linarith))
    (wellInside_of_centre (ε := 3 * F.u * (c.y + 1)) hr (centreF_err hu hr c.y).1 (by linarith))
  exact this

/-- **C88 (round trip, `double`).**  On every map whose origin is at most `2^50` cells away from zero (at 5 cm cells: five
hundred times the distance of the sun), `point2cell` of the point given by `cell2point` is the cell it was given for. -/
theorem roundtrip_double {r : ℝ → ℤ} (hrr : WholeRounding r) (m : GridMap ℝ) (hr : 0 < m.res) (hw : m.width < 2 ^ 31)
    (hh : m.height < 2 ^ 31) (hox : |m.ox| ≤ 2 ^ 50 * m.res) (hoy : |m.oy| ≤ 2 ^ 50 * m.res)
    (c : UCell) (hx : c.x < m.width) (hy : c.y < m.height) :
    m.point2cellF (doubleFmt r hrr) (m.cell2pointF (doubleFmt r hrr) c).1 (m.cell2pointF (doubleFmt r hrr) c).2 =
      .ok (true, c) := by
  have hu : (doubleFmt r hrr).u = (2 : ℝ)⁻¹ ^ 53 := rfl
  have hb : ∀ (z : Nat) (o : ℝ), z < 2 ^ 31 → |o| ≤ 2 ^ 50 * m.res →
      8 * (doubleFmt r hrr).u * ((z : ℝ) + 1) + (doubleFmt r hrr).u * (|o| / m.res) < 1 / 2 := by
    intro z o hz ho
    have h1 : (z : ℝ) + 1 ≤ 2 ^ 31 := by exact_mod_cast hz
    have h2 : |o| / m.res ≤ 2 ^ 50 := by rw [div_le_iff₀ hr]; exact ho
    rw [hu]
    calc _ ≤ 8 * (2 : ℝ)⁻¹ ^ 53 * 2 ^ 31 + (2 : ℝ)⁻¹ ^ 53 * 2 ^ 50 :=
          add_le_add (mul_le_mul_of_nonneg_left h1 (by positivity)) (mul_le_mul_of_nonneg_left h2 (by positivity))
      _ < _ := by norm_num
  exact point2cellF_cell2pointF (by rw [hu]; norm_num) m hr hw hh c hx hy (hb _ _ (by omega) hox) (hb _ _ (by omega) hoy)

/-- `float`: 24 binary digits. -/
noncomputable def _root_.PathPlanning.floatFmt (r : ℝ → ℤ) (hr : WholeRounding r) : Fmt where
  fl := binary r 24
  u := (2 : ℝ)⁻¹ ^ 24
  ok := binary_rounding hr (by norm_num)
  u_lt := by norm_num

/-- **C88 (round trip through `float` coordinates, proved part).**  The overload of `cell2point` with `float` results keeps
the cell for maps whose cells and origin are at most about a million cells away from zero. -/
theorem roundtrip_float_partial {r : ℝ → ℤ} (hrr : WholeRounding r) (m : GridMap ℝ) (hr : 0 < m.res)
    (hw : m.width < 2 ^ 31) (hh : m.height < 2 ^ 31) (c : UCell) (hx : c.x < m.width) (hy : c.y < m.height)
    (hox : (c.x + 1) + |m.ox| / m.res ≤ 2 ^ 21) (hoy : (c.y + 1) + |m.oy| / m.res ≤ 2 ^ 21) :
    m.point2cellF (doubleFmt r hrr) (m.cell2pointFloat (doubleFmt r hrr) (floatFmt r hrr) c).1
      (m.cell2pointFloat (doubleFmt r hrr) (floatFmt r hrr) c).2 = .ok (true, c) := by
  have hu : (doubleFmt r hrr).u = (2 : ℝ)⁻¹ ^ 53 := rfl
  have hv : (floatFmt r hrr).u = (2 : ℝ)⁻¹ ^ 24 := rfl
  have hu16 : (doubleFmt r hrr).u ≤ 1 / 16 := by rw [hu]; norm_num
  have key : ∀ (z : Nat) (o : ℝ), ((z : ℝ) + 1) + |o| / m.res ≤ 2 ^ 21 →
      WellInside o m.res (3 * (doubleFmt r hrr).u * (z + 1)) z
        ((floatFmt r hrr).fl (centreF (doubleFmt r hrr) o m.res z)) := by
    intro z o hz
    obtain ⟨e1, e2⟩ := centreF_err hu16 (o := o) hr z
    have ho : 0 ≤ |o| / m.res := div_nonneg (abs_nonneg _) hr.le
    have hz0 : (0 : ℝ) ≤ z := Nat.cast_nonneg z
    have e3 := (floatFmt r hrr).ok.err (centreF (doubleFmt r hrr) o m.res z)
    refine wellInside_of_centre (e := 5 * (doubleFmt r hrr).u * (z + 1) + (doubleFmt r hrr).u * (|o| / m.res) +
      (floatFmt r hrr).u * (2 * ((z + 1) + |o| / m.res))) hr ?_ ?_
    · rw [add_mul]
      calc _ = |((floatFmt r hrr).fl (centreF (doubleFmt r hrr) o m.res z) - centreF (doubleFmt r hrr) o m.res z) +
            (centreF (doubleFmt r hrr) o m.res z - (o + (z + 1 / 2) * m.res))| := by congr 1; ring
        _ ≤ _ := abs_add_le _ _
        _ ≤ (floatFmt r hrr).u * (2 * ((z + 1) + |o| / m.res) * m.res) +
            (5 * (doubleFmt r hrr).u * (z + 1) + (doubleFmt r hrr).u * (|o| / m.res)) * m.res :=
          add_le_add (e3.trans (mul_le_mul_of_nonneg_left e2 (floatFmt r hrr).u_nonneg)) e1
        _ = _ := by ring
    · rw [hu, hv]
      have k1 : (z : ℝ) + 1 ≤ 2 ^ 21 := by linarith
      have k2 : |o| / m.res ≤ 2 ^ 21 := by linarith
      calc _ ≤ 5 * (2 : ℝ)⁻¹ ^ 53 * 2 ^ 21 + (2 : ℝ)⁻¹ ^ 53 * 2 ^ 21 + (2 : ℝ)⁻¹ ^ 24 * (2 * 2 ^ 21) +
            3 * (2 : ℝ)⁻¹ ^ 53 * 2 ^ 21 :=
          add_le_add (add_le_add (add_le_add (mul_le_mul_of_nonneg_left k1 (by positivity))
            (mul_le_mul_of_nonneg_left k2 (by positivity)))
            (mul_le_mul_of_nonneg_left (mul_le_mul_of_nonneg_left hz (by norm_num)) (by positivity)))
            (mul_le_mul_of_nonneg_left k1 (by positivity))
        _ < _ := by norm_num
  exact point2cellF_wellInside (hu16.trans (by norm_num)) m hr hw hh hx hy (key _ _ hox) (key _ _ hoy)

end GridMap
end PathPlanning
