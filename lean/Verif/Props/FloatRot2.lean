import Verif.Props.FloatRot
import Verif.Props.FloatMap2

/-!
# C117: accuracy of the centres of rotated cells; the `float` overload
-/

namespace PathPlanning
open Spec

variable {F G : Fmt} {lib : Lib}

namespace RMap

/-- **C117 (centres).**  In arithmetic with unit roundoff `u`: with the origin set by `setOrigin`, the point given by `cell2point`
differs from the centre of the cell in each coordinate by at most `40u` times the distance of the cell from zero. -/
theorem cell2pointF_near (hu : F.u ≤ 1 / 64) (hl : LibOk lib F.u) (m : RMap) (o : P2) (hr : 0 < m.base.res) (k : UCell) :
    |((m.setOriginF F lib o).cell2pointF F lib k).x - (rotCentre o m.yaw m.base.res k.x k.y).x| ≤
      40 * F.u * (((k.x + 1) + (k.y + 1)) * m.base.res + norm1 o) ∧
    |((m.setOriginF F lib o).cell2pointF F lib k).y - (rotCentre o m.yaw m.base.res k.x k.y).y| ≤
      40 * F.u * (((k.x + 1) + (k.y + 1)) * m.base.res + norm1 o) := by
  have u0 := F.u_nonneg
  have hu16 : F.u ≤ 1 / 16 := hu.trans (by norm_num)
  obtain ⟨o1, o2⟩ := P2.rotateF_err hu hl o (-m.yaw)
  obtain ⟨n1, n2⟩ := abs_rot_le (-m.yaw) o.x o.y
  have n1' : |(o.rotate (-m.yaw)).x| ≤ norm1 o := n1
  have n2' : |(o.rotate (-m.yaw)).y| ≤ norm1 o := n2
  set X := (o.rotateF F lib (-m.yaw)).x with hX
  set Y := (o.rotateF F lib (-m.yaw)).y with hY
  have m1 := abs_le_of_near o1
  have m2 := abs_le_of_near o2
  have hn0 : 0 ≤ norm1 o := by unfold norm1; positivity
  have hun : F.u * norm1 o ≤ 1 / 64 * norm1 o := mul_le_mul_of_nonneg_right hu hn0
  obtain ⟨x1, x2⟩ := GridMap.centreF_err hu16 (o := X) hr k.x
  obtain ⟨y1, y2⟩ := GridMap.centreF_err hu16 (o := Y) hr k.y
  set A := GridMap.centreF F X m.base.res k.x with hA
  set B := GridMap.centreF F Y m.base.res k.y with hB
  obtain ⟨e1, e2⟩ := rotF_err hu (hl.cos m.yaw) (hl.sin m.yaw) A B
  set a := (o.rotate (-m.yaw)).x + ((k.x : ℝ) + 1 / 2) * m.base.res with ha
  set b := (o.rotate (-m.yaw)).y + ((k.y : ℝ) + 1 / 2) * m.base.res with hb
  obtain ⟨l1, l2⟩ := rotate_lip m.yaw A B a b
  have hsc := Real.sin_sq_add_cos_sq m.yaw
  have c1 : (rotCentre o m.yaw m.base.res k.x k.y).x = Real.cos m.yaw * a - Real.sin m.yaw * b := by
    simp only [ha, hb, rotCentre, P2.rotate, Real.cos_neg, Real.sin_neg]
    linear_combination -o.x * hsc
  have c2 : (rotCentre o m.yaw m.base.res k.x k.y).y = Real.sin m.yaw * a + Real.cos m.yaw * b := by
    simp only [ha, hb, rotCentre, P2.rotate, Real.cos_neg, Real.sin_neg]
    linear_combination -o.y * hsc
  have hx0 : (0 : ℝ) ≤ k.x := Nat.cast_nonneg _
  have hy0 : (0 : ℝ) ≤ k.y := Nat.cast_nonneg _
  have dX : |X| / m.base.res * m.base.res = |X| := div_mul_cancel₀ _ hr.ne'
  have dY : |Y| / m.base.res * m.base.res = |Y| := div_mul_cancel₀ _ hr.ne'
  set P := ((k.x : ℝ) + 1) * m.base.res with hP
  set Q := ((k.y : ℝ) + 1) * m.base.res with hQ
  have hP0 : 0 ≤ P := by rw [hP]; positivity
  have hQ0 : 0 ≤ Q := by rw [hQ]; positivity
  have x1' : |A - (X + ((k.x : ℝ) + 1 / 2) * m.base.res)| ≤ 5 * (F.u * P) + F.u * |X| := by
    refine x1.trans (le_of_eq ?_)
    rw [add_mul, mul_assoc F.u (|X| / m.base.res), dX, hP]; ring
  have y1' : |B - (Y + ((k.y : ℝ) + 1 / 2) * m.base.res)| ≤ 5 * (F.u * Q) + F.u * |Y| := by
    refine y1.trans (le_of_eq ?_)
    rw [add_mul, mul_assoc F.u (|Y| / m.base.res), dY, hQ]; ring
  have x2' : |A| ≤ 2 * P + 2 * |X| := by
    refine x2.trans (le_of_eq ?_)
    rw [mul_assoc, add_mul, dX, hP]; ring
  have y2' : |B| ≤ 2 * Q + 2 * |Y| := by
    refine y2.trans (le_of_eq ?_)
    rw [mul_assoc, add_mul, dY, hQ]; ring
  have hXn : |X| ≤ 11 / 10 * norm1 o := by linarith
  have hYn : |Y| ≤ 11 / 10 * norm1 o := by linarith
  have uX : F.u * |X| ≤ 11 / 10 * (F.u * norm1 o) := by
    have := mul_le_mul_of_nonneg_left hXn u0; linarith
  have uY : F.u * |Y| ≤ 11 / 10 * (F.u * norm1 o) := by
    have := mul_le_mul_of_nonneg_left hYn u0; linarith
  have dA : |A - a| ≤ 5 * (F.u * P) + 11 / 10 * (F.u * norm1 o) + 5 * (F.u * norm1 o) := by
    have h1 := abs_sub_le A (X + ((k.x : ℝ) + 1 / 2) * m.base.res) a
    have h2 : |X + ((k.x : ℝ) + 1 / 2) * m.base.res - a| ≤ 5 * F.u * norm1 o := by
      rw [ha, add_sub_add_right_eq_sub]; exact o1
    linarith
  have dB : |B - b| ≤ 5 * (F.u * Q) + 11 / 10 * (F.u * norm1 o) + 5 * (F.u * norm1 o) := by
    have h1 := abs_sub_le B (Y + ((k.y : ℝ) + 1 / 2) * m.base.res) b
    have h2 : |Y + ((k.y : ℝ) + 1 / 2) * m.base.res - b| ≤ 5 * F.u * norm1 o := by
      rw [hb, add_sub_add_right_eq_sub]; exact o2
    linarith
  have hAB : F.u * (|A| + |B|) ≤ F.u * (2 * P + 2 * Q + 44 / 10 * norm1 o) :=
    mul_le_mul_of_nonneg_left (by linarith) u0
  have hsum : 40 * F.u * (((k.x + 1) + (k.y + 1)) * m.base.res + norm1 o) = 40 * (F.u * P) + 40 * (F.u * Q) + 40 * (F.u * norm1 o) := by
    rw [hP, hQ]; ring
  have hAB' : F.u * (2 * P + 2 * Q + 44 / 10 * norm1 o) = 2 * (F.u * P) + 2 * (F.u * Q) + 44 / 10 * (F.u * norm1 o) := by ring
  have p0 : 0 ≤ F.u * P := mul_nonneg u0 hP0
  have q0 : 0 ≤ F.u * Q := mul_nonneg u0 hQ0
  have r0 : 0 ≤ F.u * norm1 o := mul_nonneg u0 hn0
  rw [c1, c2, hsum]
  have g1 : ((m.setOriginF F lib o).cell2pointF F lib k).x = rotXF F (lib.cos m.yaw) (lib.sin m.yaw) A B := rfl
  have g2 : ((m.setOriginF F lib o).cell2pointF F lib k).y = rotYF F (lib.cos m.yaw) (lib.sin m.yaw) A B := rfl
  rw [g1, g2]
  have f1 := abs_sub_le (rotXF F (lib.cos m.yaw) (lib.sin m.yaw) A B) (Real.cos m.yaw * A - Real.sin m.yaw * B)
    (Real.cos m.yaw * a - Real.sin m.yaw * b)
  have f2 := abs_sub_le (rotYF F (lib.cos m.yaw) (lib.sin m.yaw) A B) (Real.sin m.yaw * A + Real.cos m.yaw * B)
    (Real.sin m.yaw * a + Real.cos m.yaw * b)
  constructor <;> linarith

/-- **C117 (centres, `double`).**  With an origin at most `2^31` cells away from zero the computed centre is right up to a ten
thousandth of a cell. -/
theorem cell2pointF_near_double {r : ℝ → ℤ} (hrr : WholeRounding r) (hl : LibOk lib (doubleFmt r hrr).u) (m : RMap) (o : P2)
    (hr : 0 < m.base.res) (hw : m.base.width < 2 ^ 31) (hh : m.base.height < 2 ^ 31) (ho : norm1 o ≤ 2 ^ 31 * m.base.res)
    (k : UCell) (hx : k.x < m.base.width) (hy : k.y < m.base.height) :
    |((m.setOriginF (doubleFmt r hrr) lib o).cell2pointF (doubleFmt r hrr) lib k).x - (rotCentre o m.yaw m.base.res k.x k.y).x| ≤
      1 / 10 ^ 4 * m.base.res ∧
    |((m.setOriginF (doubleFmt r hrr) lib o).cell2pointF (doubleFmt r hrr) lib k).y - (rotCentre o m.yaw m.base.res k.x k.y).y| ≤
      1 / 10 ^ 4 * m.base.res := by
  have hu : (doubleFmt r hrr).u = (2 : ℝ)⁻¹ ^ 53 := rfl
  have hi1 : (k.x : ℝ) + 1 ≤ 2 ^ 31 := by exact_mod_cast (by omega : k.x + 1 ≤ 2 ^ 31)
  have hj1 : (k.y : ℝ) + 1 ≤ 2 ^ 31 := by exact_mod_cast (by omega : k.y + 1 ≤ 2 ^ 31)
  have key : 40 * (doubleFmt r hrr).u * ((((k.x : ℝ) + 1) + (k.y + 1)) * m.base.res + norm1 o) ≤ 1 / 10 ^ 4 * m.base.res := by
    rw [hu]
    have h1 : (((k.x : ℝ) + 1) + (k.y + 1)) * m.base.res ≤ (2 ^ 31 + 2 ^ 31) * m.base.res :=
      mul_le_mul_of_nonneg_right (by linarith) hr.le
    have h2 : (((k.x : ℝ) + 1) + (k.y + 1)) * m.base.res + norm1 o ≤ 2 ^ 33 * m.base.res := by nlinarith
    have h3 := mul_le_mul_of_nonneg_left h2 (by positivity : (0 : ℝ) ≤ 40 * (2 : ℝ)⁻¹ ^ 53)
    norm_num at h3 ⊢
    linarith
  obtain ⟨h1, h2⟩ := cell2pointF_near (F := doubleFmt r hrr) (by rw [hu]; norm_num) hl m o hr k
  exact ⟨h1.trans key, h2.trans key⟩

/-! ### The overload with `float` results -/

/-- `nx + origin` of the `float` overload. -/
theorem floatCentre_err (hu : F.u ≤ G.u / 8) (hv : G.u ≤ 1 / 64) {o res : ℝ} (hr : 0 < res) (x : Nat) :
    |G.fl (F.fl (G.fl (F.fl (res * F.fl ((x : ℝ) + 1 / 2))) + o)) - (o + (x + 1 / 2) * res)| ≤ 4 * G.u * ((x + 1) * res + |o|) ∧
    |G.fl (F.fl (G.fl (F.fl (res * F.fl ((x : ℝ) + 1 / 2))) + o))| ≤ 2 * ((x + 1) * res + |o|) := by
  have u0 := F.u_nonneg
  have v0 := G.u_nonneg
  have hx : (0 : ℝ) ≤ (x : ℝ) := Nat.cast_nonneg x
  have hh : (0 : ℝ) ≤ (x : ℝ) + 1 / 2 := by linarith
  have ho : 0 ≤ |o| := abs_nonneg o
  have hu' : F.u ≤ 1 / 512 := by linarith
  obtain ⟨a1, a2, a3⟩ := F.fl_bounds hh
  set a := F.fl ((x : ℝ) + 1 / 2) with ha
  obtain ⟨b1, b2, b3⟩ := F.fl_bounds (mul_nonneg hr.le a3)
  set b := F.fl (res * a) with hb
  obtain ⟨c1, c2, c3⟩ := G.fl_bounds b3
  set c := G.fl b with hc
  set R := res * ((x : ℝ) + 1 / 2) with hR
  have hR0 : 0 ≤ R := mul_nonneg hr.le hh
  have ra1 : (1 - F.u) * R ≤ res * a := by
    calc (1 - F.u) * R = res * ((1 - F.u) * ((x : ℝ) + 1 / 2)) := by rw [hR]; ring
      _ ≤ _ := mul_le_mul_of_nonneg_left a1 hr.le
  have ra2 : res * a ≤ (1 + F.u) * R := by
    calc res * a ≤ res * ((1 + F.u) * ((x : ℝ) + 1 / 2)) := mul_le_mul_of_nonneg_left a2 hr.le
      _ = _ := by rw [hR]; ring
  have huR : F.u * R ≤ G.u / 8 * R := mul_le_mul_of_nonneg_right hu hR0
  have huR0 : 0 ≤ F.u * R := mul_nonneg u0 hR0
  have hvR0 : 0 ≤ G.u * R := mul_nonneg v0 hR0
  have hvR : G.u * R ≤ 1 / 64 * R := mul_le_mul_of_nonneg_right hv hR0
  have huu : F.u * (F.u * R) ≤ 1 / 512 * (F.u * R) := mul_le_mul_of_nonneg_right hu' huR0
  have huu0 : 0 ≤ F.u * (F.u * R) := mul_nonneg u0 huR0
  have rb1 : R - 2 * (F.u * R) ≤ b := by
    have := (mul_le_mul_of_nonneg_left ra1 (by linarith : 0 ≤ 1 - F.u)).trans b1
    have e : (1 - F.u) * ((1 - F.u) * R) = R - 2 * (F.u * R) + F.u * (F.u * R) := by ring
    linarith
  have rb2 : b ≤ R + 3 * (F.u * R) := by
    have := b2.trans (mul_le_mul_of_nonneg_left ra2 (by linarith : 0 ≤ 1 + F.u))
    have e : (1 + F.u) * ((1 + F.u) * R) = R + 2 * (F.u * R) + F.u * (F.u * R) := by ring
    linarith
  have hb2 : |b - R| ≤ 3 / 8 * (G.u * R) := abs_le.2 ⟨by linarith, by linarith⟩
  have hb3 : b ≤ 101 / 100 * R := by linarith
  have hgb : G.u * b ≤ 101 / 100 * (G.u * R) := by
    have := mul_le_mul_of_nonneg_left hb3 v0; linarith
  have hcb : |c - b| ≤ 101 / 100 * (G.u * R) := by
    have := G.ok.err b
    rw [abs_of_nonneg b3] at this
    exact this.trans hgb
  have hcR : |c - R| ≤ 14 / 10 * (G.u * R) := by
    have := abs_sub_le c b R
    linarith
  have hco : |c + o - (R + o)| ≤ 14 / 10 * (G.u * R) := by rw [add_sub_add_right_eq_sub]; exact hcR
  have hRo : |R + o| ≤ R + |o| := by
    have := abs_add_le R o
    rwa [abs_of_nonneg hR0] at this
  have hco2 : |c + o| ≤ 103 / 100 * (R + |o|) := by
    have := abs_le_of_near hco
    linarith
  have d1 := F.ok.err (c + o)
  have uu : F.u * |c + o| ≤ 13 / 100 * (G.u * (R + |o|)) := by
    have h1 : F.u * |c + o| ≤ G.u / 8 * (103 / 100 * (R + |o|)) :=
      mul_le_mul hu hco2 (abs_nonneg _) (by positivity)
    have h2 : 0 ≤ G.u * (R + |o|) := by positivity
    linarith
  have hvo : 0 ≤ G.u * |o| := mul_nonneg v0 ho
  have hvo' : G.u * |o| ≤ 1 / 64 * |o| := mul_le_mul_of_nonneg_right hv ho
  have exp1 : G.u * (R + |o|) = G.u * R + G.u * |o| := by ring
  set f := F.fl (c + o) with hf
  have hfR : |f - (R + o)| ≤ 16 / 10 * (G.u * R) + 13 / 100 * (G.u * |o|) := by
    have := abs_sub_le f (c + o) (R + o)
    linarith
  have hf2 : |f| ≤ 11 / 10 * (R + |o|) := by
    have := abs_le_of_near hfR
    linarith
  have g1 := G.ok.err f
  have gf : G.u * |f| ≤ 11 / 10 * (G.u * R) + 11 / 10 * (G.u * |o|) := by
    have := mul_le_mul_of_nonneg_left hf2 v0
    linarith
  have hg : |G.fl f - (R + o)| ≤ 3 * (G.u * R) + 2 * (G.u * |o|) := by
    have := abs_sub_le (G.fl f) f (R + o)
    linarith
  have hRx : R ≤ (x + 1) * res := by
    rw [hR, mul_comm]; exact mul_le_mul_of_nonneg_right (by linarith) hr.le
  have hvRx : G.u * R ≤ G.u * ((x + 1) * res) := mul_le_mul_of_nonneg_left hRx v0
  have e4 : 4 * G.u * ((x + 1) * res + |o|) = 4 * (G.u * ((x + 1) * res)) + 4 * (G.u * |o|) := by ring
  constructor
  · rw [show o + ((x : ℝ) + 1 / 2) * res = R + o by rw [hR]; ring, e4]
    linarith
  · have := abs_le_of_near hg
    linarith

/-- **C117 (round trip through `float` coordinates).**  Unit roundoffs `u` of `double` and `v` of `float`, `u ≤ v / 8`: a cell
converted to a point with `float` coordinates and back is the same cell, if `60 v` times the distance of the map and the
cell from zero (in cells) is less than one. -/
theorem roundtrip_rot_two (hu : F.u ≤ G.u / 8) (hv : G.u ≤ 1 / 64) (hl : LibOk lib F.u) (m : RMap) (hr : 0 < m.base.res)
    (hw : m.base.width < 2 ^ 31) (hh : m.base.height < 2 ^ 31) (k : UCell) (hx : k.x < m.base.width) (hy : k.y < m.base.height)
    (he : 60 * G.u * extent m k < 1) : m.point2cellF F lib (m.cell2pointFloat F G lib k) = .ok (true, k) := by
  have u0 := F.u_nonneg
  have v0 := G.u_nonneg
  have hu64 : F.u ≤ 1 / 64 := by linarith
  obtain ⟨x1, x2⟩ := floatCentre_err hu hv (o := m.base.ox) hr k.x
  obtain ⟨y1, y2⟩ := floatCentre_err hu hv (o := m.base.oy) hr k.y
  set A := G.fl (F.fl (G.fl (F.fl (m.base.res * F.fl ((k.x : ℝ) + 1 / 2))) + m.base.ox)) with hA
  set B := G.fl (F.fl (G.fl (F.fl (m.base.res * F.fl ((k.y : ℝ) + 1 / 2))) + m.base.oy)) with hB
  have lc : ∀ {t s : ℝ}, |t - s| ≤ 2 * F.u → |s| ≤ 1 → |G.fl t - s| ≤ 2 * G.u := by
    intro t s h1 h2
    have h3 := G.ok.err t
    have h4 := abs_le_of_near h1
    have h5 : G.u * |t| ≤ G.u * (1 + 2 * F.u) := mul_le_mul_of_nonneg_left (by linarith) v0
    have h6 : G.u * F.u ≤ G.u * (1 / 64) := mul_le_mul_of_nonneg_left hu64 v0
    have h7 := abs_sub_le (G.fl t) t s
    nlinarith
  obtain ⟨b1, b2⟩ := there_back (F := F) (G := G) hu64 hv hl (lc (hl.cos m.yaw) (Real.abs_cos_le_one _))
    (lc (hl.sin m.yaw) (Real.abs_sin_le_one _)) A B
  have hE : extent m k * m.base.res = ((k.x + 1) * m.base.res + |m.base.ox|) + ((k.y + 1) * m.base.res + |m.base.oy|) := by
    unfold extent
    rw [add_mul, div_mul_cancel₀ _ hr.ne']; ring
  have hsum : |A| + |B| ≤ 2 * (extent m k * m.base.res) := by rw [hE]; linarith
  have hX : (0 : ℝ) ≤ k.x := Nat.cast_nonneg _
  have hY : (0 : ℝ) ≤ k.y := Nat.cast_nonneg _
  have hE0 : 0 ≤ extent m k := by unfold extent; positivity
  have hEr : 0 ≤ extent m k * m.base.res := mul_nonneg hE0 hr.le
  have hrot : (10 * G.u + 11 * F.u) * (|A| + |B|) ≤ 23 * (G.u * (extent m k * m.base.res)) := by
    have h1 : 10 * G.u + 11 * F.u ≤ 23 / 2 * G.u := by linarith
    have := mul_le_mul h1 hsum (by positivity) (by positivity)
    linarith
  have hpx : 0 ≤ (k.x + 1) * m.base.res + |m.base.ox| := by positivity
  have hpy : 0 ≤ (k.y + 1) * m.base.res + |m.base.oy| := by positivity
  have wx : 4 * G.u * ((k.x + 1) * m.base.res + |m.base.ox|) ≤ 4 * G.u * (extent m k * m.base.res) :=
    mul_le_mul_of_nonneg_left (by linarith) (by positivity)
  have wy : 4 * G.u * ((k.y + 1) * m.base.res + |m.base.oy|) ≤ 4 * G.u * (extent m k * m.base.res) :=
    mul_le_mul_of_nonneg_left (by linarith) (by positivity)
  have hod : 0 ≤ (|m.base.ox| + |m.base.oy|) / m.base.res := by positivity
  have kx : (k.x : ℝ) + 1 ≤ extent m k := by unfold extent; linarith
  have ky : (k.y : ℝ) + 1 ≤ extent m k := by unfold extent; linarith
  have kx' : F.u * ((k.x : ℝ) + 1) ≤ G.u / 8 * extent m k := mul_le_mul hu kx (by positivity) (by positivity)
  have ky' : F.u * ((k.y : ℝ) + 1) ≤ G.u / 8 * extent m k := mul_le_mul hu ky (by positivity) (by positivity)
  show m.point2cellF F lib ⟨rotXF G (G.fl (lib.cos m.yaw)) (G.fl (lib.sin m.yaw)) A B, rotYF G (G.fl (lib.cos m.yaw)) (G.fl (lib.sin m.yaw)) A B⟩ = _
  refine point2cellF_of_near hu64 m hr hw hh k hx hy (e := 27 * G.u * extent m k) ?_ ?_ ?_ ?_
  · refine (abs_sub_le _ A _).trans ((add_le_add (b1.trans hrot) x1).trans ?_)
    linarith
  · refine (abs_sub_le _ B _).trans ((add_le_add (b2.trans hrot) y1).trans ?_)
    linarith
  · have : 0 ≤ G.u * extent m k := mul_nonneg v0 hE0
    linarith
  · have : 0 ≤ G.u * extent m k := mul_nonneg v0 hE0
    linarith

/-- **C117 (round trip through `float` coordinates, proved part).**  The overload with `float` results keeps the cell on maps that
lie within 250 000 cells of zero. -/
theorem roundtrip_rot_float_partial {r : ℝ → ℤ} (hrr : WholeRounding r) (hl : LibOk lib (doubleFmt r hrr).u) (m : RMap)
    (hr : 0 < m.base.res) (hw : m.base.width < 2 ^ 31) (hh : m.base.height < 2 ^ 31) (k : UCell) (hx : k.x < m.base.width)
    (hy : k.y < m.base.height) (he : extent m k ≤ 2 ^ 18) :
    m.point2cellF (doubleFmt r hrr) lib (m.cell2pointFloat (doubleFmt r hrr) (floatFmt r hrr) lib k) = .ok (true, k) := by
  have hu : (doubleFmt r hrr).u = (2 : ℝ)⁻¹ ^ 53 := rfl
  have hv : (floatFmt r hrr).u = (2 : ℝ)⁻¹ ^ 24 := rfl
  refine roundtrip_rot_two (by rw [hu, hv]; norm_num) (by rw [hv]; norm_num) hl m hr hw hh k hx hy ?_
  rw [hv]
  have := mul_le_mul_of_nonneg_left he (by positivity : (0 : ℝ) ≤ 60 * (2 : ℝ)⁻¹ ^ 24)
  norm_num at this ⊢
  linarith

/-- **C117 (failure of the `float` overload).**  Cell width 1/16 m, origin 4194304 m, angle 0: the centre of cell 1 given as `float`
is converted back to cell 0. -/
theorem roundtrip_rot_float_fails {r : ℝ → ℤ} (hrr : WholeRounding r) (hc : lib.cos 0 = 1) (hs : lib.sin 0 = 0) (m : RMap)
    (hyaw : m.yaw = 0) (hres : m.base.res = 1 / 16) (hox : m.base.ox = 2 ^ 22) (hoy : m.base.oy = 2 ^ 22) :
    m.point2cellF (doubleFmt r hrr) lib (m.cell2pointFloat (doubleFmt r hrr) (floatFmt r hrr) lib ⟨1, 1⟩) ≠ .ok (true, ⟨1, 1⟩) := by
  set D := doubleFmt r hrr with hD
  set G := floatFmt r hrr with hG
  have g1 : G.fl 1 = 1 := by
    have := binary_int hrr (p := 24) (by norm_num) 1 (by norm_num)
    exact_mod_cast this
  have e1 : D.fl (((1 : ℕ) : ℝ) + 1 / 2) = 3 / 2 := by
    have := binary_exact hrr (p := 53) (by norm_num) (k := 3) (e := -1) (by norm_num) (by norm_num)
    have h2 : ((3 : ℤ) : ℝ) * 2 ^ (-1 : ℤ) = ((1 : ℕ) : ℝ) + 1 / 2 := by norm_num
    rw [h2] at this
    show binary r 53 _ = _
    rw [this]; norm_num
  have e2 : D.fl (1 / 16 * (3 / 2)) = 3 / 32 := by
    have := binary_exact hrr (p := 53) (by norm_num) (k := 3) (e := -5) (by norm_num) (by norm_num)
    have h2 : ((3 : ℤ) : ℝ) * 2 ^ (-5 : ℤ) = 1 / 16 * (3 / 2) := by norm_num
    rw [h2] at this
    show binary r 53 _ = _
    rw [this]; norm_num
  have e2' : G.fl (3 / 32) = 3 / 32 := by
    have := binary_exact hrr (p := 24) (by norm_num) (k := 3) (e := -5) (by norm_num) (by norm_num)
    have h2 : ((3 : ℤ) : ℝ) * 2 ^ (-5 : ℤ) = 3 / 32 := by norm_num
    rw [h2] at this
    exact this
  have e3 : D.fl (3 / 32 + 2 ^ 22) = 3 / 32 + 2 ^ 22 := by
    have := binary_exact hrr (p := 53) (by norm_num) (k := 2 ^ 27 + 3) (e := -5) (by norm_num) (by norm_num)
    have h2 : ((2 ^ 27 + 3 : ℤ) : ℝ) * 2 ^ (-5 : ℤ) = 3 / 32 + 2 ^ 22 := by norm_num
    rw [h2] at this
    exact this
  have e4 : G.fl (3 / 32 + 2 ^ 22) = 2 ^ 22 := by
    have := binary_down hrr (p := 24) (by norm_num) (k := 2 ^ 23) (e := -1) (x := 3 / 32 + 2 ^ 22) (by norm_num)
      (by norm_num) (by norm_num) (by norm_num)
    show binary r 24 _ = _
    rw [this]; norm_num
  have e5 : G.fl (2 ^ 22) = 2 ^ 22 := by rw [← e4]; exact G.ok.idem _
  have e6 : D.fl (2 ^ 22) = 2 ^ 22 := by
    have := binary_exact hrr (p := 53) (by norm_num) (k := 1) (e := 22) (by norm_num) (by norm_num)
    have h2 : ((1 : ℤ) : ℝ) * 2 ^ (22 : ℤ) = 2 ^ 22 := by norm_num
    rw [h2] at this
    exact this
  have hcell : m.cell2pointFloat D G lib ⟨1, 1⟩ = ⟨2 ^ 22, 2 ^ 22⟩ := by
    simp only [cell2pointFloat, rotXF, rotYF, hyaw, hc, hs, hres, hox, hoy, g1, G.fl_zero, e1, e2, e2', e3, e4, zero_mul, one_mul,
      sub_zero, zero_add, e5]
  rw [hcell]
  simp only [point2cellF, rotXF, rotYF, hyaw, neg_zero, hc, hs, hres, hox, hoy, D.fl_zero, e6, zero_mul, one_mul, sub_zero, zero_add,
    sub_self, zero_div, GridMap.castU_zero]
  intro h
  simp at h

/-- The hypotheses are met: 1000 x 800 cells of 5 cm, turned by one radian, origin (-12, 4) set by the caller; the centre of cell
(10, 20) is well inside it. -/
example : ∃ (m : RMap) (o : P2), 0 < m.base.res ∧ m.yaw = 1 ∧ m.base.width = 1000 ∧ m.base.height = 800 ∧ norm1 o ≤ 2 ^ 31 * m.base.res ∧
    norm1 m.getOrigin ≤ 2 ^ 45 * m.base.res ∧ extent m ⟨999, 799⟩ ≤ 2 ^ 18 ∧
    WellInsideRot o m.yaw m.base.res (1 / 10 ^ 5) 10 20 (rotCentre o m.yaw m.base.res 10 20) := by
  refine ⟨⟨(GridMap.mk' 1000 800 (5 / 100)).setOrigin (-12.3) 4.5, 1⟩, ⟨-12, 4⟩, by simp [GridMap.mk', GridMap.setOrigin], rfl, rfl, rfl, ?_, ?_, ?_, ?_⟩
  · norm_num [norm1, GridMap.mk', GridMap.setOrigin]
  · simp only [norm1, getOrigin, GridMap.mk', GridMap.setOrigin]
    rw [show |(-12.3 : ℝ)| = 12.3 by rw [abs_of_neg] <;> norm_num, show |(4.5 : ℝ)| = 4.5 by rw [abs_of_pos]; norm_num]
    norm_num
  · simp only [extent, GridMap.mk', GridMap.setOrigin]
    rw [show |(-12.3 : ℝ)| = 12.3 by rw [abs_of_neg] <;> norm_num, show |(4.5 : ℝ)| = 4.5 by rw [abs_of_pos]; norm_num]
    norm_num
  · refine ⟨(10 + 1 / 2) * (5 / 100), (20 + 1 / 2) * (5 / 100), ?_, ?_, ?_, ?_, ?_, ?_⟩ <;>
      norm_num [rotCentre, GridMap.mk', GridMap.setOrigin]

end RMap
end PathPlanning
