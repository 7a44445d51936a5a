import Verif.Model.FloatRot
import Verif.Spec.FloatRot
import Verif.Props.FloatMap

/-!
# C117: the rotated map in floating point
-/

namespace PathPlanning
open Spec

variable {F G : Fmt} {lib : Lib}

/-- Product of a rounded sine or cosine with a coordinate, rounded. -/
theorem fl_cmul (hu : F.u ≤ 1 / 64) {c c' a : ℝ} (hc : |c - c'| ≤ 2 * F.u) (h1 : |c'| ≤ 1) :
    |F.fl (c * a) - c' * a| ≤ 33 / 10 * (F.u * |a|) := by
  have u0 := F.u_nonneg
  have ha := abs_nonneg a
  have e1 := F.ok.err (c * a)
  have e2 : |c| ≤ 1 + 2 * F.u := by
    have := abs_sub_abs_le_abs_sub c c'
    linarith
  have e3 : |c * a - c' * a| ≤ 2 * F.u * |a| := by
    rw [← sub_mul, abs_mul]; exact mul_le_mul_of_nonneg_right hc ha
  have e4 : |c * a| ≤ (1 + 2 * F.u) * |a| := by rw [abs_mul]; exact mul_le_mul_of_nonneg_right e2 ha
  have e5 := abs_sub_le (F.fl (c * a)) (c * a) (c' * a)
  have e6 : F.u * |c * a| ≤ F.u * ((1 + 2 * F.u) * |a|) := mul_le_mul_of_nonneg_left e4 u0
  have hua : 0 ≤ F.u * |a| := mul_nonneg u0 ha
  have e7 : F.u * ((1 + 2 * F.u) * |a|) ≤ 34 / 32 * (F.u * |a|) := by nlinarith
  linarith

/-- The sum or difference of two such products. -/
theorem fl_two (hu : F.u ≤ 1 / 64) {p q A B a b : ℝ} (hp : |p - A| ≤ 33 / 10 * (F.u * |a|))
    (hq : |q - B| ≤ 33 / 10 * (F.u * |b|)) (hA : |A| ≤ |a|) (hB : |B| ≤ |b|) :
    |F.fl (p + q) - (A + B)| ≤ 5 * F.u * (|a| + |b|) := by
  have u0 := F.u_nonneg
  have ha := abs_nonneg a
  have hb := abs_nonneg b
  have hua : 0 ≤ F.u * |a| := mul_nonneg u0 ha
  have hub : 0 ≤ F.u * |b| := mul_nonneg u0 hb
  have e1 := F.ok.err (p + q)
  have e2 : |p + q - (A + B)| ≤ 33 / 10 * (F.u * |a|) + 33 / 10 * (F.u * |b|) := by
    rw [show p + q - (A + B) = (p - A) + (q - B) by ring]
    exact (abs_add_le _ _).trans (add_le_add hp hq)
  have e3 : |p + q| ≤ (|a| + |b|) * (11 / 10) := by
    have h1 := abs_sub_abs_le_abs_sub (p + q) (A + B)
    have h2 := abs_add_le A B
    have h3 : F.u * |a| ≤ 1 / 64 * |a| := mul_le_mul_of_nonneg_right hu ha
    have h4 : F.u * |b| ≤ 1 / 64 * |b| := mul_le_mul_of_nonneg_right hu hb
    linarith
  have e4 : F.u * |p + q| ≤ F.u * ((|a| + |b|) * (11 / 10)) := mul_le_mul_of_nonneg_left e3 u0
  have e5 := abs_sub_le (F.fl (p + q)) (p + q) (A + B)
  have e6 : F.u * ((|a| + |b|) * (11 / 10)) = 11 / 10 * (F.u * |a|) + 11 / 10 * (F.u * |b|) := by ring
  have e7 : 5 * F.u * (|a| + |b|) = 5 * (F.u * |a|) + 5 * (F.u * |b|) := by ring
  linarith

theorem abs_mul_le_of {c a : ℝ} (h : |c| ≤ 1) : |c * a| ≤ |a| := by
  rw [abs_mul]; exact mul_le_of_le_one_left (abs_nonneg a) h

/-- A rounded rotation is the rotation up to `5u` times the size of the point. -/
theorem rotF_err (hu : F.u ≤ 1 / 64) {c s t : ℝ} (hc : |c - Real.cos t| ≤ 2 * F.u) (hs : |s - Real.sin t| ≤ 2 * F.u) (a b : ℝ) :
    |rotXF F c s a b - (Real.cos t * a - Real.sin t * b)| ≤ 5 * F.u * (|a| + |b|) ∧
    |rotYF F c s a b - (Real.sin t * a + Real.cos t * b)| ≤ 5 * F.u * (|a| + |b|) := by
  have c1 := Real.abs_cos_le_one t
  have s1 := Real.abs_sin_le_one t
  constructor
  · have h := fl_cmul hu (a := b) hs s1
    rw [← abs_neg] at h
    have := fl_two hu (p := F.fl (c * a)) (q := -F.fl (s * b)) (A := Real.cos t * a) (B := -(Real.sin t * b)) (a := a) (b := b)
      (fl_cmul hu hc c1) (by rw [← abs_neg]; rw [show -(-F.fl (s * b) - -(Real.sin t * b)) = -(-(F.fl (s * b) - Real.sin t * b)) by ring, abs_neg]; exact h)
      (abs_mul_le_of c1) (by rw [abs_neg]; exact abs_mul_le_of s1)
    unfold rotXF
    rw [sub_eq_add_neg (F.fl (c * a)), sub_eq_add_neg (Real.cos t * a)]
    exact this
  · exact fl_two hu (fl_cmul hu hs s1) (fl_cmul hu hc c1) (abs_mul_le_of s1) (abs_mul_le_of c1)

/-- `Point2d::rotate` turns a point up to a rounding error. -/
theorem P2.rotateF_err (hu : F.u ≤ 1 / 64) (hl : LibOk lib F.u) (p : P2) (a : ℝ) :
    |(p.rotateF F lib a).x - (p.rotate a).x| ≤ 5 * F.u * norm1 p ∧
    |(p.rotateF F lib a).y - (p.rotate a).y| ≤ 5 * F.u * norm1 p :=
  rotF_err hu (hl.cos a) (hl.sin a) p.x p.y

namespace RMap

theorem point2cellF_eq (m : RMap) (p : P2) : m.point2cellF F lib p =
    m.base.point2cellF F (p.rotateF F lib (-m.yaw)).x (p.rotateF F lib (-m.yaw)).y := rfl

theorem wellInside_move {o o' r r' res ε δ : ℝ} {i : Nat} (h : WellInside o res ε i r)
    (hd : |r' - r| + |o' - o| ≤ (ε - δ) * res) : WellInside o' res δ i r' := by
  obtain ⟨h1, h2⟩ := h
  have a1 := abs_le.1 (le_refl (|r' - r|))
  have a2 := abs_le.1 (le_refl (|o' - o|))
  constructor <;> nlinarith

/-- Turning a point of a rotated cell back. -/
theorem rotate_back {o p : P2} {yaw a b : ℝ} (hx : p.x = o.x + a * Real.cos yaw - b * Real.sin yaw)
    (hy : p.y = o.y + a * Real.sin yaw + b * Real.cos yaw) :
    (p.rotate (-yaw)).x = (o.rotate (-yaw)).x + a ∧ (p.rotate (-yaw)).y = (o.rotate (-yaw)).y + b := by
  have hsc := Real.sin_sq_add_cos_sq yaw
  simp only [P2.rotate, Real.cos_neg, Real.sin_neg, hx, hy]
  constructor
  · linear_combination a * hsc
  · linear_combination b * hsc

/-- **C117 (points).**  In arithmetic with unit roundoff `u`: let the origin of a rotated map be set with `setOrigin`.  A point of
cell `(i,j)` that is `ε` cells away from the sides of the cell is converted to that cell, if the map is large enough for its
distance from zero: `5u(|p|+|o|)` and `3u` times the number of the cell are together at most `ε` cells. -/
theorem point2cellF_rot (hu : F.u ≤ 1 / 64) (hl : LibOk lib F.u) (m : RMap) (o : P2) (hr : 0 < m.base.res)
    (hw : m.base.width < 2 ^ 31) (hh : m.base.height < 2 ^ 31) {i j : Nat} (hi : i < m.base.width) (hj : j < m.base.height)
    {ε : ℝ} {p : P2} (hp : WellInsideRot o m.yaw m.base.res ε i j p)
    (hεi : 5 * F.u * (norm1 p + norm1 o) + 3 * F.u * (i + 1) * m.base.res ≤ ε * m.base.res)
    (hεj : 5 * F.u * (norm1 p + norm1 o) + 3 * F.u * (j + 1) * m.base.res ≤ ε * m.base.res) :
    (m.setOriginF F lib o).point2cellF F lib p = .ok (true, ⟨i, j⟩) := by
  obtain ⟨a, b, ha1, ha2, hb1, hb2, hx, hy⟩ := hp
  obtain ⟨rx, ry⟩ := rotate_back hx hy
  obtain ⟨px, py⟩ := P2.rotateF_err hu hl p (-m.yaw)
  obtain ⟨ox, oy⟩ := P2.rotateF_err hu hl o (-m.yaw)
  rw [point2cellF_eq]
  refine GridMap.point2cellF_wellInside (hu.trans (by norm_num)) (m.setOriginF F lib o).base hr hw hh hi hj ?_ ?_
  · refine wellInside_move (o := (o.rotate (-m.yaw)).x) (r := (p.rotate (-m.yaw)).x) (ε := ε) ?_ ?_
    · rw [rx]
      exact ⟨add_le_add_right ha1 _, add_lt_add_right ha2 _⟩
    · refine (add_le_add px ox).trans ?_
      show _ ≤ (ε - 3 * F.u * (i + 1)) * m.base.res
      linarith
  · refine wellInside_move (o := (o.rotate (-m.yaw)).y) (r := (p.rotate (-m.yaw)).y) (ε := ε) ?_ ?_
    · rw [ry]
      exact ⟨add_le_add_right hb1 _, add_lt_add_right hb2 _⟩
    · refine (add_le_add py oy).trans ?_
      show _ ≤ (ε - 3 * F.u * (j + 1)) * m.base.res
      linarith

/-- Points of a map are not farther away than its origin and its size. -/
theorem norm1_rot {o p : P2} {yaw a b : ℝ} (ha : 0 ≤ a) (hb : 0 ≤ b) (hx : p.x = o.x + a * Real.cos yaw - b * Real.sin yaw)
    (hy : p.y = o.y + a * Real.sin yaw + b * Real.cos yaw) : norm1 p ≤ norm1 o + 2 * (a + b) := by
  have key : ∀ {q t : ℝ}, |t| ≤ 1 → 0 ≤ q → |q * t| ≤ q := by
    intro q t ht hq
    rw [abs_mul, abs_of_nonneg hq]
    exact mul_le_of_le_one_right hq ht
  have c1 := Real.abs_cos_le_one yaw
  have s1 := Real.abs_sin_le_one yaw
  have h1 : |p.x| ≤ |o.x| + a + b := by
    rw [hx]
    exact (abs_sub _ _).trans (add_le_add ((abs_add_le _ _).trans (add_le_add_right (key c1 ha) _)) (key s1 hb))
  have h2 : |p.y| ≤ |o.y| + a + b := by
    rw [hy]
    exact (abs_add_le _ _).trans (add_le_add ((abs_add_le _ _).trans (add_le_add_right (key s1 ha) _)) (key c1 hb))
  unfold norm1
  linarith

/-- **C117 (points, `double`).**  For every rotated map, whatever its size, resolution and angle, with an origin at most `2^31` cells
away from zero (at 5 cm cells: a hundred thousand kilometres): every point at least a hundred thousandth of a cell away from
the sides of its cell is converted to the right cell. -/
theorem point2cellF_rot_double {r : ℝ → ℤ} (hrr : WholeRounding r) (hl : LibOk lib (doubleFmt r hrr).u) (m : RMap) (o : P2)
    (hr : 0 < m.base.res) (hw : m.base.width < 2 ^ 31) (hh : m.base.height < 2 ^ 31) (ho : norm1 o ≤ 2 ^ 31 * m.base.res)
    {i j : Nat} (hi : i < m.base.width) (hj : j < m.base.height) {p : P2}
    (hp : WellInsideRot o m.yaw m.base.res (1 / 10 ^ 5) i j p) :
    (m.setOriginF (doubleFmt r hrr) lib o).point2cellF (doubleFmt r hrr) lib p = .ok (true, ⟨i, j⟩) := by
  have hu : (doubleFmt r hrr).u = (2 : ℝ)⁻¹ ^ 53 := rfl
  have hi1 : (i : ℝ) + 1 ≤ 2 ^ 31 := by exact_mod_cast (by omega : i + 1 ≤ 2 ^ 31)
  have hj1 : (j : ℝ) + 1 ≤ 2 ^ 31 := by exact_mod_cast (by omega : j + 1 ≤ 2 ^ 31)
  have hi0 : (0 : ℝ) ≤ i := Nat.cast_nonneg i
  have hj0 : (0 : ℝ) ≤ j := Nat.cast_nonneg j
  have hn : norm1 p ≤ norm1 o + 2 * (2 ^ 32 * m.base.res) := by
    obtain ⟨a, b, ha1, ha2, hb1, hb2, hx, hy⟩ := hp
    have ha : 0 ≤ a := le_trans (by positivity) ha1
    have hb : 0 ≤ b := le_trans (by positivity) hb1
    have := norm1_rot ha hb hx hy
    have h1 : ((i : ℝ) + 1 - 1 / 10 ^ 5) * m.base.res ≤ 2 ^ 31 * m.base.res := mul_le_mul_of_nonneg_right (by linarith) hr.le
    have h2 : ((j : ℝ) + 1 - 1 / 10 ^ 5) * m.base.res ≤ 2 ^ 31 * m.base.res := mul_le_mul_of_nonneg_right (by linarith) hr.le
    linarith
  have key : ∀ z : ℝ, z ≤ 2 ^ 31 → 5 * (doubleFmt r hrr).u * (norm1 p + norm1 o) + 3 * (doubleFmt r hrr).u * z * m.base.res ≤
      1 / 10 ^ 5 * m.base.res := by
    intro z hz
    rw [hu]
    have h1 : norm1 p + norm1 o ≤ 2 ^ 34 * m.base.res := by linarith
    have h2 : z * m.base.res ≤ 2 ^ 31 * m.base.res := mul_le_mul_of_nonneg_right hz hr.le
    have h3 := mul_le_mul_of_nonneg_left h1 (by positivity : (0 : ℝ) ≤ 5 * (2 : ℝ)⁻¹ ^ 53)
    have h4 := mul_le_mul_of_nonneg_left h2 (by positivity : (0 : ℝ) ≤ 3 * (2 : ℝ)⁻¹ ^ 53)
    have h5 : norm1 p + norm1 o ≤ 3 * 2 ^ 32 * m.base.res := by linarith
    have h6 := mul_le_mul_of_nonneg_left h5 (by positivity : (0 : ℝ) ≤ 5 * (2 : ℝ)⁻¹ ^ 53)
    norm_num at h4 h6 ⊢
    linarith
  exact point2cellF_rot (by rw [hu]; norm_num) hl m o hr hw hh hi hj hp (key _ hi1) (key _ hj1)

/-! ### From cells to points and back -/

theorem abs_le_of_near {x y d : ℝ} (h : |x - y| ≤ d) : |x| ≤ |y| + d := by
  have := abs_sub_abs_le_abs_sub x y
  linarith

/-- A rotation moves two coordinates by at most the sum of their changes. -/
theorem rotate_lip (t a b a' b' : ℝ) :
    |(Real.cos t * a - Real.sin t * b) - (Real.cos t * a' - Real.sin t * b')| ≤ |a - a'| + |b - b'| ∧
    |(Real.sin t * a + Real.cos t * b) - (Real.sin t * a' + Real.cos t * b')| ≤ |a - a'| + |b - b'| := by
  have c1 := Real.abs_cos_le_one t
  have s1 := Real.abs_sin_le_one t
  constructor
  · rw [show (Real.cos t * a - Real.sin t * b) - (Real.cos t * a' - Real.sin t * b') =
      Real.cos t * (a - a') - Real.sin t * (b - b') by ring]
    exact (abs_sub _ _).trans (add_le_add (abs_mul_le_of c1) (abs_mul_le_of s1))
  · rw [show (Real.sin t * a + Real.cos t * b) - (Real.sin t * a' + Real.cos t * b') =
      Real.sin t * (a - a') + Real.cos t * (b - b') by ring]
    exact (abs_add_le _ _).trans (add_le_add (abs_mul_le_of s1) (abs_mul_le_of c1))

theorem abs_rot_le (t a b : ℝ) : |Real.cos t * a - Real.sin t * b| ≤ |a| + |b| ∧ |Real.sin t * a + Real.cos t * b| ≤ |a| + |b| := by
  have := rotate_lip t a b 0 0
  simpa using this

/-- Turned by `yaw` in one format and back in another. -/
theorem there_back (hu : F.u ≤ 1 / 64) (hv : G.u ≤ 1 / 64) (hl : LibOk lib F.u) {c s yaw : ℝ} (hc : |c - Real.cos yaw| ≤ 2 * G.u)
    (hs : |s - Real.sin yaw| ≤ 2 * G.u) (a b : ℝ) :
    |((⟨rotXF G c s a b, rotYF G c s a b⟩ : P2).rotateF F lib (-yaw)).x - a| ≤ (10 * G.u + 11 * F.u) * (|a| + |b|) ∧
    |((⟨rotXF G c s a b, rotYF G c s a b⟩ : P2).rotateF F lib (-yaw)).y - b| ≤ (10 * G.u + 11 * F.u) * (|a| + |b|) := by
  obtain ⟨e1, e2⟩ := rotF_err hv hc hs a b
  obtain ⟨r1, r2⟩ := abs_rot_le yaw a b
  set p : P2 := ⟨rotXF G c s a b, rotYF G c s a b⟩ with hp
  set q : P2 := ⟨Real.cos yaw * a - Real.sin yaw * b, Real.sin yaw * a + Real.cos yaw * b⟩ with hq
  obtain ⟨f1, f2⟩ := P2.rotateF_err hu hl p (-yaw)
  obtain ⟨l1, l2⟩ := rotate_lip (-yaw) p.x p.y q.x q.y
  have hsc := Real.sin_sq_add_cos_sq yaw
  have q1 : Real.cos (-yaw) * q.x - Real.sin (-yaw) * q.y = a := by
    rw [Real.cos_neg, Real.sin_neg]; simp only [hq]; linear_combination a * hsc
  have q2 : Real.sin (-yaw) * q.x + Real.cos (-yaw) * q.y = b := by
    rw [Real.cos_neg, Real.sin_neg]; simp only [hq]; linear_combination b * hsc
  rw [q1] at l1
  rw [q2] at l2
  have hab : 0 ≤ |a| + |b| := by positivity
  have u0 := F.u_nonneg
  have hn : norm1 p ≤ 22 / 10 * (|a| + |b|) := by
    have k1 := abs_le_of_near e1
    have k2 := abs_le_of_near e2
    have : G.u * (|a| + |b|) ≤ 1 / 64 * (|a| + |b|) := mul_le_mul_of_nonneg_right hv hab
    have m1 : |p.x| ≤ |a| + |b| + 5 * G.u * (|a| + |b|) := by
      show |rotXF G c s a b| ≤ _
      linarith
    have m2 : |p.y| ≤ |a| + |b| + 5 * G.u * (|a| + |b|) := by
      show |rotYF G c s a b| ≤ _
      linarith
    unfold norm1
    linarith
  have hn2 : 5 * F.u * norm1 p ≤ 11 * F.u * (|a| + |b|) := by
    have := mul_le_mul_of_nonneg_left hn (by positivity : (0 : ℝ) ≤ 5 * F.u)
    linarith
  have d1 : |p.x - q.x| + |p.y - q.y| ≤ 10 * G.u * (|a| + |b|) := by
    have := add_le_add e1 e2
    simp only [hp, hq]
    linarith
  have t1 := abs_sub_le (p.rotateF F lib (-yaw)).x (p.rotate (-yaw)).x a
  have t2 := abs_sub_le (p.rotateF F lib (-yaw)).y (p.rotate (-yaw)).y b
  have l1' : |(p.rotate (-yaw)).x - a| ≤ |p.x - q.x| + |p.y - q.y| := l1
  have l2' : |(p.rotate (-yaw)).y - b| ≤ |p.x - q.x| + |p.y - q.y| := l2
  constructor <;> linarith

theorem cell2pointF_eq (m : RMap) (k : UCell) : m.cell2pointF F lib k =
    ⟨rotXF F (lib.cos m.yaw) (lib.sin m.yaw) (GridMap.centreF F m.base.ox m.base.res k.x) (GridMap.centreF F m.base.oy m.base.res k.y),
     rotYF F (lib.cos m.yaw) (lib.sin m.yaw) (GridMap.centreF F m.base.ox m.base.res k.x) (GridMap.centreF F m.base.oy m.base.res k.y)⟩ := rfl

/-- From errors to cells: a point whose coordinates, turned back, are near the centre of cell `k`. -/
theorem point2cellF_of_near (hu : F.u ≤ 1 / 64) (m : RMap) (hr : 0 < m.base.res) (hw : m.base.width < 2 ^ 31)
    (hh : m.base.height < 2 ^ 31) (k : UCell) (hx : k.x < m.base.width) (hy : k.y < m.base.height) {p : P2} {e : ℝ}
    (h1 : |(p.rotateF F lib (-m.yaw)).x - (m.base.ox + (k.x + 1 / 2) * m.base.res)| ≤ e * m.base.res)
    (h2 : |(p.rotateF F lib (-m.yaw)).y - (m.base.oy + (k.y + 1 / 2) * m.base.res)| ≤ e * m.base.res)
    (hex : e + 3 * F.u * (k.x + 1) < 1 / 2) (hey : e + 3 * F.u * (k.y + 1) < 1 / 2) :
    m.point2cellF F lib p = .ok (true, k) := by
  rw [point2cellF_eq]
  exact GridMap.point2cellF_wellInside (hu.trans (by norm_num)) m.base hr hw hh hx hy (GridMap.wellInside_of_centre hr h1 hex)
    (GridMap.wellInside_of_centre hr h2 hey)

/-- Distance of a map and its farthest corner from zero, in cells: what the errors of the conversions are proportional to. -/
noncomputable def _root_.PathPlanning.Spec.extent (m : RMap) (k : UCell) : ℝ :=
  (k.x + 1) + (k.y + 1) + (|m.base.ox| + |m.base.oy|) / m.base.res

/-- **C117 (round trip).**  In arithmetic with unit roundoff `u`: a cell of a rotated map converted to a point and back is the same
cell, if `100 u` times the distance of the map and of the cell from zero (in cells) is less than one. -/
theorem roundtrip_rot (hu : F.u ≤ 1 / 64) (hl : LibOk lib F.u) (m : RMap) (hr : 0 < m.base.res) (hw : m.base.width < 2 ^ 31)
    (hh : m.base.height < 2 ^ 31) (k : UCell) (hx : k.x < m.base.width) (hy : k.y < m.base.height)
    (he : 100 * F.u * extent m k < 1) : m.point2cellF F lib (m.cell2pointF F lib k) = .ok (true, k) := by
  have u0 := F.u_nonneg
  have hu16 : F.u ≤ 1 / 16 := hu.trans (by norm_num)
  obtain ⟨x1, x2⟩ := GridMap.centreF_err hu16 (o := m.base.ox) hr k.x
  obtain ⟨y1, y2⟩ := GridMap.centreF_err hu16 (o := m.base.oy) hr k.y
  have hX : (0 : ℝ) ≤ k.x := Nat.cast_nonneg _
  have hY : (0 : ℝ) ≤ k.y := Nat.cast_nonneg _
  have hA : 0 ≤ |m.base.ox| / m.base.res := div_nonneg (abs_nonneg _) hr.le
  have hB : 0 ≤ |m.base.oy| / m.base.res := div_nonneg (abs_nonneg _) hr.le
  have hE : extent m k = (k.x + 1) + (k.y + 1) + (|m.base.ox| / m.base.res + |m.base.oy| / m.base.res) := by
    unfold extent; rw [add_div]
  obtain ⟨b1, b2⟩ := there_back (F := F) (G := F) hu hu hl (hl.cos m.yaw) (hl.sin m.yaw)
    (GridMap.centreF F m.base.ox m.base.res k.x) (GridMap.centreF F m.base.oy m.base.res k.y)
  have hsum : |GridMap.centreF F m.base.ox m.base.res k.x| + |GridMap.centreF F m.base.oy m.base.res k.y| ≤
      2 * extent m k * m.base.res := by
    rw [hE]; linarith
  have hEu : 0 ≤ F.u * (|m.base.ox| / m.base.res) := mul_nonneg u0 hA
  have hEv : 0 ≤ F.u * (|m.base.oy| / m.base.res) := mul_nonneg u0 hB
  have hXu : 0 ≤ F.u * k.x := mul_nonneg u0 hX
  have hYu : 0 ≤ F.u * k.y := mul_nonneg u0 hY
  have hrot : (10 * F.u + 11 * F.u) * (|GridMap.centreF F m.base.ox m.base.res k.x| + |GridMap.centreF F m.base.oy m.base.res k.y|) ≤
      42 * F.u * extent m k * m.base.res := by
    have := mul_le_mul_of_nonneg_left hsum (by positivity : (0 : ℝ) ≤ 10 * F.u + 11 * F.u)
    linarith
  have hEF : F.u * extent m k = F.u * k.x + F.u * k.y + 2 * F.u + (F.u * (|m.base.ox| / m.base.res) + F.u * (|m.base.oy| / m.base.res)) := by
    rw [hE]; ring
  rw [cell2pointF_eq]
  refine point2cellF_of_near hu m hr hw hh k hx hy (e := 47 * F.u * extent m k) ?_ ?_ ?_ ?_
  · refine (abs_sub_le _ (GridMap.centreF F m.base.ox m.base.res k.x) _).trans ((add_le_add (b1.trans hrot) x1).trans ?_)
    rw [← add_mul]
    refine mul_le_mul_of_nonneg_right ?_ hr.le
    linarith
  · refine (abs_sub_le _ (GridMap.centreF F m.base.oy m.base.res k.y) _).trans ((add_le_add (b2.trans hrot) y1).trans ?_)
    rw [← add_mul]
    refine mul_le_mul_of_nonneg_right ?_ hr.le
    linarith
  · linarith
  · linarith

/-- **C117 (round trip, `double`).**  On every rotated map with a stored origin at most `2^45` cells away from zero (at 5 cm cells: eleven times
the distance of the sun), `point2cell` of the point given by `cell2point` is the cell it was given for. -/
theorem roundtrip_rot_double {r : ℝ → ℤ} (hrr : WholeRounding r) (hl : LibOk lib (doubleFmt r hrr).u) (m : RMap)
    (hr : 0 < m.base.res) (hw : m.base.width < 2 ^ 31) (hh : m.base.height < 2 ^ 31) (ho : norm1 m.getOrigin ≤ 2 ^ 45 * m.base.res)
    (k : UCell) (hx : k.x < m.base.width) (hy : k.y < m.base.height) :
    m.point2cellF (doubleFmt r hrr) lib (m.cell2pointF (doubleFmt r hrr) lib k) = .ok (true, k) := by
  have hu : (doubleFmt r hrr).u = (2 : ℝ)⁻¹ ^ 53 := rfl
  have hi1 : (k.x : ℝ) + 1 ≤ 2 ^ 31 := by exact_mod_cast (by omega : k.x + 1 ≤ 2 ^ 31)
  have hj1 : (k.y : ℝ) + 1 ≤ 2 ^ 31 := by exact_mod_cast (by omega : k.y + 1 ≤ 2 ^ 31)
  have ho' : (|m.base.ox| + |m.base.oy|) / m.base.res ≤ 2 ^ 45 := by rw [div_le_iff₀ hr]; exact ho
  refine roundtrip_rot (by rw [hu]; norm_num) hl m hr hw hh k hx hy ?_
  have hE : extent m k ≤ 2 ^ 46 := by
    unfold extent
    norm_num at hi1 hj1 ho' ⊢
    linarith
  rw [hu]
  have := mul_le_mul_of_nonneg_left hE (by positivity : (0 : ℝ) ≤ 100 * (2 : ℝ)⁻¹ ^ 53)
  norm_num at this ⊢
  linarith

end RMap
end PathPlanning
