import Verif.Spec.Geom
import Verif.Props.GridMap
import Mathlib.Tactic.LinearCombination
import Mathlib.Tactic.FieldSimp
import Mathlib.Data.Rat.Floor

/-!
# C51: laws of the vector and coordinate helpers; C06, C07: rotated maps
-/

noncomputable section

namespace PathPlanning

open Spec

/-! ### C51 -/

theorem P2.length_eq (p : P2) : p.length = Real.sqrt (dotP p p) := by
  unfold P2.length dotP; congr 1; ring

/-- **C51.** Rotation preserves inner products, hence lengths and distances. -/
theorem rotate_dot (p q : P2) (a : ℝ) : dotP (p.rotate a) (q.rotate a) = dotP p q := by
  unfold dotP P2.rotate
  linear_combination (p.x * q.x + p.y * q.y) * Real.cos_sq_add_sin_sq a

theorem rotate_length (p : P2) (a : ℝ) : (p.rotate a).length = p.length := by
  rw [P2.length_eq, P2.length_eq, rotate_dot]

theorem rotate_eucl (p q : P2) (a : ℝ) : eucl (p.rotate a) (q.rotate a) = eucl p q := by
  unfold eucl dist2 P2.rotate
  congr 1
  linear_combination ((p.x - q.x) ^ 2 + (p.y - q.y) ^ 2) * Real.cos_sq_add_sin_sq a

/-- **C51.** Rotations compose additively; rotating by `0` and by `-a` after `a` do nothing. -/
theorem rotate_rotate (p : P2) (a b : ℝ) : (p.rotate a).rotate b = p.rotate (b + a) := by
  ext <;> simp only [P2.rotate, Real.cos_add, Real.sin_add] <;> ring

theorem rotate_zero (p : P2) : p.rotate 0 = p := by ext <;> simp [P2.rotate]

theorem rotate_neg_rotate (p : P2) (a : ℝ) : (p.rotate a).rotate (-a) = p := by
  rw [rotate_rotate, neg_add_cancel, rotate_zero]

/-- Rotation acts counter-clockwise: the angle of the polar point grows by the angle. -/
theorem rotate_fromPolar (r a b : ℝ) : (P2.fromPolar a r).rotate b = P2.fromPolar (b + a) r := by
  ext <;> simp only [P2.rotate, P2.fromPolar, Real.cos_add, Real.sin_add] <;> ring

/-- **C51.** `ortho` is orthogonal, of the same length, and four times `ortho` is the identity;
it is the clockwise quarter turn. -/
theorem ortho_spec (p : P2) : dotP p p.ortho = 0 ∧ p.ortho.length = p.length ∧
    p.ortho = p.rotate (-(Real.pi / 2)) ∧ p.ortho.ortho = -p := by
  refine ⟨by simp [dotP, P2.ortho]; ring, ?_, ?_, ?_⟩
  · rw [P2.length_eq, P2.length_eq]; congr 1; simp [dotP, P2.ortho]; ring
  · ext <;> simp [P2.ortho, P2.rotate]
  · ext <;> simp [P2.ortho]

theorem P2.length_pos {p : P2} (h : p ≠ ⟨0, 0⟩) : 0 < p.length := by
  unfold P2.length
  apply Real.sqrt_pos.2
  by_contra hn
  have hx : p.x ^ 2 = 0 := by nlinarith [sq_nonneg p.x, sq_nonneg p.y]
  have hy : p.y ^ 2 = 0 := by nlinarith [sq_nonneg p.x, sq_nonneg p.y]
  exact h (P2.ext (by simpa using hx) (by simpa using hy))

/-- **C51.** `resize` gives a vector of the wanted length in the same (negative size: opposite)
direction. -/
theorem resize_spec (p : P2) (hp : p ≠ ⟨0, 0⟩) (s : ℝ) :
    (p.resize s).length = |s| ∧ (p.resize s) = p.smul (s / p.length) ∧
    dotP p (p.resize s) = s * p.length := by
  have hl := P2.length_pos hp
  have hs : p.length ^ 2 = p.x ^ 2 + p.y ^ 2 :=
    Real.sq_sqrt (add_nonneg (sq_nonneg _) (sq_nonneg _))
  refine ⟨?_, rfl, ?_⟩
  · have : (p.resize s).length = Real.sqrt (s ^ 2) := by
      conv_lhs => unfold P2.length
      congr 1
      simp only [P2.resize]
      rw [mul_pow, mul_pow, ← add_mul, ← hs]
      field_simp
    rw [this, Real.sqrt_sq_eq_abs]
  · simp only [P2.resize, dotP]
    have : p.x * (p.x * (s / p.length)) + p.y * (p.y * (s / p.length)) =
        (p.x ^ 2 + p.y ^ 2) * (s / p.length) := by ring
    rw [this, ← hs]; field_simp

theorem normalize_length (p : P2) (hp : p ≠ ⟨0, 0⟩) : p.normalize.length = 1 := by
  rw [P2.normalize, (resize_spec p hp 1).1, abs_one]

/-- The zero vector is the boundary: there is no direction, and with exact numbers nothing of
the wanted length is returned. -/
theorem resize_zero_vec (s : ℝ) : ((⟨0, 0⟩ : P2).resize s).length = 0 := by
  simp [P2.resize, P2.length]

/-- **C51.** Polar coordinates are inverse to each other. -/
theorem fromPolar_angle_length (p : P2) : P2.fromPolar p.angle p.length = p := by
  have hn : ‖(⟨p.x, p.y⟩ : ℂ)‖ = p.length := by
    rw [Complex.norm_def, Complex.normSq_mk, P2.length]; congr 1; ring
  have h := Complex.norm_mul_cos_arg (⟨p.x, p.y⟩ : ℂ)
  have h' := Complex.norm_mul_sin_arg (⟨p.x, p.y⟩ : ℂ)
  rw [hn] at h h'
  ext
  · simp only [P2.fromPolar, P2.angle, atan2]; rw [mul_comm]; exact h
  · simp only [P2.fromPolar, P2.angle, atan2]; rw [mul_comm]; exact h'

theorem angle_range (p : P2) : -Real.pi < p.angle ∧ p.angle ≤ Real.pi :=
  Complex.arg_mem_Ioc _

theorem angle_fromPolar (a r : ℝ) (hr : 0 < r) (h1 : -Real.pi < a) (h2 : a ≤ Real.pi) :
    (P2.fromPolar a r).angle = a ∧ (P2.fromPolar a r).length = r := by
  constructor
  · have e : (⟨Real.cos a * r, Real.sin a * r⟩ : ℂ) =
        (r : ℂ) * (Complex.cos a + Complex.sin a * Complex.I) := by
      apply Complex.ext <;> simp [← Complex.ofReal_cos, ← Complex.ofReal_sin] <;> ring
    unfold P2.fromPolar P2.angle atan2
    rw [e]
    exact Complex.arg_mul_cos_add_sin_mul_I hr ⟨h1, h2⟩
  · unfold P2.fromPolar P2.length
    have : (Real.cos a * r) ^ 2 + (Real.sin a * r) ^ 2 = r ^ 2 := by
      linear_combination r ^ 2 * Real.cos_sq_add_sin_sq a
    rw [this, Real.sqrt_sq hr.le]

/-- **C51.** `Pose2d::distance_to` is the Euclidean distance of the positions (so symmetric, zero
exactly for equal positions, and satisfying the triangle inequality); orientation plays no
role. -/
theorem distTo_eq (p q : Pose) : p.distTo q = eucl p.pt q.pt := by
  unfold Pose.distTo eucl dist2 Pose.pt; simp only; congr 1; ring

theorem eucl_eq_dist (p q : P2) : eucl p q = dist (⟨p.x, p.y⟩ : ℂ) ⟨q.x, q.y⟩ := by
  rw [Complex.dist_eq_re_im]; rfl

theorem distTo_metric (p q r : Pose) : p.distTo q = q.distTo p ∧ 0 ≤ p.distTo q ∧
    (p.distTo q = 0 ↔ p.x = q.x ∧ p.y = q.y) ∧ p.distTo r ≤ p.distTo q + q.distTo r := by
  simp only [distTo_eq, eucl_eq_dist]
  refine ⟨dist_comm _ _, dist_nonneg, ?_, dist_triangle _ _ _⟩
  rw [dist_eq_zero, Complex.ext_iff]; simp [Pose.pt]

/-- Pose arithmetic acts on positions like vector arithmetic, but drops the orientation: the
result of `+`, `-`, `*`, `/` always has orientation 0 (so `p + (q - p) ≠ q` unless
`q.theta = 0`). -/
theorem pose_arith (p q : Pose) (f : ℝ) :
    (p.add q).pt = p.pt + q.pt ∧ (p.sub q).pt = p.pt - q.pt ∧ (p.smul f).pt = p.pt.smul f ∧
    (p.add q).theta = 0 ∧ (p.sub q).theta = 0 ∧ (p.smul f).theta = 0 ∧ (p.sdiv f).theta = 0 ∧
    (p.add (q.sub p) = q ↔ q.theta = 0) := by
  refine ⟨rfl, rfl, rfl, rfl, rfl, rfl, rfl, ?_⟩
  rw [Pose.ext_iff]
  simp [Pose.add, Pose.sub, eq_comm]

/-- **C51.** `pos2map` and `map2pos` are mutually inverse and keep the orientation. -/
theorem pos2map_map2pos (m : GridMap ℝ) (hr : m.res ≠ 0) (p : Pose) :
    pos2map m (map2pos m p) = p ∧ map2pos m (pos2map m p) = p := by
  constructor <;> ext <;> simp [pos2map, map2pos] <;> field_simp <;> ring

/-- `pos2map` agrees with the sub-pixel conversions of an unrotated map. -/
theorem map2pos_eq_subPixel (m : GridMap ℝ) (p : Pose) :
    ((map2pos m p).x, (map2pos m p).y) = m.cell2pointSubPixel p.x p.y := rfl

/-- `tmpmath::round` rounds to nearest, ties away from zero, as long as the result is an `int`. -/
theorem tmpRound_nearest {K : Type} [Field K] [LinearOrder K] [IsStrictOrderedRing K] [FloorRing K]
    (x : K) {n : Int} (h : tmpRound x = .ok n) : NearestAway x n := by
  unfold tmpRound at h
  generalize hd : (if 0 ≤ x then x + 1 / 2 else x - 1 / 2) = d at h
  unfold castI at h
  split at h
  · injection h with h
    unfold NearestAway
    subst hd
    split at h
    · rename_i _ h0
      have h1 : (0 : K) ≤ x + 1 / 2 := by linarith
      rw [truncC_nonneg h1, Int.floor_eq_iff] at h
      obtain ⟨ha, hb⟩ := h
      have hn : (0 : K) ≤ n := by
        have : (-1 : K) < n := by linarith
        have : (-1 : Int) < n := by exact_mod_cast this
        have : (0 : Int) ≤ n := by omega
        exact_mod_cast this
      refine ⟨abs_le.2 ⟨by linarith, by linarith⟩, fun he => ?_⟩
      rw [abs_of_nonneg h0, abs_of_nonneg hn]
      rcases abs_cases (x - n) with ⟨e, _⟩ | ⟨e, _⟩ <;> linarith
    · rename_i _ h0
      have h0 : x < 0 := not_le.1 h0
      have h1 : ¬ (0 : K) ≤ x - 1 / 2 := by linarith
      rw [truncC, if_neg h1, Int.ceil_eq_iff] at h
      obtain ⟨ha, hb⟩ := h
      have hn : (n : K) ≤ 0 := by
        have : (n : K) < 1 := by linarith
        have : n < (1 : Int) := by exact_mod_cast this
        have : n ≤ (0 : Int) := by omega
        exact_mod_cast this
      refine ⟨abs_le.2 ⟨by linarith, by linarith⟩, fun he => ?_⟩
      rw [abs_of_neg h0, abs_of_nonpos hn]
      rcases abs_cases (x - n) with ⟨e, _⟩ | ⟨e, _⟩ <;> linarith
  · cases h

/-- ... and it is defined for every value of magnitude at most `2^31 - 1`. -/
theorem tmpRound_defined {K : Type} [Field K] [LinearOrder K] [IsStrictOrderedRing K] [FloorRing K]
    (x : K) (h : |x| ≤ 2147483647) : ∃ n, tmpRound x = .ok n := by
  obtain ⟨h1, h2⟩ := abs_le.1 h
  unfold tmpRound castI
  rw [if_pos]
  · exact ⟨_, rfl⟩
  · split
    · rename_i h0
      rw [truncC_nonneg (by linarith)]
      constructor
      · rw [Int.le_floor]; push_cast; linarith
      · rw [Int.floor_lt]; push_cast; linarith
    · rename_i h0
      rw [truncC, if_neg (by linarith)]
      constructor
      · rw [← Int.sub_one_lt_iff, Int.lt_ceil]; push_cast; linarith
      · have : ⌈x - 1 / 2⌉ ≤ 0 := by rw [Int.ceil_le]; push_cast; linarith
        omega

example : tmpRound (5 / 2 : ℚ) = .ok 3 ∧ tmpRound (-5 / 2 : ℚ) = .ok (-3) ∧
    tmpRound (12 / 5 : ℚ) = .ok 2 := by decide +kernel

/-! ### C06: rotated map -/

namespace RMap

variable (m : RMap)

/-- Every point of the (rotated) square of a cell is mapped to that cell: the corner of the map is
the point given to `setOrigin`. -/
theorem point2cell_of_inRotCell (o : P2) (hr : 0 < m.base.res) (hw : m.base.width < 2 ^ 31)
    (hh : m.base.height < 2 ^ 31) (i j : Nat) (hi : i < m.base.width) (hj : j < m.base.height)
    (p : P2) (hp : InRotCell o m.yaw m.base.res i j p) :
    (m.setOrigin o).point2cell p = .ok (true, ⟨i, j⟩) := by
  obtain ⟨a, b, h1, h2, h3, h4, hx, hy⟩ := hp
  have hcs := Real.cos_sq_add_sin_sq m.yaw
  have ex : Real.cos m.yaw * p.x - -Real.sin m.yaw * p.y -
      (Real.cos m.yaw * o.x - -Real.sin m.yaw * o.y) = a := by
    rw [hx, hy]; linear_combination a * hcs
  have ey : -Real.sin m.yaw * p.x + Real.cos m.yaw * p.y -
      (-Real.sin m.yaw * o.x + Real.cos m.yaw * o.y) = b := by
    rw [hx, hy]; linear_combination b * hcs
  have e1 : castU (a / m.base.res) = .ok i := by
    apply castU_floor
    · rw [le_div_iff₀ hr]; exact h1
    · rw [div_lt_iff₀ hr]; exact h2
    · unfold u32; omega
  have e2 : castU (b / m.base.res) = .ok j := by
    apply castU_floor
    · rw [le_div_iff₀ hr]; exact h3
    · rw [div_lt_iff₀ hr]; exact h4
    · unfold u32; omega
  have hin : m.base.isInMap (toI32 i) (toI32 j) = true := by
    rw [GridMap.isInMap_iff _ hw hh, toI32_small (by omega), toI32_small (by omega)]; omega
  have hin' : ((m.base.setOrigin (P2.rotate o (-m.yaw)).x (P2.rotate o (-m.yaw)).y)).isInMap
      (toI32 i) (toI32 j) = true := hin
  unfold point2cell setOrigin
  simp only [GridMap.setOrigin, P2.rotate, Real.cos_neg, Real.sin_neg] at hin' ⊢
  rw [ex, ey, e1, e2]
  simpa using hin'

/-- `cell2point` gives the centre of the rotated square. -/
theorem cell2point_centre (o : P2) (c : UCell) :
    let p := (m.setOrigin o).cell2point c
    p.x = o.x + m.base.res * (c.x + 1 / 2) * Real.cos m.yaw
        - m.base.res * (c.y + 1 / 2) * Real.sin m.yaw ∧
    p.y = o.y + m.base.res * (c.x + 1 / 2) * Real.sin m.yaw
        + m.base.res * (c.y + 1 / 2) * Real.cos m.yaw := by
  have hcs := Real.cos_sq_add_sin_sq m.yaw
  simp only [cell2point, setOrigin, GridMap.setOrigin, P2.rotate, Real.cos_neg, Real.sin_neg]
  constructor
  · linear_combination o.x * hcs
  · linear_combination o.y * hcs

/-- **C06.** Round trip cell -> point -> cell for every in-map cell, every rotation, every origin
set by `setOrigin`, every positive resolution. -/
theorem roundtrip (o : P2) (hr : 0 < m.base.res) (hw : m.base.width < 2 ^ 31)
    (hh : m.base.height < 2 ^ 31) (c : UCell) (hx : c.x < m.base.width) (hy : c.y < m.base.height) :
    (m.setOrigin o).point2cell ((m.setOrigin o).cell2point c) = .ok (true, c) := by
  apply point2cell_of_inRotCell m o hr hw hh c.x c.y hx hy
  obtain ⟨h1, h2⟩ := cell2point_centre m o c
  refine ⟨m.base.res * (c.x + 1 / 2), m.base.res * (c.y + 1 / 2), ?_, ?_, ?_, ?_, h1, h2⟩ <;>
    nlinarith

/-- Sub-pixel version: `cell2pointSubPixel` gives exactly the point at the given map coordinates,
and agrees with `cell2point` at cell centres. -/
theorem cell2pointSub_centre (c : UCell) :
    m.cell2pointSub (c.x + 1 / 2) (c.y + 1 / 2) = m.cell2point c := rfl

/-- Distinct cells have distinct points. -/
theorem cell2point_injective (hr : 0 < m.base.res) (hw : m.base.width < 2 ^ 31)
    (hh : m.base.height < 2 ^ 31) (c d : UCell) (hx : c.x < m.base.width) (hy : c.y < m.base.height)
    (hx' : d.x < m.base.width) (hy' : d.y < m.base.height)
    (o : P2) (h : (m.setOrigin o).cell2point c = (m.setOrigin o).cell2point d) : c = d := by
  have h1 := roundtrip m o hr hw hh c hx hy
  have h2 := roundtrip m o hr hw hh d hx' hy'
  rw [h, h2] at h1
  injection h1 with h1
  exact ((Prod.ext_iff.1 h1).2).symm

/-! ### C07 -/

/-- `getOrigin` after `setOrigin p` returns `p` rotated by `-yaw`. -/
theorem getOrigin_setOrigin (p : P2) : (m.setOrigin p).getOrigin = p.rotate (-m.yaw) := rfl

/-- **C07, origin: false of the code.**  `getOrigin` gives back what `setOrigin` received exactly if
the origin is `(0,0)` or the map is not rotated. -/
theorem getOrigin_roundtrip_iff (p : P2) :
    (m.setOrigin p).getOrigin = p ↔ p = ⟨0, 0⟩ ∨ Real.cos m.yaw = 1 := by
  rw [getOrigin_setOrigin]
  have hcs := Real.cos_sq_add_sin_sq m.yaw
  constructor
  · intro h
    have hx : Real.cos m.yaw * p.x + Real.sin m.yaw * p.y = p.x := by
      have := congrArg P2.x h; simpa [P2.rotate] using this
    have hy : -(Real.sin m.yaw * p.x) + Real.cos m.yaw * p.y = p.y := by
      have := congrArg P2.y h; simpa [P2.rotate] using this
    have h1 : (1 - Real.cos m.yaw) * p.x = 0 ∧ (1 - Real.cos m.yaw) * p.y = 0 := by
      have a : (1 - Real.cos m.yaw) * (p.x ^ 2 + p.y ^ 2) = 0 := by
        linear_combination (-p.x) * hx - p.y * hy
      rcases mul_eq_zero.1 a with h | h
      · simp [h]
      · have hx0 : p.x = 0 := by nlinarith [sq_nonneg p.x, sq_nonneg p.y]
        have hy0 : p.y = 0 := by nlinarith [sq_nonneg p.x, sq_nonneg p.y]
        simp [hx0, hy0]
    by_cases hc : Real.cos m.yaw = 1
    · exact .inr hc
    · left
      have hne : (1 - Real.cos m.yaw) ≠ 0 := fun h => hc (by linarith)
      exact P2.ext ((mul_eq_zero.1 h1.1).resolve_left hne) ((mul_eq_zero.1 h1.2).resolve_left hne)
  · rintro (rfl | hc)
    · ext <;> simp [P2.rotate]
    · have hs : Real.sin m.yaw = 0 := by
        rw [hc] at hcs; nlinarith [sq_nonneg (Real.sin m.yaw)]
      ext <;> simp [P2.rotate, hc, hs]

theorem castI_nonneg_lt {d : ℝ} {k : Nat} (hk0 : 0 < k) (hk : k < 2 ^ 31) :
    (∃ n, castI d = .ok n ∧ 0 ≤ n ∧ n < k) ↔ -1 < d ∧ d < k := by
  have hkR : (1 : ℝ) ≤ k := by exact_mod_cast hk0
  constructor
  · rintro ⟨n, h, h0, h1⟩
    unfold castI at h
    split at h
    · injection h with h
      have h0' : (0 : ℝ) ≤ n := by exact_mod_cast h0
      have h1' : (n : ℝ) + 1 ≤ k := by exact_mod_cast h1
      unfold truncC at h
      split at h
      · obtain ⟨a, b⟩ := Int.floor_eq_iff.1 h
        exact ⟨by linarith, by linarith⟩
      · obtain ⟨a, b⟩ := Int.ceil_eq_iff.1 h
        exact ⟨by linarith, by linarith⟩
    · cases h
  · rintro ⟨h0, h1⟩
    have key : 0 ≤ truncC d ∧ truncC d < k := by
      unfold truncC
      split
      · rename_i hd
        refine ⟨Int.floor_nonneg.2 hd, ?_⟩
        rw [Int.floor_lt]; exact_mod_cast h1
      · rename_i hd
        have e : ⌈d⌉ = 0 := by
          rw [Int.ceil_eq_iff]; constructor <;> push_cast <;> linarith
        rw [e]; omega
    refine ⟨truncC d, ?_, key⟩
    unfold castI; rw [if_pos ⟨by omega, by omega⟩]

/-- What `isInMap(double,double)` computes: the point is rotated back, and compared with the map
size *in cells*. -/
theorem isInMapD_true_iff (hw0 : 0 < m.base.width) (hh0 : 0 < m.base.height)
    (hw : m.base.width < 2 ^ 31) (hh : m.base.height < 2 ^ 31) (p : P2) :
    m.isInMapD p = .ok true ↔
      (-1 < (p.rotate (-m.yaw)).x ∧ (p.rotate (-m.yaw)).x < m.base.width) ∧
      (-1 < (p.rotate (-m.yaw)).y ∧ (p.rotate (-m.yaw)).y < m.base.height) := by
  rw [← castI_nonneg_lt hw0 hw, ← castI_nonneg_lt hh0 hh]
  unfold isInMapD
  simp only [P2.rotate]
  rw [CRes.bind_eq_ok, toI32_small (by simpa using hw), toI32_small (by simpa using hh)]
  constructor
  · rintro ⟨a, ha, h⟩
    rw [CRes.bind_eq_ok] at h
    obtain ⟨b, hb, h⟩ := h
    simp at h
    exact ⟨⟨a, ha, by omega⟩, ⟨b, hb, by omega⟩⟩
  · rintro ⟨⟨a, ha, h1⟩, ⟨b, hb, h2⟩⟩
    refine ⟨a, ha, ?_⟩
    rw [CRes.bind_eq_ok]
    exact ⟨b, hb, by simp; omega⟩

/-- **C07, `isInMap`: false of the code.**  The answer depends neither on the origin nor on the
resolution. -/
theorem isInMapD_ignores (p o : P2) (r : ℝ) :
    ({ m.setOrigin o with base := (m.setOrigin o).base.setRes r }).isInMapD p = m.isInMapD p := rfl

theorem onRotRect_iff (o p : P2) (yaw lx ly : ℝ) : OnRotRect o yaw lx ly p ↔
    (0 ≤ ((p - o).rotate (-yaw)).x ∧ ((p - o).rotate (-yaw)).x < lx) ∧
    (0 ≤ ((p - o).rotate (-yaw)).y ∧ ((p - o).rotate (-yaw)).y < ly) := by
  have hcs := Real.cos_sq_add_sin_sq yaw
  unfold OnRotRect
  simp only [P2.rotate, Real.cos_neg, Real.sin_neg, P2.sub_x, P2.sub_y]
  constructor
  · rintro ⟨a, b, h1, h2, h3, h4, hx, hy⟩
    have ea : Real.cos yaw * (p.x - o.x) - -Real.sin yaw * (p.y - o.y) = a := by
      rw [hx, hy]; linear_combination a * hcs
    have eb : -Real.sin yaw * (p.x - o.x) + Real.cos yaw * (p.y - o.y) = b := by
      rw [hx, hy]; linear_combination b * hcs
    rw [ea, eb]; exact ⟨⟨h1, h2⟩, h3, h4⟩
  · rintro ⟨⟨h1, h2⟩, h3, h4⟩
    refine ⟨_, _, h1, h2, h3, h4, ?_, ?_⟩
    · linear_combination -(p.x - o.x) * hcs
    · linear_combination -(p.y - o.y) * hcs

/-- **C07 (partial).**  With origin `(0,0)` and resolution 1, and for points that are not on the
negative side of a map axis, the answer is right for every rotation.  Missing: all other origins,
resolutions, and the strip of width 1 below the axes, where it is wrong (next theorems). -/
theorem isInMapD_iff_onRotRect_partial (hw0 : 0 < m.base.width) (hh0 : 0 < m.base.height)
    (hw : m.base.width < 2 ^ 31) (hh : m.base.height < 2 ^ 31) (p : P2) (hr : m.base.res = 1)
    (h0 : 0 ≤ (p.rotate (-m.yaw)).x) (h1 : 0 ≤ (p.rotate (-m.yaw)).y) :
    m.isInMapD p = .ok true ↔
      OnRotRect ⟨0, 0⟩ m.yaw (m.base.width * m.base.res) (m.base.height * m.base.res) p := by
  have hp : p - ⟨0, 0⟩ = p := by ext <;> simp
  rw [isInMapD_true_iff m hw0 hh0 hw hh, onRotRect_iff, hr, mul_one, mul_one, hp]
  constructor
  · rintro ⟨⟨_, a⟩, _, b⟩; exact ⟨⟨h0, a⟩, h1, b⟩
  · rintro ⟨⟨_, a⟩, _, b⟩; exact ⟨⟨by linarith, a⟩, by linarith, b⟩

/-- The corner of the last cell: `a` along the first axis of a map at the world origin. -/
theorem rot_axis (yaw a : ℝ) :
    ((⟨a * Real.cos yaw, a * Real.sin yaw⟩ : P2).rotate (-yaw)) = ⟨a, 0⟩ := by
  have hcs := Real.cos_sq_add_sin_sq yaw
  ext <;> simp only [P2.rotate, Real.cos_neg, Real.sin_neg]
  · linear_combination a * hcs
  · ring

/-- **C07, `isInMap`: false of the code.**  On every map at the world origin with cells larger than
1 there are points of the map that are reported outside ... -/
theorem isInMapD_rejects_map_points (hw0 : 0 < m.base.width) (hh0 : 0 < m.base.height)
    (hw : m.base.width < 2 ^ 31) (hh : m.base.height < 2 ^ 31) (hr : 1 < m.base.res) :
    ∃ p, OnRotRect ⟨0, 0⟩ m.yaw (m.base.width * m.base.res) (m.base.height * m.base.res) p ∧
      m.isInMapD p ≠ .ok true := by
  have hwR : (0 : ℝ) < m.base.width := by exact_mod_cast hw0
  have hhR : (0 : ℝ) < m.base.height := by exact_mod_cast hh0
  refine ⟨⟨m.base.width * Real.cos m.yaw, m.base.width * Real.sin m.yaw⟩,
    ⟨m.base.width, 0, by positivity, by nlinarith, le_refl _, by nlinarith, by simp, by simp⟩, ?_⟩
  rw [ne_eq, isInMapD_true_iff m hw0 hh0 hw hh, rot_axis]
  rintro ⟨⟨_, h⟩, _⟩
  exact absurd h (lt_irrefl _)

/-- ... and on every map at the world origin with cells smaller than 1 (the usual case) there are
points off the map that are reported inside. -/
theorem isInMapD_accepts_off_map (hw0 : 0 < m.base.width) (hh0 : 0 < m.base.height)
    (hw : m.base.width < 2 ^ 31) (hh : m.base.height < 2 ^ 31) (hr0 : 0 < m.base.res)
    (hr : m.base.res < 1) :
    ∃ p, ¬ OnRotRect ⟨0, 0⟩ m.yaw (m.base.width * m.base.res) (m.base.height * m.base.res) p ∧
      m.isInMapD p = .ok true := by
  have hwR : (0 : ℝ) < m.base.width := by exact_mod_cast hw0
  have hhR : (0 : ℝ) < m.base.height := by exact_mod_cast hh0
  refine ⟨⟨(m.base.width * m.base.res) * Real.cos m.yaw,
    (m.base.width * m.base.res) * Real.sin m.yaw⟩, ?_, ?_⟩
  · rw [onRotRect_iff]
    have hp : ∀ p : P2, p - ⟨0, 0⟩ = p := fun p => by ext <;> simp
    rw [hp, rot_axis]
    rintro ⟨⟨_, h⟩, _⟩
    exact absurd h (lt_irrefl _)
  · rw [isInMapD_true_iff m hw0 hh0 hw hh, rot_axis]
    exact ⟨⟨by nlinarith, by nlinarith⟩, by simp, hhR⟩

/-- The coordinate helper `pos2map` ignores the rotation: on a rotated map it agrees with the map's
own conversion (`cell2pointSubPixel`) of map coordinates `(x,y)` exactly if the stored position
vector is `0` or the map is not rotated. -/
theorem pos2map_ignores_rotation (hr : m.base.res ≠ 0) (x y : ℝ) :
    (let p := m.cell2pointSub x y
     pos2map m.base ⟨p.x, p.y, 0⟩ = ⟨x, y, 0⟩) ↔
      (m.base.res * x + m.base.ox = 0 ∧ m.base.res * y + m.base.oy = 0) ∨ Real.cos m.yaw = 1 := by
  have hcs := Real.cos_sq_add_sin_sq m.yaw
  simp only [pos2map, cell2pointSub, Pose.mk.injEq, and_true]
  rw [div_eq_iff hr, div_eq_iff hr]
  set X := m.base.res * x + m.base.ox with hX
  set Y := m.base.res * y + m.base.oy with hY
  constructor
  · rintro ⟨h1, h2⟩
    have h1' : Real.cos m.yaw * X - Real.sin m.yaw * Y = X := by rw [hX]; linarith
    have h2' : Real.sin m.yaw * X + Real.cos m.yaw * Y = Y := by rw [hY]; linarith
    have h := getOrigin_roundtrip_iff ⟨m.base, -m.yaw⟩ ⟨X, Y⟩
    simp only [Real.cos_neg, P2.mk.injEq] at h
    apply h.1
    rw [getOrigin_setOrigin]
    ext <;> simp only [P2.rotate, neg_neg]
    · exact h1'
    · exact h2'
  · rintro (⟨h1, h2⟩ | hc)
    · rw [h1, h2]; constructor
      · linear_combination -h1
      · linear_combination -h2
    · have hs : Real.sin m.yaw = 0 := by
        rw [hc] at hcs; nlinarith [sq_nonneg (Real.sin m.yaw)]
      rw [hc, hs]; constructor
      · linear_combination hX
      · linear_combination hY

/-- Non-vacuity: a 3 x 2 map turned by 90 degrees with origin (5,0). -/
example : ∃ m : RMap, m.base.width = 3 ∧ m.base.height = 2 ∧ 0 < m.base.res ∧ m.base.res < 1 ∧
    m.yaw = Real.pi / 2 ∧ (m.setOrigin ⟨5, 0⟩).getOrigin ≠ ⟨5, 0⟩ ∧
    (m.setOrigin ⟨5, 0⟩).point2cell ((m.setOrigin ⟨5, 0⟩).cell2point ⟨2, 1⟩) =
      .ok (true, ⟨2, 1⟩) := by
  refine ⟨⟨⟨3, 2, 1 / 2, 0, 0, [], 50, 200, -1⟩, Real.pi / 2⟩, rfl, rfl, by norm_num, by norm_num,
    rfl, ?_, ?_⟩
  · rw [ne_eq, getOrigin_roundtrip_iff]; simp
  · exact roundtrip _ _ (by norm_num) (by norm_num) (by norm_num) _ (by decide) (by decide)

end RMap
end PathPlanning
