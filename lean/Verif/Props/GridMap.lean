import Verif.Model.GridMap
import Verif.Spec.GridMap
import Mathlib.Tactic.Positivity
import Mathlib.Tactic.FieldSimp
import Mathlib.Tactic.NormNum
import Mathlib.Algebra.Order.Field.Rat
import Mathlib.Data.Rat.Floor

/-!
# Properties C01-C05 of `SimpleGridMap2d`
-/

set_option linter.unusedSectionVars false

namespace PathPlanning

open Spec

/-! ## C01 — a grid map is a function on its cells -/

namespace GridMap
variable {K : Type}

/-- Executes one operation of a history on the modelled map. -/
def exec (m : GridMap K) : MapOp → CRes (GridMap K)
  | .write x y v => m.setValue ⟨x, y⟩ v
  | .fill v => pure (m.fill v)
  | .load rows w h => pure (m.setData rows w h)

/-- Executes a history of operations. -/
def execAll (m : GridMap K) : List MapOp → CRes (GridMap K)
  | [] => pure m
  | op :: ops => do let m' ← m.exec op; m'.execAll ops

/-- Internal relation between the modelled and the abstract map. -/
structure Rel (m : GridMap K) (a : AbsMap) : Prop where
  hw : m.width = a.w
  hh : m.height = a.h
  size : a.w * a.h < u32
  len : a.w * a.h ≤ m.data.length
  val : ∀ x y, x < a.w → y < a.h → m.data[y * a.w + x]? = some (a.cell x y)

theorem cell_lt {w h x y : Nat} (hx : x < w) (hy : y < h) : y * w + x < w * h := by
  have : (y + 1) * w ≤ h * w := Nat.mul_le_mul_right _ hy
  nlinarith

theorem cell_inj {w x y x' y' : Nat} (hx : x < w) (hx' : x' < w)
    (h : y * w + x = y' * w + x') : x = x' ∧ y = y' := by
  have hw : 0 < w := by omega
  have h1 : (y * w + x) / w = y := by
    rw [mul_comm, Nat.mul_add_div hw, Nat.div_eq_of_lt hx]; simp
  have h2 : (y' * w + x') / w = y' := by
    rw [mul_comm, Nat.mul_add_div hw, Nat.div_eq_of_lt hx']; simp
  have hy : y = y' := by rw [← h1, ← h2, h]
  subst hy; exact ⟨by omega, rfl⟩

theorem Rel.index {m : GridMap K} {a : AbsMap} (r : Rel m a) {x y : Nat} (hx : x < a.w)
    (hy : y < a.h) : m.index ⟨x, y⟩ = y * a.w + x := by
  have := cell_lt hx hy
  have := r.size
  unfold GridMap.index wrapU
  rw [r.hw, Nat.mod_eq_of_lt (a := y * a.w) (by omega), Nat.mod_eq_of_lt (by simp only; omega)]

theorem Rel.get {m : GridMap K} {a : AbsMap} (r : Rel m a) {x y : Nat} (hx : x < a.w)
    (hy : y < a.h) : m.getValue ⟨x, y⟩ = .ok (a.cell x y) := by
  rw [getValue, r.index hx hy, vget, r.val x y hx hy]

theorem Rel.step {m : GridMap K} {a : AbsMap} (r : Rel m a) {op : MapOp} (hl : a.Legal op) :
    ∃ m', m.exec op = .ok m' ∧ Rel m' (a.apply op) := by
  cases op with
  | write x y v =>
    obtain ⟨hx, hy⟩ := hl
    have hb : y * a.w + x < m.data.length := lt_of_lt_of_le (cell_lt hx hy) r.len
    refine ⟨{ m with data := m.data.set (y * a.w + x) v }, ?_, ?_⟩
    · simp [exec, setValue, vset, r.index hx hy, hb]
    · refine ⟨r.hw, r.hh, r.size, by simpa [AbsMap.apply] using r.len, ?_⟩
      intro i j hi hj
      simp only [AbsMap.apply] at hi hj ⊢
      rw [List.getElem?_set]
      by_cases hc : i = x ∧ j = y
      · obtain ⟨rfl, rfl⟩ := hc
        simp [hb]
      · rw [if_neg, r.val i j hi hj]
        · simp [hc]
        · intro he
          exact hc ((cell_inj hx hi he).imp Eq.symm Eq.symm)
  | fill v =>
    refine ⟨m.fill v, rfl, r.hw, r.hh, r.size, by simpa [fill, AbsMap.apply] using r.len, ?_⟩
    intro i j hi hj
    have := r.val i j hi hj
    obtain ⟨hb, -⟩ := List.getElem?_eq_some_iff.1 this
    simp [fill, AbsMap.apply, hb]
  | load rows w h =>
    obtain ⟨h1, h2⟩ := hl
    refine ⟨m.setData rows w h, rfl, rfl, rfl, by simpa [u32, AbsMap.apply] using h2, h1, ?_⟩
    intro i j hi hj
    simp only [AbsMap.apply] at hi hj
    have : j * w + i < rows.length := lt_of_lt_of_le (cell_lt hi hj) h1
    simp [setData, AbsMap.apply, this]

theorem Rel.run {m : GridMap K} {a : AbsMap} (r : Rel m a) :
    ∀ {ops : List MapOp}, a.LegalHistory ops →
      ∃ m', m.execAll ops = .ok m' ∧ Rel m' (ops.foldl AbsMap.apply a) := by
  intro ops
  induction ops generalizing m a with
  | nil => intro _; exact ⟨m, rfl, r⟩
  | cons op ops ih =>
    rintro ⟨h1, h2⟩
    obtain ⟨m', hm', r'⟩ := r.step h1
    obtain ⟨m'', hm'', r''⟩ := ih r' h2
    exact ⟨m'', by simp [execAll, hm', hm''], r''⟩

theorem rel_mk' [Zero K] {w h : Nat} (r : K) (hs : w * h < 2 ^ 32) :
    Rel (mk' w h r) ⟨w, h, fun _ _ => 0⟩ := by
  have hs' : w * h < u32 := by simpa [u32] using hs
  refine ⟨rfl, rfl, hs', ?_, ?_⟩
  · simp [mk', wrapU, Nat.mod_eq_of_lt hs']
  · intro x y hx hy
    have := cell_lt hx hy
    simp only [mk', wrapU, Nat.mod_eq_of_lt hs']
    simp at hx hy
    rw [List.getElem?_replicate, if_pos (cell_lt hx hy)]

/-- **C01.** For every map with fewer than `2^32` cells and every legal history of writes, fills and
loads: no operation has undefined behaviour, and afterwards reading any cell of the map yields
exactly the value given by the abstract function-on-cells semantics (last write to that very cell,
`0` initially; a write changes no other cell). -/
theorem history_refines [Zero K] (w h : Nat) (r : K) (hs : w * h < 2 ^ 32) (ops : List MapOp)
    (hl : (⟨w, h, fun _ _ => 0⟩ : AbsMap).LegalHistory ops) :
    ∃ m, (mk' w h r).execAll ops = .ok m ∧
      m.width = (ops.foldl AbsMap.apply ⟨w, h, fun _ _ => 0⟩).w ∧
      m.height = (ops.foldl AbsMap.apply ⟨w, h, fun _ _ => 0⟩).h ∧
      ∀ x y, x < m.width → y < m.height →
        m.getValue ⟨x, y⟩ = .ok ((ops.foldl AbsMap.apply ⟨w, h, fun _ _ => 0⟩).cell x y) := by
  obtain ⟨m, h1, h2⟩ := (rel_mk' r hs).run hl
  refine ⟨m, h1, h2.hw, h2.hh, fun x y hx hy => h2.get (h2.hw ▸ hx) (h2.hh ▸ hy)⟩

example : (3 * 2 < 2 ^ 32) ∧ (⟨3, 2, fun _ _ => 0⟩ : AbsMap).LegalHistory
    [.write 2 1 7, .fill 9, .write 0 0 1, .load [1, 2, 3, 4] 2 2, .write 1 1 8] := by
  simp [AbsMap.LegalHistory, AbsMap.Legal, AbsMap.apply]

/-- **C01, the excluded point.** If `width*height ≥ 2^32` the constructor's product wraps, and some
cell of the map cannot be read: `getValue` has undefined behaviour. -/
theorem ctor_overflow_ub [Zero K] (w h : Nat) (r : K) (hw : w < 2 ^ 32)
    (hs : 2 ^ 32 ≤ w * h) :
    ∃ c : UCell, c.x < w ∧ c.y < h ∧ (mk' w h r).getValue c = .ub := by
  set s := (w * h) % u32 with hsdef
  have hsl : s < u32 := Nat.mod_lt _ (by decide)
  have hw0 : 0 < w := by
    rcases Nat.eq_zero_or_pos w with rfl | h0
    · simp at hs
    · exact h0
  have hu : u32 = 2 ^ 32 := by decide
  refine ⟨⟨s % w, s / w⟩, Nat.mod_lt _ hw0, ?_, ?_⟩
  · show s / w < h
    rw [Nat.div_lt_iff_lt_mul hw0]
    rw [mul_comm] at hs; omega
  · have e : s / w * w + s % w = s := Nat.div_add_mod' s w
    have hi : (mk' w h r).index ⟨s % w, s / w⟩ = s := by
      unfold GridMap.index wrapU
      simp only [mk']
      rw [Nat.mod_eq_of_lt (a := s / w * w) (by omega), e, Nat.mod_eq_of_lt hsl]
    rw [getValue, hi]
    exact vget_of_ge (by simp [mk', wrapU, ← hsdef])

example : (65536 < 2 ^ 32) ∧ (2 ^ 32 ≤ 65536 * 65536) := by decide

/-! ## C02 — classification of cells -/

/-- **C02.** If the lower threshold is below the upper one, then for every readable cell exactly one
of `isFree`, `isOccupied`, `isNoInformation` is true — for every no-information value. -/
theorem classification_exactly_one (m : GridMap K) (c : UCell) (v : UInt8)
    (hv : m.getValue c = .ok v) (ht : m.lower < m.upper) :
    (m.isFree c = .ok true ∧ m.isOccupied c = .ok false ∧ m.isNoInformation c = .ok false) ∨
    (m.isFree c = .ok false ∧ m.isOccupied c = .ok true ∧ m.isNoInformation c = .ok false) ∨
    (m.isFree c = .ok false ∧ m.isOccupied c = .ok false ∧ m.isNoInformation c = .ok true) := by
  simp only [isFree, isOccupied, isNoInformation, hv, CRes.ok_bind, freeByte, occByte, noInfByte,
    CRes.pure_eq, CRes.ok.injEq]
  by_cases hn : m.isNoInfoByte v
  · simp [hn]
  · simp only [hn, Bool.false_eq_true, if_false, decide_eq_true_eq, decide_eq_false_iff_not,
      Bool.and_eq_true, Bool.and_eq_false_iff, UInt8.lt_iff_toNat_lt, UInt8.le_iff_toNat_le] at *
    omega

/-- **C02, exact meaning.** What each of the three queries answers, for arbitrary thresholds. -/
theorem classification_exact (m : GridMap K) (c : UCell) (v : UInt8) (hv : m.getValue c = .ok v) :
    (m.isFree c = .ok true ↔ v ≤ m.lower ∧ ¬(m.noInfo ≠ -1 ∧ (v.toNat : Int) = m.noInfo)) ∧
    (m.isOccupied c = .ok true ↔ m.upper ≤ v ∧ ¬(m.noInfo ≠ -1 ∧ (v.toNat : Int) = m.noInfo)) ∧
    (m.isNoInformation c = .ok true ↔
      (m.lower < v ∧ v < m.upper) ∨ (m.noInfo ≠ -1 ∧ (v.toNat : Int) = m.noInfo)) := by
  simp only [isFree, isOccupied, isNoInformation, hv, CRes.ok_bind, freeByte, occByte, noInfByte,
    CRes.pure_eq, CRes.ok.injEq]
  by_cases hn : m.isNoInfoByte v
  · have h' : m.noInfo ≠ -1 ∧ (v.toNat : Int) = m.noInfo := by simpa [isNoInfoByte] using hn
    simp [hn, h']
  · have h' : ¬ (m.noInfo ≠ -1 ∧ (v.toNat : Int) = m.noInfo) := by
      simpa [isNoInfoByte] using hn
    simp [hn, h']

/-- **C02, arbitrary thresholds.** At least one answer is true, and free and occupied coincide
exactly when `upper ≤ value ≤ lower` and the value is not the no-information value. -/
theorem classification_total (m : GridMap K) (c : UCell) (v : UInt8) (hv : m.getValue c = .ok v) :
    (m.isFree c = .ok true ∨ m.isOccupied c = .ok true ∨ m.isNoInformation c = .ok true) ∧
    ((m.isFree c = .ok true ∧ m.isOccupied c = .ok true) ↔
      (m.upper ≤ v ∧ v ≤ m.lower ∧ ¬(m.noInfo ≠ -1 ∧ (v.toNat : Int) = m.noInfo))) := by
  obtain ⟨h1, h2, h3⟩ := classification_exact m c v hv
  rw [h1, h2, h3]
  constructor
  · by_cases hn : m.noInfo ≠ -1 ∧ (v.toNat : Int) = m.noInfo
    · exact Or.inr (Or.inr (Or.inr hn))
    · simp only [hn, not_false_eq_true, and_true, or_false, UInt8.lt_iff_toNat_lt,
        UInt8.le_iff_toNat_le]
      omega
  · tauto

example : (mk' 2 2 (1 : ℚ)).getValue ⟨1, 1⟩ = .ok 0 ∧ (mk' 2 2 (1 : ℚ)).lower < (mk' 2 2 (1 : ℚ)).upper := by
  decide +kernel

/-! ## C03-C05 — points and cells -/

section num
variable [Field K] [LinearOrder K] [IsStrictOrderedRing K] [FloorRing K]

omit [LinearOrder K] [IsStrictOrderedRing K] [FloorRing K] [Field K] in
theorem isInMap_iff (m : GridMap K) (hw : m.width < 2 ^ 31) (hh : m.height < 2 ^ 31) (x y : Int) :
    m.isInMap x y = true ↔ 0 ≤ x ∧ x < m.width ∧ 0 ≤ y ∧ y < m.height := by
  rw [isInMap, toI32_small (by simpa using hw), toI32_small (by simpa using hh)]
  simp; omega

/-- **C03.** Every point of the half-open square of an in-map cell is converted to that cell. -/
theorem point2cell_of_inCell (m : GridMap K) (hr : 0 < m.res) (hw : m.width < 2 ^ 31)
    (hh : m.height < 2 ^ 31) (x y : Nat) (hx : x < m.width) (hy : y < m.height) (px py : K)
    (hp : InCell m.ox m.oy m.res x y px py) :
    m.point2cell px py = .ok (true, ⟨x, y⟩) := by
  obtain ⟨h1, h2, h3, h4⟩ := hp
  have e1 : castU ((px - m.ox) / m.res) = .ok x := by
    apply castU_floor
    · rw [le_div_iff₀ hr]; linarith
    · rw [div_lt_iff₀ hr]; linarith
    · unfold u32; omega
  have e2 : castU ((py - m.oy) / m.res) = .ok y := by
    apply castU_floor
    · rw [le_div_iff₀ hr]; linarith
    · rw [div_lt_iff₀ hr]; linarith
    · unfold u32; omega
  have : m.isInMap (toI32 x) (toI32 y) = true := by
    rw [isInMap_iff m hw hh, toI32_small (by omega), toI32_small (by omega)]; omega
  simp [point2cell, e1, e2, this]

/-- **C03, round trip.** `point2cell (cell2point c) = c` for every in-map cell, every origin and
every positive resolution; and the point is the centre of the cell's square. -/
theorem point2cell_cell2point (m : GridMap K) (hr : 0 < m.res) (hw : m.width < 2 ^ 31)
    (hh : m.height < 2 ^ 31) (c : UCell) (hx : c.x < m.width) (hy : c.y < m.height) :
    m.point2cell (m.cell2point c).1 (m.cell2point c).2 = .ok (true, c) ∧
    InCell m.ox m.oy m.res c.x c.y (m.cell2point c).1 (m.cell2point c).2 ∧
    2 * (m.cell2point c).1 = (m.ox + c.x * m.res) + (m.ox + (c.x + 1) * m.res) ∧
    2 * (m.cell2point c).2 = (m.oy + c.y * m.res) + (m.oy + (c.y + 1) * m.res) := by
  have hin : InCell m.ox m.oy m.res c.x c.y (m.cell2point c).1 (m.cell2point c).2 := by
    unfold InCell cell2point
    refine ⟨?_, ?_, ?_, ?_⟩ <;> simp only <;> nlinarith
  refine ⟨point2cell_of_inCell m hr hw hh c.x c.y hx hy _ _ hin, hin, ?_, ?_⟩ <;>
    simp only [cell2point] <;> ring

/-- **C03.** Distinct in-map cells have distinct points. -/
theorem cell2point_injective (m : GridMap K) (hr : 0 < m.res) (c d : UCell)
    (h : m.cell2point c = m.cell2point d) : c = d := by
  simp only [cell2point, Prod.mk.injEq, add_left_inj, mul_eq_mul_left_iff, hr.ne', or_false,
    Nat.cast_inj] at h
  cases c; cases d; simp_all

/-- Non-vacuity of C03: a map with a fractional, negative origin and resolution 1/2. -/
example : ∃ m : GridMap ℚ, 0 < m.res ∧ m.width < 2 ^ 31 ∧ m.height < 2 ^ 31 ∧
    (⟨2, 1⟩ : UCell).x < m.width ∧ (⟨2, 1⟩ : UCell).y < m.height ∧
    InCell m.ox m.oy m.res 2 1 (-1/10 : ℚ) (-2) :=
  ⟨((mk' 3 2 (1/2 : ℚ)).setOrigin (-5/4) (-5/2)), by norm_num [mk', setOrigin, InCell]⟩

/-- Sub-pixel conversions are mutually inverse. -/
theorem subPixel_roundtrip (m : GridMap K) (hr : m.res ≠ 0) (x y : K) (b : Bool) (x' y' : K)
    (h : m.point2cellSubPixel (m.cell2pointSubPixel x y).1 (m.cell2pointSubPixel x y).2 =
      .ok (b, x', y')) : x' = x ∧ y' = y := by
  have e : ∀ z o : K, (m.res * z + o - o) / m.res = z := by
    intro z o; field_simp; ring
  simp only [point2cellSubPixel, cell2pointSubPixel, e] at h
  rw [CRes.bind_eq_ok] at h
  obtain ⟨_, _, h⟩ := h
  rw [CRes.bind_eq_ok] at h
  obtain ⟨_, _, h⟩ := h
  simp at h
  exact ⟨h.2.1.symm, h.2.2.symm⟩

/-- **C04, exact characterisation of the code.** `point2cell` succeeds with `true` iff the point, in
cell units relative to the origin, lies in `(-1, width) × (-1, height)` and the map is not empty. -/
theorem point2cell_true_iff (m : GridMap K) (hw : m.width < 2 ^ 31)
    (hh : m.height < 2 ^ 31) (px py : K) :
    (∃ c, m.point2cell px py = .ok (true, c)) ↔
      (-1 < (px - m.ox) / m.res ∧ (px - m.ox) / m.res < m.width ∧ 0 < m.width) ∧
      (-1 < (py - m.oy) / m.res ∧ (py - m.oy) / m.res < m.height ∧ 0 < m.height) := by
  constructor
  · rintro ⟨c, h⟩
    rw [point2cell, CRes.bind_eq_ok] at h
    obtain ⟨x, hx, h⟩ := h
    rw [CRes.bind_eq_ok] at h
    obtain ⟨y, hy, h⟩ := h
    simp only [CRes.pure_eq, CRes.ok.injEq, Prod.mk.injEq] at h
    obtain ⟨h, -⟩ := h
    rw [isInMap_iff m hw hh] at h
    obtain ⟨hx1, hx2, hx3, -⟩ := castU_eq_ok hx
    obtain ⟨hy1, hy2, hy3, -⟩ := castU_eq_ok hy
    have bx : x < m.width := by
      unfold toI32 u32 at *; split at h <;> split at h <;> omega
    have byy : y < m.height := by
      unfold toI32 u32 at *; split at h <;> split at h <;> omega
    refine ⟨⟨hx2, lt_of_lt_of_le hx3 ?_, by omega⟩, ⟨hy2, lt_of_lt_of_le hy3 ?_, by omega⟩⟩
    · exact_mod_cast bx
    · exact_mod_cast byy
  · rintro ⟨⟨hx1, hx2, hx3⟩, ⟨hy1, hy2, hy3⟩⟩
    have key : ∀ (u : K) (w : Nat), -1 < u → u < w → 0 < w → w < 2 ^ 31 →
        ∃ n : Nat, castU u = .ok n ∧ n < w := by
      intro u w h1 h2 h3 h4
      by_cases h0 : 0 ≤ u
      · obtain ⟨n, hn⟩ := Int.eq_ofNat_of_zero_le (Int.floor_nonneg.2 h0)
        obtain ⟨ha, hb⟩ := Int.floor_eq_iff.1 hn
        have hlt : n < w := by
          have : ((n : Int) : K) < ((w : Int) : K) := lt_of_le_of_lt ha (by simpa using h2)
          exact_mod_cast this
        exact ⟨n, castU_floor (by simpa using ha) (by simpa using hb) (by unfold u32; omega), hlt⟩
      · refine ⟨0, ?_, h3⟩
        have : truncC u = 0 := truncC_eq_zero h1 (by linarith)
        simp [castU, this]
    obtain ⟨x, ex, bx⟩ := key _ _ hx1 hx2 hx3 hw
    obtain ⟨y, ey, byy⟩ := key _ _ hy1 hy2 hy3 hh
    refine ⟨⟨x, y⟩, ?_⟩
    have : m.isInMap (toI32 x) (toI32 y) = true := by
      rw [isInMap_iff m hw hh, toI32_small (by omega), toI32_small (by omega)]; omega
    simp [point2cell, ex, ey, this]

/-- **C04 (partial).** For points that are not left of / below the origin, `point2cell` succeeds
exactly on the map rectangle.  Missing from the full claim: points below the origin, where the
claim is false (`point2cell_accepts_off_map`) or the conversion is undefined
(`point2cell_ub_below`). -/
theorem point2cell_iff_onRect_partial (m : GridMap K) (hr : 0 < m.res) (hw : m.width < 2 ^ 31)
    (hh : m.height < 2 ^ 31) (px py : K) (hx : m.ox ≤ px) (hy : m.oy ≤ py) :
    (∃ c, m.point2cell px py = .ok (true, c)) ↔
      OnRect m.ox m.oy m.res m.width m.height px py := by
  rw [point2cell_true_iff m hw hh]
  have hux : 0 ≤ (px - m.ox) / m.res := div_nonneg (by linarith) hr.le
  have huy : 0 ≤ (py - m.oy) / m.res := div_nonneg (by linarith) hr.le
  have pos : ∀ (u : K) (n : Nat), 0 ≤ u → u < n → 0 < n := by
    intro u n h1 h2
    have : (0 : K) < n := lt_of_le_of_lt h1 h2
    exact_mod_cast this
  unfold OnRect
  rw [div_lt_iff₀ hr, div_lt_iff₀ hr]
  constructor
  · rintro ⟨⟨_, h2, _⟩, ⟨_, h4, _⟩⟩
    exact ⟨hx, by linarith, hy, by linarith⟩
  · rintro ⟨_, h2, _, h4⟩
    refine ⟨⟨by linarith, by linarith, pos _ _ hux ?_⟩, ⟨by linarith, by linarith, pos _ _ huy ?_⟩⟩
    · rw [div_lt_iff₀ hr]; linarith
    · rw [div_lt_iff₀ hr]; linarith

/-- **C04 is false of the code.** Every point less than one cell left of the map (and level with
it) is accepted and mapped to column 0, although it is off the map. -/
theorem point2cell_accepts_off_map (m : GridMap K) (hr : 0 < m.res) (hw : m.width < 2 ^ 31)
    (hh : m.height < 2 ^ 31) (hw0 : 0 < m.width) (px py : K)
    (hx1 : m.ox - m.res < px) (hx2 : px < m.ox) (hy1 : m.oy ≤ py)
    (hy2 : py < m.oy + m.height * m.res) :
    ¬ OnRect m.ox m.oy m.res m.width m.height px py ∧
    ∃ y, m.point2cell px py = .ok (true, ⟨0, y⟩) := by
  refine ⟨fun h => absurd h.1 (not_le.2 hx2), ?_⟩
  have hux : -1 < (px - m.ox) / m.res := by rw [lt_div_iff₀ hr]; linarith
  have hux' : (px - m.ox) / m.res < 0 := div_neg_of_neg_of_pos (by linarith) hr
  have huy : 0 ≤ (py - m.oy) / m.res := div_nonneg (by linarith) hr.le
  have huy' : (py - m.oy) / m.res < m.height := by rw [div_lt_iff₀ hr]; linarith
  have hh0 : 0 < m.height := by
    have : (0 : K) < m.height := lt_of_le_of_lt huy huy'
    exact_mod_cast this
  obtain ⟨⟨x, y⟩, hc⟩ := (point2cell_true_iff m hw hh px py).2
    ⟨⟨hux, lt_trans hux' (by exact_mod_cast hw0), hw0⟩, ⟨by linarith, huy', hh0⟩⟩
  refine ⟨y, ?_⟩
  have hx0 : castU ((px - m.ox) / m.res) = .ok 0 := by
    simp [castU, truncC_eq_zero hux (by linarith)]
  rw [point2cell, hx0] at hc ⊢
  simp only [CRes.ok_bind] at hc ⊢
  rw [CRes.bind_eq_ok] at hc
  obtain ⟨y', hy', hc⟩ := hc
  simp only [CRes.pure_eq, CRes.ok.injEq, Prod.mk.injEq, UCell.mk.injEq] at hc
  rw [hy']
  simp only [CRes.ok_bind, CRes.pure_eq, CRes.ok.injEq, Prod.mk.injEq, UCell.mk.injEq, true_and]
  exact ⟨by rw [hc.1], hc.2.2⟩

example : ∃ m : GridMap ℚ, 0 < m.res ∧ m.width < 2 ^ 31 ∧ m.height < 2 ^ 31 ∧ 0 < m.width ∧
    m.ox - m.res < (-1/2 : ℚ) ∧ (-1/2 : ℚ) < m.ox ∧ m.oy ≤ (3/2 : ℚ) ∧
    (3/2 : ℚ) < m.oy + m.height * m.res :=
  ⟨mk' 3 2 1, by norm_num [mk']⟩

/-- **C04 is false of the code.** For a point one cell or more left of the origin the conversion
itself is undefined behaviour. -/
theorem point2cell_ub_below (m : GridMap K) (hr : 0 < m.res) (px py : K)
    (hx : px ≤ m.ox - m.res) : m.point2cell px py = .ub := by
  have : (px - m.ox) / m.res ≤ -1 := by rw [div_le_iff₀ hr]; linarith
  have ht := truncC_neg this
  simp [point2cell, castU, not_le.2 ht]

/-- **C05 (partial).** `isInMap(double,double)` is right for points that are not left of / below the
origin.  Missing: points below the origin, where it is always wrong (next theorem). -/
theorem isInMapD_iff_onRect_partial (m : GridMap K) (hr : 0 < m.res) (px py : K)
    (hx : m.ox ≤ px) (hy : m.oy ≤ py) :
    m.isInMapD px py = true ↔ OnRect m.ox m.oy m.res m.width m.height px py := by
  unfold isInMapD OnRect
  simp only [Bool.and_eq_true, decide_eq_true_eq, div_lt_iff₀ hr]
  constructor
  · rintro ⟨h1, h2⟩; exact ⟨hx, by linarith, hy, by linarith⟩
  · rintro ⟨_, h1, _, h2⟩; exact ⟨by linarith, by linarith⟩

/-- **C05 is false of the code.** Every point of the plane strictly left of a map, however far, is
reported "in the map" (if it is below the upper y edge), although it is not on the map, and
one cell or more away `point2cell` has undefined behaviour for it. -/
theorem isInMapD_accepts_all_below (m : GridMap K) (hr : 0 < m.res) (px py : K)
    (hx : px < m.ox) (hy : py < m.oy + m.height * m.res) :
    m.isInMapD px py = true ∧ ¬ OnRect m.ox m.oy m.res m.width m.height px py ∧
    (px ≤ m.ox - m.res → m.point2cell px py = .ub) := by
  refine ⟨?_, fun h => absurd h.1 (not_le.2 hx), point2cell_ub_below m hr px py⟩
  unfold isInMapD
  simp only [Bool.and_eq_true, decide_eq_true_eq, div_lt_iff₀ hr]
  have : (0:K) ≤ m.width * m.res := mul_nonneg (Nat.cast_nonneg _) hr.le
  constructor <;> linarith

example : ∃ m : GridMap ℚ, 0 < m.res ∧ (-1000 : ℚ) < m.ox ∧
    (1/2 : ℚ) < m.oy + m.height * m.res ∧ (-1000 : ℚ) ≤ m.ox - m.res :=
  ⟨mk' 3 2 1, by norm_num [mk']⟩

end num
end GridMap
end PathPlanning
