import Verif.Model.StateLookup
import Verif.Spec.StateLookup
import Verif.Props.Managers

/-!
# C91: pose lookups of the oriented node managers
-/

namespace PathPlanning

open Spec

variable {clamp : ℝ → ℝ} (hc : ClampSpec clamp)

/-! ### Conversions -/

theorem castU_cell {w : Nat} {x : ℝ} (h0 : 0 ≤ x) (h1 : x < w) (hw : w < 2 ^ 31) :
    ∃ i : Nat, i < w ∧ (i : ℝ) ≤ x ∧ x < i + 1 ∧ castU x = .ok i ∧ ⌊x⌋ = (i : Int) ∧
      GMgr.floorI x = .ok (i : Int) := by
  have f0 : 0 ≤ ⌊x⌋ := Int.floor_nonneg.2 h0
  have f1 : ⌊x⌋ < (w : Int) := by rw [Int.floor_lt]; exact_mod_cast h1
  have e : ((⌊x⌋.toNat : Nat) : ℤ) = ⌊x⌋ := Int.toNat_of_nonneg f0
  have eR : ((⌊x⌋.toNat : Nat) : ℝ) = (⌊x⌋ : ℝ) := by exact_mod_cast congrArg (Int.cast (R := ℝ)) e
  refine ⟨⌊x⌋.toNat, by omega, ?_, ?_, ?_, e.symm, ?_⟩
  · rw [eR]; exact Int.floor_le x
  · rw [eR]; exact Int.lt_floor_add_one x
  · refine castU_floor ?_ ?_ (by unfold u32; omega)
    · rw [eR]; exact Int.floor_le x
    · rw [eR]; exact Int.lt_floor_add_one x
  · unfold GMgr.floorI
    rw [if_pos ⟨by omega, by omega⟩, e]

include hc in
/-- Every angle gets a slot below the number of slots, the sector it lies in. -/
theorem angle2index_sector {slots : Nat} (h1 : 1 < slots) (h2 : slots < 2 ^ 32) (θ : ℝ) :
    ∃ t, angle2index clamp slots θ = .ok t ∧ t < slots ∧ InSector (slots - 1) t θ := by
  obtain ⟨t, e, ht, _⟩ := angle2index_in_range hc h1 h2 θ
  refine ⟨t, e, ht, ?_⟩
  obtain ⟨k, hk⟩ := hc.mod θ
  obtain ⟨a, b⟩ := (angle2index_iff hc h1 h2 θ t).1 e
  exact ⟨k, by rw [← hk]; exact hc.hi θ, by rw [← hk]; exact a, by rw [← hk]; exact b⟩

/-! ### `DirectionalStateSpaceManager` -/

include hc in
/-- **C91, coordinates as `double`.** The lookup is total: on the map it returns a node of the
allocation that carries the cell and the sector of the pose; off the map it throws.  It never
causes undefined behaviour, for whatever real coordinates and angle. -/
theorem dsLookupD_exact {w h : Nat} (hwh : w * h * 32 * 2 < 2 ^ 32) (hw : w < 2 ^ 31)
    (hh : h < 2 ^ 31) (junk : Nat × Nat × Nat) :
    ∃ a, dsInit w h junk = .ok a ∧ a.length = 2 * (w * h * 32) ∧ ∀ x y θ f,
      (OnCells w h x y → ∃ i cx cy t, dsLookupD clamp w h x y θ f = .ok i ∧ i < a.length ∧
        a[i]? = some (cx, cy, t) ∧ InUnitCell cx cy x y ∧ t < 32 ∧ InSector 31 t θ) ∧
      (¬ OnCells w h x y → dsLookupD clamp w h x y θ f = .throw "OutsideMapException") := by
  obtain ⟨a, e, hl, hin, hout, _⟩ := dsManager_exact hwh hw hh junk
  refine ⟨a, e, hl, fun x y θ f => ⟨?_, ?_⟩⟩
  · rintro ⟨x0, x1, y0, y1⟩
    obtain ⟨cx, hcx, a1, a2, _, _, a3⟩ := castU_cell x0 x1 hw
    obtain ⟨cy, hcy, b1, b2, _, _, b3⟩ := castU_cell y0 y1 hh
    obtain ⟨t, ht, ht2, hs⟩ := angle2index_sector hc (slots := 32) (by omega) (by omega) θ
    obtain ⟨i, hi, hi2, hi3⟩ := hin cx cy t f hcx hcy ht2
    refine ⟨i, cx, cy, t, ?_, hi2, hi3, ⟨a1, a2, b1, b2⟩, ht2, hs⟩
    unfold dsLookupD
    rw [if_neg (by push Not; exact ⟨x0, y0, x1, y1⟩), a3, b3]
    show dsLookupI clamp w h cx cy θ f = .ok i
    unfold dsLookupI
    rw [ht]
    have e3 : toI32 t = t := toI32_small (by omega)
    have ew : toI32 w = w := toI32_small (by simpa using hw)
    have eh : toI32 h = h := toI32_small (by simpa using hh)
    have e32 : toI32 32 = 32 := rfl
    simp only [CRes.ok_bind]
    rw [e3, ew, eh, e32, if_neg (by omega), hi]
  · intro hn
    unfold dsLookupD
    rw [if_pos]
    by_contra hc'
    push Not at hc'
    exact hn ⟨hc'.1, hc'.2.2.1, hc'.2.1, hc'.2.2.2⟩

include hc in
/-- **C91, `int` coordinates** agree with the `double` overload at every cell, and throw off the
map. -/
theorem dsLookupI_exact {w h : Nat} (hw : w < 2 ^ 31) (hh : h < 2 ^ 31) (x y : Int) (θ : ℝ)
    (f : Bool) :
    dsLookupI clamp w h x y θ f = dsLookupD clamp w h x y θ f ∧
      (¬ (0 ≤ x ∧ x < w ∧ 0 ≤ y ∧ y < h) →
        dsLookupI clamp w h x y θ f = .throw "OutsideMapException") := by
  obtain ⟨t, ht, ht2, _⟩ := angle2index_sector hc (slots := 32) (by omega) (by omega) θ
  have e3 : toI32 t = t := toI32_small (by omega)
  have ew : toI32 w = w := toI32_small (by simpa using hw)
  have eh : toI32 h = h := toI32_small (by simpa using hh)
  have e32 : toI32 32 = 32 := rfl
  have hthr : ¬ (0 ≤ x ∧ x < w ∧ 0 ≤ y ∧ y < h) →
      dsLookupI clamp w h x y θ f = .throw "OutsideMapException" := by
    intro hn
    unfold dsLookupI
    rw [ht]; simp only [CRes.ok_bind]
    rw [e3, ew, eh, e32, if_pos (by omega)]
  refine ⟨?_, hthr⟩
  by_cases hn : 0 ≤ x ∧ x < w ∧ 0 ≤ y ∧ y < h
  · obtain ⟨a, b, c, d⟩ := hn
    unfold dsLookupD
    rw [if_neg]
    · have fx : GMgr.floorI (x : ℝ) = .ok x := by
        unfold GMgr.floorI; rw [Int.floor_intCast, if_pos (by omega)]
      have fy : GMgr.floorI (y : ℝ) = .ok y := by
        unfold GMgr.floorI; rw [Int.floor_intCast, if_pos (by omega)]
      rw [fx, fy]; rfl
    · push Not
      exact ⟨by exact_mod_cast a, by exact_mod_cast c, by exact_mod_cast b, by exact_mod_cast d⟩
  · rw [hthr hn]
    unfold dsLookupD
    rw [if_pos]
    by_contra hc'
    push Not at hc'
    exact hn ⟨by exact_mod_cast hc'.1, by exact_mod_cast hc'.2.2.1, by exact_mod_cast hc'.2.1,
      by exact_mod_cast hc'.2.2.2⟩

include hc in
/-- **C91, whole poses.** `lookup(point)` agrees with the coordinates on the map, but accepts
poses up to one cell left of / below the map as if they were in column / row 0, throws only for
coordinates between `-1` and `2^32`, and is undefined behaviour for all others. -/
theorem dsLookupRef_exact {w h : Nat} (hw : w < 2 ^ 31) (hh : h < 2 ^ 31) (x y θ : ℝ) (f : Bool) :
    (OnCells w h x y → dsLookupRef clamp w h x y θ f = dsLookupD clamp w h x y θ f) ∧
    (-1 < x → x < w → -1 < y → y < h → 0 < w → 0 < h →
      dsLookupRef clamp w h x y θ f = dsLookupD clamp w h (max x 0) (max y 0) θ f) ∧
    (-1 < x → x < 2 ^ 32 → -1 < y → y < 2 ^ 32 → ((w : ℝ) ≤ x ∨ (h : ℝ) ≤ y) →
      dsLookupRef clamp w h x y θ f = .throw "OutsideMapException") ∧
    (x ≤ -1 ∨ 2 ^ 32 ≤ x ∨ y ≤ -1 ∨ 2 ^ 32 ≤ y → dsLookupRef clamp w h x y θ f = .ub) := by
  obtain ⟨t, ht, ht2, _⟩ := angle2index_sector hc (slots := 32) (by omega) (by omega) θ
  have e3 : toI32 t = t := toI32_small (by omega)
  have ew : toI32 w = w := toI32_small (by simpa using hw)
  have eh : toI32 h = h := toI32_small (by simpa using hh)
  have e32 : toI32 32 = 32 := rfl
  have zc : ∀ z : ℝ, -1 < z → z < 0 → castU z = .ok 0 := by
    intro z h1 h2
    unfold castU; rw [truncC_eq_zero h1 (by linarith)]; simp
  have main : -1 < x → x < w → -1 < y → y < h → 0 < w → 0 < h →
      dsLookupRef clamp w h x y θ f = dsLookupD clamp w h (max x 0) (max y 0) θ f := by
    intro x0 x1 y0 y1 w0 h0
    have hx' : max x 0 < (w : ℝ) := max_lt x1 (by exact_mod_cast w0)
    have hy' : max y 0 < (h : ℝ) := max_lt y1 (by exact_mod_cast h0)
    obtain ⟨cx, hcx, a1, a2, a3, _, a4⟩ := castU_cell (le_max_right x 0) hx' hw
    obtain ⟨cy, hcy, b1, b2, b3, _, b4⟩ := castU_cell (le_max_right y 0) hy' hh
    have key : ∀ (z : ℝ) (i : Nat), -1 < z → castU (max z 0) = .ok i → castU z = .ok i := by
      intro z i hz hi
      rcases le_or_gt 0 z with hz0 | hz0
      · rwa [max_eq_left hz0] at hi
      · rw [max_eq_right hz0.le] at hi
        rw [zc z hz hz0]
        have : castU (0 : ℝ) = .ok 0 := castU_floor (n := 0) (by simp) (by simp) (by unfold u32; omega)
        rw [this] at hi; exact hi
    have a3' := key x cx x0 a3
    have b3' := key y cy y0 b3
    unfold dsLookupRef dsLookupD
    rw [if_neg (by push Not; exact ⟨le_max_right _ _, le_max_right _ _, hx', hy'⟩), a3', b3', ht, a4,
      b4]
    simp only [CRes.ok_bind]
    unfold dsLookupI
    rw [ht]
    simp only [CRes.ok_bind]
    have ex : toI32 cx = cx := toI32_small (by omega)
    have ey : toI32 cy = cy := toI32_small (by omega)
    rw [e3, ew, eh, e32, if_neg (by omega), ex, ey]
  have uni : ∀ z : ℝ, -1 < z → z < 2 ^ 32 → ∃ i : Nat, castU z = .ok i ∧ (i : ℝ) ≤ max z 0 ∧
      z < i + 1 ∧ i < 4294967296 := by
    intro z h1 h2
    rcases le_or_gt 0 z with hz0 | hz0
    · have f0 : 0 ≤ ⌊z⌋ := Int.floor_nonneg.2 hz0
      have f1 : ⌊z⌋ < 4294967296 := by rw [Int.floor_lt]; push_cast; linarith
      have e : ((⌊z⌋.toNat : Nat) : ℤ) = ⌊z⌋ := Int.toNat_of_nonneg f0
      have eR : ((⌊z⌋.toNat : Nat) : ℝ) = (⌊z⌋ : ℝ) := by
        exact_mod_cast congrArg (Int.cast (R := ℝ)) e
      refine ⟨⌊z⌋.toNat, ?_, ?_, ?_, by omega⟩
      · unfold castU; rw [truncC_nonneg hz0, if_pos ⟨f0, f1⟩]
      · rw [eR]; exact (Int.floor_le z).trans (le_max_left _ _)
      · rw [eR]; exact Int.lt_floor_add_one z
    · exact ⟨0, zc z h1 hz0, by simp, by push_cast; linarith, by omega⟩
  have neg : ∀ z : ℝ, (z ≤ -1 ∨ 2 ^ 32 ≤ z) → castU z = .ub := by
    intro z hz
    unfold castU
    rcases hz with hz | hz
    · have := truncC_neg hz
      rw [if_neg (by omega)]
    · have h0 : (0 : ℝ) ≤ z := le_trans (by norm_num) hz
      rw [truncC_nonneg h0, if_neg]
      have : (4294967296 : Int) ≤ ⌊z⌋ := by rw [Int.le_floor]; push_cast; linarith
      omega
  refine ⟨?_, main, ?_, ?_⟩
  · rintro ⟨x0, x1, y0, y1⟩
    have w0 : 0 < w := by
      have : (0 : ℝ) < w := lt_of_le_of_lt x0 x1
      exact_mod_cast this
    have h0 : 0 < h := by
      have : (0 : ℝ) < h := lt_of_le_of_lt y0 y1
      exact_mod_cast this
    rw [main (by linarith) x1 (by linarith) y1 w0 h0, max_eq_left x0, max_eq_left y0]
  · intro x0 x1 y0 y1 hout
    obtain ⟨i, hi, i1, i2, i3⟩ := uni x x0 x1
    obtain ⟨j, hj, j1, j2, j3⟩ := uni y y0 y1
    unfold dsLookupRef
    rw [hi, hj, ht]
    simp only [CRes.ok_bind]
    unfold dsIndex
    rw [ew, eh, e32, if_pos]
    rcases hout with ho | ho
    · have : w < i + 1 := by
        have : (w : ℝ) < i + 1 := lt_of_le_of_lt ho i2
        exact_mod_cast this
      unfold toI32
      split_ifs <;> omega
    · have : h < j + 1 := by
        have : (h : ℝ) < j + 1 := lt_of_le_of_lt ho j2
        exact_mod_cast this
      unfold toI32
      split_ifs <;> omega
  · intro hbad
    unfold dsLookupRef
    by_cases hy : y ≤ -1 ∨ 2 ^ 32 ≤ y
    · rw [neg y hy]; rfl
    · push Not at hy
      obtain ⟨j, hj, _⟩ := uni y hy.1 hy.2
      have hx : x ≤ -1 ∨ 2 ^ 32 ≤ x := by
        rcases hbad with h | h | h | h
        · exact .inl h
        · exact .inr h
        · exact absurd h (not_le.2 hy.1)
        · exact absurd h (not_le.2 hy.2)
      rw [hj, neg x hx]; rfl

/-- **C91.** A pose without direction is looked up as driving forward. -/
theorem dsLookupPose_eq (w h : Nat) (x y θ : ℝ) :
    dsLookupPose clamp w h x y θ = dsLookupRef clamp w h x y θ true := rfl

include hc in
/-- **C91, identity of nodes.** Two poses on the map share a node exactly if they have the same
cell, the same slot and the same driving direction; in particular forward and backward states never
share one. -/
theorem dsLookupD_same_iff {w h : Nat} (hwh : w * h * 32 * 2 < 2 ^ 32) (hw : w < 2 ^ 31)
    (hh : h < 2 ^ 31) {x y θ x' y' θ' : ℝ} {f f' : Bool} (h1 : OnCells w h x y)
    (h2 : OnCells w h x' y') :
    dsLookupD clamp w h x y θ f = dsLookupD clamp w h x' y' θ' f' ↔
      (∃ i j, InUnitCell i j x y ∧ InUnitCell i j x' y') ∧
      angle2index clamp 32 θ = angle2index clamp 32 θ' ∧ f = f' := by
  obtain ⟨a, e, hl, hin, hout, hinj⟩ := dsManager_exact hwh hw hh (0, 0, 0)
  obtain ⟨x0, x1, y0, y1⟩ := h1
  obtain ⟨x0', x1', y0', y1'⟩ := h2
  have calc1 : ∀ (x y θ : ℝ) (f : Bool), 0 ≤ x → x < w → 0 ≤ y → y < h →
      ∃ cx cy t : Nat, cx < w ∧ cy < h ∧ t < 32 ∧ InUnitCell cx cy x y ∧
        angle2index clamp 32 θ = .ok t ∧
        dsLookupD clamp w h x y θ f = dsIndex w h 32 cx cy t f := by
    intro x y θ f x0 x1 y0 y1
    obtain ⟨cx, hcx, a1, a2, _, _, a3⟩ := castU_cell x0 x1 hw
    obtain ⟨cy, hcy, b1, b2, _, _, b3⟩ := castU_cell y0 y1 hh
    obtain ⟨t, ht, ht2, hs⟩ := angle2index_sector hc (slots := 32) (by omega) (by omega) θ
    refine ⟨cx, cy, t, hcx, hcy, ht2, ⟨a1, a2, b1, b2⟩, ht, ?_⟩
    unfold dsLookupD
    rw [if_neg (by push Not; exact ⟨x0, y0, x1, y1⟩), a3, b3]
    show dsLookupI clamp w h cx cy θ f = _
    unfold dsLookupI
    rw [ht]
    have e3 : toI32 t = t := toI32_small (by omega)
    have ew : toI32 w = w := toI32_small (by simpa using hw)
    have eh : toI32 h = h := toI32_small (by simpa using hh)
    have e32 : toI32 32 = 32 := rfl
    simp only [CRes.ok_bind]
    rw [e3, ew, eh, e32, if_neg (by omega)]
  have uniq : ∀ (i i' : Nat) (z : ℝ), (i : ℝ) ≤ z → z < i + 1 → (i' : ℝ) ≤ z → z < i' + 1 →
      i = i' := by
    intro i i' z p q r s
    have h1 : (i : ℝ) < i' + 1 := by linarith
    have h2 : (i' : ℝ) < i + 1 := by linarith
    have h1 : i < i' + 1 := by exact_mod_cast h1
    have h2 : i' < i + 1 := by exact_mod_cast h2
    omega
  obtain ⟨cx, cy, t, p1, p2, p3, p4, p5, p6⟩ := calc1 x y θ f x0 x1 y0 y1
  obtain ⟨cx', cy', t', q1, q2, q3, q4, q5, q6⟩ := calc1 x' y' θ' f' x0' x1' y0' y1'
  obtain ⟨k, hk, _⟩ := hin cx cy t f p1 p2 p3
  obtain ⟨k', hk', _⟩ := hin cx' cy' t' f' q1 q2 q3
  rw [p6, q6, p5, q5]
  constructor
  · intro he
    rw [hk, hk'] at he
    injection he with he
    subst he
    obtain ⟨r1, r2, r3, r4⟩ := hinj _ _ _ _ _ _ _ _ _ hk hk'
    have r1 : cx = cx' := by exact_mod_cast r1
    have r2 : cy = cy' := by exact_mod_cast r2
    have r3 : t = t' := by exact_mod_cast r3
    subst r1 r2 r3
    exact ⟨⟨cx, cy, p4, q4⟩, rfl, r4⟩
  · rintro ⟨⟨i, j, r1, r2⟩, r3, r4⟩
    injection r3 with r3
    have s1 : cx = i := uniq _ _ x p4.1 p4.2.1 r1.1 r1.2.1
    have s2 : cy = j := uniq _ _ y p4.2.2.1 p4.2.2.2 r1.2.2.1 r1.2.2.2
    have s3 : cx' = i := uniq _ _ x' q4.1 q4.2.1 r2.1 r2.2.1
    have s4 : cy' = j := uniq _ _ y' q4.2.2.1 q4.2.2.2 r2.2.2.1 r2.2.2.2
    subst r3 r4 s1 s2 s3 s4
    rfl

include hc in
/-- **C91, refutation: a node is not found under its own pose.**  Looking up the pose a node was
initialised with gives the neighbouring orientation slot, for every cell and every slot but the
first. -/
theorem dsLookup_own_pose {w h : Nat} (hwh : w * h * 32 * 2 < 2 ^ 32) (hw : w < 2 ^ 31)
    (hh : h < 2 ^ 31) (junk : Nat × Nat × Nat) {x y t : Nat} {f : Bool} (hx : x < w) (hy : y < h)
    (ht : 1 ≤ t) (ht2 : t < 32) :
    ∃ a i j, dsInit w h junk = .ok a ∧ dsIndex w h 32 x y t f = .ok i ∧ a[i]? = some (x, y, t) ∧
      dsLookupRef clamp w h x y (slotTheta 32 t) f = .ok j ∧ a[j]? = some (x, y, t - 1) ∧ j ≠ i := by
  obtain ⟨a, e, hl, hin, hout, hinj⟩ := dsManager_exact hwh hw hh junk
  obtain ⟨i, hi, _, hi3⟩ := hin x y t f hx hy ht2
  obtain ⟨j, hj, _, hj3⟩ := hin x y (t - 1) f hx hy (by omega)
  refine ⟨a, i, j, e, hi, hi3, ?_, hj3, ?_⟩
  · have cx : castU (x : ℝ) = .ok x := castU_floor (le_refl _) (by linarith) (by unfold u32; omega)
    have cy : castU (y : ℝ) = .ok y := castU_floor (le_refl _) (by linarith) (by unfold u32; omega)
    have ct := angle2index_slotTheta hc (slots := 32) (by omega) (by omega) ht ht2
    unfold dsLookupRef
    rw [cx, cy, ct]
    simp only [CRes.ok_bind]
    have e1 : toI32 x = x := toI32_small (by omega)
    have e2 : toI32 y = y := toI32_small (by omega)
    have e3 : toI32 (t - 1) = ((t - 1 : Nat) : Int) := toI32_small (by omega)
    rw [e1, e2, e3, hj]
  · intro he
    subst he
    rw [hi3] at hj3
    injection hj3 with hj3
    injection hj3 with _ hj3
    injection hj3 with _ hj3
    omega

/-! ### `StateSpaceManager` -/

include hc in
/-- **C91, `StateSpaceManager`.** The same for the manager without driving direction: total on all
real coordinates. -/
theorem ssLookupD_exact {w h : Nat} (hwh : w * h * 36 < 2 ^ 32) (hw : w < 2 ^ 31) (hh : h < 2 ^ 31)
    (junk : Nat × Nat × Nat) :
    ∃ a, ssInit w h junk = .ok a ∧ a.length = w * h * 36 ∧ ∀ x y θ,
      (OnCells w h x y → ∃ i cx cy t, ssLookupD clamp w h x y θ = .ok i ∧ i < a.length ∧
        a[i]? = some (cx, cy, t) ∧ InUnitCell cx cy x y ∧ t < 36 ∧ InSector 35 t θ ∧
        ssLookupI clamp w h cx cy θ = .ok i ∧ ssLookupRef clamp w h x y θ = .ok i) ∧
      (¬ OnCells w h x y → ssLookupD clamp w h x y θ = .throw "OutsideMapException") := by
  obtain ⟨a, e, hl, hin, hout, _⟩ := ssManager_exact hwh junk
  refine ⟨a, e, hl, fun x y θ => ⟨?_, ?_⟩⟩
  · rintro ⟨x0, x1, y0, y1⟩
    obtain ⟨cx, hcx, a1, a2, a3, _, a4⟩ := castU_cell x0 x1 hw
    obtain ⟨cy, hcy, b1, b2, b3, _, b4⟩ := castU_cell y0 y1 hh
    obtain ⟨t, ht, ht2, hs⟩ := angle2index_sector hc (slots := 36) (by omega) (by omega) θ
    obtain ⟨i, hi, hi2, hi3⟩ := hin cx cy t hcx hcy ht2
    have hI : ssLookupI clamp w h cx cy θ = .ok i := by
      unfold ssLookupI
      rw [wrapI_of_lt (by omega) (by omega), wrapI_of_lt (by omega) (by omega), if_neg (by omega), ht]
      simpa using hi
    refine ⟨i, cx, cy, t, ?_, hi2, hi3, ⟨a1, a2, b1, b2⟩, ht2, hs, hI, ?_⟩
    · unfold ssLookupD
      rw [if_neg (by push Not; exact ⟨x0, y0, x1, y1⟩), a4, b4]
      exact hI
    · unfold ssLookupRef
      rw [a3, b3, ht]
      exact hi
  · intro hn
    unfold ssLookupD
    rw [if_pos]
    by_contra hc'
    push Not at hc'
    exact hn ⟨hc'.1, hc'.2.2.1, hc'.2.1, hc'.2.2.2⟩

/-- **C91, `StateSpaceManager`, `int` coordinates** off the map throw. -/
theorem ssLookupI_throws {w h : Nat} (hw : w < 2 ^ 31) (hh : h < 2 ^ 31) {x y : Int}
    (hx : -2147483648 ≤ x ∧ x < 2147483648) (hy : -2147483648 ≤ y ∧ y < 2147483648)
    (hn : ¬ (0 ≤ x ∧ x < w ∧ 0 ≤ y ∧ y < h)) (θ : ℝ) :
    ssLookupI clamp w h x y θ = .throw "OutsideMapException" := by
  unfold ssLookupI
  rw [if_pos]
  by_cases h1 : x < 0
  · exact .inl h1
  · by_cases h2 : y < 0
    · exact .inr (.inl h2)
    · rw [wrapI_of_lt (by omega) (by omega), wrapI_of_lt (by omega) (by omega)]
      omega

/-- Non-vacuity: a point on a 7 × 5 map, one off it. -/
example : (7 * 5 * 32 * 2 < 2 ^ 32) ∧ OnCells 7 5 6.5 0 ∧ ¬ OnCells 7 5 7 0 ∧
    InUnitCell 6 0 6.5 0 := by
  unfold OnCells InUnitCell
  norm_num

end PathPlanning
