import Verif.Model.Managers
import Verif.Props.GridMap
import Mathlib.Tactic.LinearCombination
import Mathlib.Data.Rat.Floor

/-!
# C18-C21: node managers
-/

namespace PathPlanning

/-! ### Initialisation loops -/

theorem initLoop_ok {κ β : Type} {ix : κ → CRes Nat} {val : κ → β} {f : κ → Nat} :
    ∀ (ks : List κ) (a : List β), (∀ k ∈ ks, ix k = .ok (f k)) → (∀ k ∈ ks, f k < a.length) →
      (∀ k ∈ ks, ∀ k' ∈ ks, f k = f k' → val k = val k') →
      ∃ a', initLoop ix val ks a = .ok a' ∧ a'.length = a.length ∧
        (∀ k ∈ ks, a'[f k]? = some (val k)) ∧
        (∀ i, (∀ k ∈ ks, f k ≠ i) → a'[i]? = a[i]?) := by
  intro ks
  induction ks with
  | nil => intro a _ _ _; exact ⟨a, rfl, rfl, by simp, by simp⟩
  | cons k ks ih =>
    intro a h1 h2 h3
    have hk : f k < a.length := h2 k (by simp)
    obtain ⟨a', e1, e2, e3, e4⟩ := ih (a.set (f k) (val k))
      (fun k' hk' => h1 k' (List.mem_cons_of_mem _ hk'))
      (fun k' hk' => by simpa using h2 k' (List.mem_cons_of_mem _ hk'))
      (fun x hx y hy => h3 x (List.mem_cons_of_mem _ hx) y (List.mem_cons_of_mem _ hy))
    refine ⟨a', ?_, by simpa using e2, ?_, ?_⟩
    · simp [initLoop, h1 k (by simp), vset, hk, e1]
    · intro k' hk'
      rcases List.mem_cons.1 hk' with rfl | hk'
      · by_cases hex : ∃ k2 ∈ ks, f k2 = f k'
        · obtain ⟨k2, m2, e⟩ := hex
          rw [← e, e3 k2 m2, h3 k2 (List.mem_cons_of_mem _ m2) k' (by simp) e]
        · rw [e4 (f k') (fun k2 m2 e => hex ⟨k2, m2, e⟩)]
          simp [hk]
      · exact e3 k' hk'
    · intro i hi
      rw [e4 i fun k2 m2 => hi k2 (List.mem_cons_of_mem _ m2)]
      rw [List.getElem?_set_ne (hi k (by simp))]

theorem mem_keys2 {w h x y : Nat} : (x, y) ∈ keys2 w h ↔ x < w ∧ y < h := by
  unfold keys2
  simp only [List.mem_flatMap, List.mem_range, List.mem_map, Prod.mk.injEq]
  constructor
  · rintro ⟨b, hb, a, ha, rfl, rfl⟩; exact ⟨ha, hb⟩
  · rintro ⟨ha, hb⟩; exact ⟨y, hb, x, ha, rfl, rfl⟩

theorem mem_keys3 {w h n x y t : Nat} : (x, y, t) ∈ keys3 w h n ↔ x < w ∧ y < h ∧ t < n := by
  unfold keys3
  simp only [List.mem_flatMap, List.mem_range, List.mem_map, Prod.mk.injEq]
  constructor
  · rintro ⟨⟨a, b⟩, hb, c, ha, rfl, rfl, rfl⟩
    have := mem_keys2.1 hb; exact ⟨this.1, this.2, ha⟩
  · rintro ⟨ha, hb, hc⟩; exact ⟨(x, y), mem_keys2.2 ⟨ha, hb⟩, t, hc, rfl, rfl, rfl⟩

theorem mem_keys4 {w h n x y t : Nat} {f : Bool} :
    (x, y, t, f) ∈ keys4 w h n ↔ x < w ∧ y < h ∧ t < n := by
  unfold keys4
  simp only [List.mem_flatMap, List.mem_cons, List.not_mem_nil, or_false, Prod.mk.injEq]
  constructor
  · rintro ⟨⟨a, b, c⟩, hb, ⟨rfl, rfl, rfl, rfl⟩ | ⟨rfl, rfl, rfl, rfl⟩⟩ <;> exact mem_keys3.1 hb
  · intro hh
    refine ⟨(x, y, t), mem_keys3.2 hh, ?_⟩
    cases f
    · exact .inl ⟨rfl, rfl, rfl, rfl⟩
    · exact .inr ⟨rfl, rfl, rfl, rfl⟩

/-- Row-major numbering is injective. -/
theorem lin_inj {w x x' y y' : Nat} (hx : x < w) (hx' : x' < w) (h : y * w + x = y' * w + x') :
    x = x' ∧ y = y' := by
  have h0 : 0 < w := by omega
  have e1 : (x + y * w) % w = x := by rw [Nat.add_mul_mod_self_right, Nat.mod_eq_of_lt hx]
  have e2 : (x' + y' * w) % w = x' := by rw [Nat.add_mul_mod_self_right, Nat.mod_eq_of_lt hx']
  have e3 : (x + y * w) / w = y := by
    rw [Nat.add_mul_div_right _ _ h0, Nat.div_eq_of_lt hx, zero_add]
  have e4 : (x' + y' * w) / w = y' := by
    rw [Nat.add_mul_div_right _ _ h0, Nat.div_eq_of_lt hx', zero_add]
  have h' : x + y * w = x' + y' * w := by omega
  rw [h'] at e1 e3
  exact ⟨e1.symm.trans e2, e3.symm.trans e4⟩

theorem lin_lt {w h x y : Nat} (hx : x < w) (hy : y < h) : y * w + x < w * h := by
  have : (y + 1) * w ≤ h * w := Nat.mul_le_mul_right w hy
  have e : (y + 1) * w = y * w + w := by ring
  have e2 : h * w = w * h := mul_comm _ _
  omega

theorem wrapU_lt {n : Nat} (h : n < 2 ^ 32) : wrapU n = n := Nat.mod_eq_of_lt h

/-! ### C18 -/

/-- The manager set up for a `w` x `h` map: one node per cell, carrying the coordinates of that
cell. -/
theorem gmgr_setMap {w h : Nat} (hwh : w * h < 2 ^ 32) (junk : Nat × Nat) :
    ∃ g, GMgr.setMap w h junk = .ok g ∧ g.w = w ∧ g.h = h ∧ g.data.length = w * h ∧
      ∀ x y, x < w → y < h → g.data[GMgr.index w x y]? = some (x, y) := by
  have hidx : ∀ x y, x < w → y < h → GMgr.index w x y = y * w + x := fun x y hx hy =>
    wrapU_lt (lt_trans (lin_lt hx hy) hwh)
  obtain ⟨a', e1, e2, e3, _⟩ := initLoop_ok (ix := fun k : Nat × Nat => .ok (GMgr.index w k.1 k.2))
    (val := fun k => k) (f := fun k : Nat × Nat => GMgr.index w k.1 k.2) (keys2 w h)
    (List.replicate (wrapU (w * h)) junk) (fun _ _ => rfl)
    (by
      rintro ⟨x, y⟩ hk
      obtain ⟨hx, hy⟩ := mem_keys2.1 hk
      rw [hidx x y hx hy, List.length_replicate, wrapU_lt hwh]
      exact lin_lt hx hy)
    (by
      rintro ⟨x, y⟩ hk ⟨x', y'⟩ hk' he
      obtain ⟨hx, hy⟩ := mem_keys2.1 hk
      obtain ⟨hx', hy'⟩ := mem_keys2.1 hk'
      simp only at he
      rw [hidx x y hx hy, hidx x' y' hx' hy'] at he
      obtain ⟨rfl, rfl⟩ := lin_inj hx hx' he
      rfl)
  refine ⟨⟨w, h, a'⟩, ?_, rfl, rfl, ?_, fun x y hx hy => e3 (x, y) (mem_keys2.2 ⟨hx, hy⟩)⟩
  · simp [GMgr.setMap, e1]
  · rw [e2, List.length_replicate, wrapU_lt hwh]

/-- **C18.** `lookup(int,int)`: for in-map cells a node is returned that carries exactly the
requested coordinates, and different cells get different nodes; for all other pairs of ints
`OutsideMapException` is thrown; this happens exactly when `contains` is false. -/
theorem gmgr_lookup_exact {w h : Nat} (hwh : w * h < 2 ^ 32) (hw : w < 2 ^ 31) (hh : h < 2 ^ 31)
    (junk : Nat × Nat) : ∃ g, GMgr.setMap w h junk = .ok g ∧
      (∀ x y : Int, g.contains x y = true ↔ 0 ≤ x ∧ x < w ∧ 0 ≤ y ∧ y < h) ∧
      (∀ x y : Int, g.contains x y = true →
        ∃ i, g.lookup x y = .ok i ∧ g.data[i]? = some (x.toNat, y.toNat)) ∧
      (∀ x y x' y' : Int, ∀ i, g.lookup x y = .ok i → g.lookup x' y' = .ok i → x = x' ∧ y = y') ∧
      (∀ x y : Int, g.contains x y = false → g.lookup x y = .throw "OutsideMapException") := by
  obtain ⟨g, e, rfl, rfl, e4, e5⟩ := gmgr_setMap hwh junk
  have hc : ∀ x y : Int, g.contains x y = true ↔ 0 ≤ x ∧ x < g.w ∧ 0 ≤ y ∧ y < g.h := by
    intro x y
    rw [GMgr.contains, toI32_small (by simpa using hw), toI32_small (by simpa using hh)]
    simp; omega
  have hl : ∀ x y : Int, g.contains x y = true →
      g.lookup x y = .ok (GMgr.index g.w x.toNat y.toNat) ∧
      g.data[GMgr.index g.w x.toNat y.toNat]? = some (x.toNat, y.toNat) := by
    intro x y h
    obtain ⟨h1, h2, h3, h4⟩ := (hc x y).1 h
    refine ⟨?_, e5 _ _ (by omega) (by omega)⟩
    unfold GMgr.lookup
    rw [if_neg, wrapI_of_lt h1 (by omega), wrapI_of_lt h3 (by omega)]
    rw [toI32_small (by simpa using hw), toI32_small (by simpa using hh)]; omega
  have ht : ∀ x y : Int, g.contains x y = false → g.lookup x y = .throw "OutsideMapException" := by
    intro x y h
    have hn : ¬ (0 ≤ x ∧ x < g.w ∧ 0 ≤ y ∧ y < g.h) := fun hh => by
      have := (hc x y).2 hh; rw [h] at this; cases this
    unfold GMgr.lookup
    rw [if_pos]
    rw [toI32_small (by simpa using hw), toI32_small (by simpa using hh)]; omega
  refine ⟨g, e, hc, fun x y h => ⟨_, hl x y h⟩, ?_, ht⟩
  intro x y x' y' i h1 h2
  have c1 : g.contains x y = true := by
    by_contra hn; rw [ht x y (by simpa using hn)] at h1; cases h1
  have c2 : g.contains x' y' = true := by
    by_contra hn; rw [ht x' y' (by simpa using hn)] at h2; cases h2
  obtain ⟨a1, a2⟩ := hl x y c1
  obtain ⟨b1, b2⟩ := hl x' y' c2
  rw [a1] at h1; rw [b1] at h2
  injection h1 with h1; injection h2 with h2
  rw [h1] at a2; rw [h2] at b2
  rw [a2] at b2
  injection b2 with b2
  obtain ⟨b3, b4⟩ := Prod.mk.inj b2
  have := (hc x y).1 c1; have := (hc x' y').1 c2
  omega

section
variable {K : Type} [Field K] [LinearOrder K] [IsStrictOrderedRing K] [FloorRing K]

theorem floorI_ok {d : K} (h1 : -2147483648 ≤ d) (h2 : d < 2147483648) :
    GMgr.floorI d = .ok ⌊d⌋ := by
  unfold GMgr.floorI
  rw [if_pos]
  refine ⟨by rw [Int.le_floor]; push_cast; linarith, by rw [Int.floor_lt]; push_cast; linarith⟩

/-- **C18, doubles.** `lookup(double,double)` agrees with `lookup(int,int)` of the floors, for all
coordinates whose floor is an `int` (negative ones throw, as the integer version does). -/
theorem gmgr_lookupD_eq (g : GMgr) (x y : K) (hx1 : -2147483648 ≤ x) (hx2 : x < 2147483648)
    (hy1 : -2147483648 ≤ y) (hy2 : y < 2147483648) :
    g.lookupD x y = g.lookup ⌊x⌋ ⌊y⌋ := by
  unfold GMgr.lookupD
  by_cases h : x < 0 ∨ y < 0
  · rw [if_pos h]
    unfold GMgr.lookup
    rw [if_pos]
    rcases h with h | h
    · exact .inl (Int.floor_lt.2 (by simpa using h))
    · exact .inr (.inl (Int.floor_lt.2 (by simpa using h)))
  · rw [if_neg h, floorI_ok hx1 hx2, floorI_ok hy1 hy2]; rfl

/-- **C18, template overload.** `lookup(point)` agrees with the floors for non-negative
coordinates ... -/
theorem gmgr_lookupRef_eq (g : GMgr) (hw : g.w < 2 ^ 31) (hh : g.h < 2 ^ 31) (x y : K) (hx : 0 ≤ x)
    (hy : 0 ≤ y) (hx2 : x < 2147483648) (hy2 : y < 2147483648) :
    g.lookupRef x y = g.lookup ⌊x⌋ ⌊y⌋ := by
  have fx : 0 ≤ ⌊x⌋ := Int.floor_nonneg.2 hx
  have fy : 0 ≤ ⌊y⌋ := Int.floor_nonneg.2 hy
  have gx : ⌊x⌋ < 2147483648 := by rw [Int.floor_lt]; push_cast; linarith
  have gy : ⌊y⌋ < 2147483648 := by rw [Int.floor_lt]; push_cast; linarith
  have cx : castU x = .ok ⌊x⌋.toNat := by
    unfold castU; rw [truncC_nonneg hx, if_pos ⟨fx, by omega⟩]
  have cy : castU y = .ok ⌊y⌋.toNat := by
    unfold castU; rw [truncC_nonneg hy, if_pos ⟨fy, by omega⟩]
  unfold GMgr.lookupRef GMgr.lookup
  rw [cx, cy, toI32_small (by simpa using hw), toI32_small (by simpa using hh),
    wrapI_of_lt fx (by omega), wrapI_of_lt fy (by omega)]
  simp only [CRes.ok_bind]
  by_cases h : g.w ≤ ⌊x⌋.toNat ∨ g.h ≤ ⌊y⌋.toNat
  · rw [if_pos h, if_pos (by omega)]
  · rw [if_neg h, if_neg (by omega)]

/-- ... but a point up to one cell left of the map is silently given the node of column 0 (the
other two overloads throw), and further left the conversion is undefined behaviour. -/
theorem gmgr_lookupRef_off_map (g : GMgr) (x : K) (y : Nat) (hy : y < g.h) (hw : 0 < g.w)
    (hh : g.h < 2 ^ 31) (hx : x < 0) :
    (-1 < x → g.lookupRef x (y : K) = .ok (GMgr.index g.w 0 y)) ∧
    (x ≤ -1 → g.lookupRef x (y : K) = .ub) ∧
    g.lookupD x (y : K) = .throw "OutsideMapException" := by
  have cy : castU (y : K) = .ok y := castU_floor (le_refl _) (by linarith) (by unfold u32; omega)
  refine ⟨fun h => ?_, fun h => ?_, ?_⟩
  · have cx : castU x = .ok 0 := by
      unfold castU; rw [truncC_eq_zero h (by linarith)]; simp
    unfold GMgr.lookupRef
    rw [cx, cy]
    simp only [CRes.ok_bind]
    rw [if_neg (by omega)]
  · have cx : castU x = .ub := by
      have := truncC_neg h
      unfold castU; rw [if_neg (by omega)]
    unfold GMgr.lookupRef
    rw [cx, cy]; rfl
  · unfold GMgr.lookupD; rw [if_pos (.inl hx)]

end

example : ∃ g, GMgr.setMap 3 2 (9, 9) = .ok g ∧ g.lookup 2 1 = .ok 5 ∧
    g.data[5]? = some (2, 1) ∧ g.lookup 3 0 = .throw "OutsideMapException" ∧
    g.lookup (-1) 0 = .throw "OutsideMapException" ∧
    g.lookupRef (-1 / 2 : ℚ) 1 = .ok 3 := by
  refine ⟨⟨3, 2, [(0, 0), (1, 0), (2, 0), (0, 1), (1, 1), (2, 1)]⟩, by decide, by decide, rfl,
    by decide, by decide, by decide +kernel⟩

/-! ### C19 -/

theorem lin3_lt {w h n x y t : Nat} (hx : x < w) (hy : y < h) (ht : t < n) :
    y * w + x + t * w * h < w * h * n := by
  have h1 := lin_lt hx hy
  have h2 : t * (w * h) + (y * w + x) < (w * h) * n := lin_lt h1 ht
  have e : t * (w * h) = t * w * h := by ring
  omega

theorem lin3_inj {w h x y t x' y' t' : Nat} (hx : x < w) (hy : y < h) (hx' : x' < w)
    (hy' : y' < h) (e : y * w + x + t * w * h = y' * w + x' + t' * w * h) :
    x = x' ∧ y = y' ∧ t = t' := by
  have e1 : t * (w * h) + (y * w + x) = t' * (w * h) + (y' * w + x') := by
    have a : t * (w * h) = t * w * h := by ring
    have b : t' * (w * h) = t' * w * h := by ring
    omega
  obtain ⟨h1, h2⟩ := lin_inj (lin_lt hx hy) (lin_lt hx' hy') e1
  obtain ⟨h3, h4⟩ := lin_inj hx hx' h1
  exact ⟨h3, h4, h2⟩

/-- **C19, `StateSpaceManager`.** Every state of an in-map cell gets an index inside the
allocation; the node there carries exactly that cell and slot; different states get different
indices; everything else throws. -/
theorem ssManager_exact {w h : Nat} (hwh : w * h * 36 < 2 ^ 32) (junk : Nat × Nat × Nat) :
    ∃ a, ssInit w h junk = .ok a ∧ a.length = w * h * 36 ∧
      (∀ x y t, x < w → y < h → t < 36 → ∃ i, ssIndex w h 36 x y t = .ok i ∧
        i < a.length ∧ a[i]? = some (x, y, t)) ∧
      (∀ x y t, ¬ (x < w ∧ y < h ∧ t < 36) → ssIndex w h 36 x y t = .throw "OutsideMapException") ∧
      (∀ x y t x' y' t' i, ssIndex w h 36 x y t = .ok i → ssIndex w h 36 x' y' t' = .ok i →
        x = x' ∧ y = y' ∧ t = t') := by
  have hix : ∀ x y t, x < w → y < h → t < 36 →
      ssIndex w h 36 x y t = .ok (y * w + x + t * w * h) := by
    intro x y t hx hy ht
    unfold ssIndex
    rw [if_neg (by omega), wrapU_lt (lt_trans (lin3_lt hx hy ht) hwh)]
  have hth : ∀ x y t, ¬ (x < w ∧ y < h ∧ t < 36) →
      ssIndex w h 36 x y t = .throw "OutsideMapException" := by
    intro x y t hn
    unfold ssIndex; rw [if_pos (by omega)]
  obtain ⟨a', e1, e2, e3, _⟩ := initLoop_ok
    (ix := fun k : Nat × Nat × Nat => ssIndex w h 36 k.1 k.2.1 k.2.2)
    (val := fun k => k) (f := fun k : Nat × Nat × Nat => k.2.1 * w + k.1 + k.2.2 * w * h)
    (keys3 w h 36) (List.replicate (wrapU (w * h * 36)) junk)
    (by
      rintro ⟨x, y, t⟩ hk
      obtain ⟨hx, hy, ht⟩ := mem_keys3.1 hk
      exact hix x y t hx hy ht)
    (by
      rintro ⟨x, y, t⟩ hk
      obtain ⟨hx, hy, ht⟩ := mem_keys3.1 hk
      rw [List.length_replicate, wrapU_lt hwh]
      exact lin3_lt hx hy ht)
    (by
      rintro ⟨x, y, t⟩ hk ⟨x', y', t'⟩ hk' he
      obtain ⟨hx, hy, ht⟩ := mem_keys3.1 hk
      obtain ⟨hx', hy', ht'⟩ := mem_keys3.1 hk'
      obtain ⟨rfl, rfl, rfl⟩ := lin3_inj hx hy hx' hy' he
      rfl)
  have hlen : a'.length = w * h * 36 := by rw [e2, List.length_replicate, wrapU_lt hwh]
  refine ⟨a', e1, hlen, ?_, hth, ?_⟩
  · intro x y t hx hy ht
    exact ⟨_, hix x y t hx hy ht, by rw [hlen]; exact lin3_lt hx hy ht,
      e3 (x, y, t) (mem_keys3.2 ⟨hx, hy, ht⟩)⟩
  · intro x y t x' y' t' i h1 h2
    have c1 : x < w ∧ y < h ∧ t < 36 := by
      by_contra hn; rw [hth x y t hn] at h1; cases h1
    have c2 : x' < w ∧ y' < h ∧ t' < 36 := by
      by_contra hn; rw [hth x' y' t' hn] at h2; cases h2
    rw [hix x y t c1.1 c1.2.1 c1.2.2] at h1
    rw [hix x' y' t' c2.1 c2.2.1 c2.2.2] at h2
    injection h1 with h1; injection h2 with h2
    exact lin3_inj c1.1 c1.2.1 c2.1 c2.2.1 (h1.trans h2.symm)

/-- **C19, `DirectionalStateSpaceManager`.** The same with the driving direction as part of the
state (32 slots, two directions). -/
theorem dsManager_exact {w h : Nat} (hwh : w * h * 32 * 2 < 2 ^ 32) (hw : w < 2 ^ 31)
    (hh : h < 2 ^ 31) (junk : Nat × Nat × Nat) :
    ∃ a, dsInit w h junk = .ok a ∧ a.length = 2 * (w * h * 32) ∧
      (∀ (x y t : Nat) (f : Bool), x < w → y < h → t < 32 → ∃ i, dsIndex w h 32 x y t f = .ok i ∧
        i < a.length ∧ a[i]? = some (x, y, t)) ∧
      (∀ (x y t : Int) (f : Bool), ¬ (0 ≤ x ∧ x < w ∧ 0 ≤ y ∧ y < h ∧ 0 ≤ t ∧ t < 32) →
        dsIndex w h 32 x y t f = .throw "OutsideMapException") ∧
      (∀ (x y t x' y' t' : Int) (f f' : Bool) i, dsIndex w h 32 x y t f = .ok i →
        dsIndex w h 32 x' y' t' f' = .ok i → x = x' ∧ y = y' ∧ t = t' ∧ f = f') := by
  have tw : toI32 w = w := toI32_small (by simpa using hw)
  have th : toI32 h = h := toI32_small (by simpa using hh)
  have t32 : toI32 32 = 32 := rfl
  have hD : w * h * 32 < 2 ^ 32 := by omega
  have hix : ∀ (x y t : Nat) (f : Bool), x < w → y < h → t < 32 →
      dsIndex w h 32 x y t f =
        .ok (y * w + x + t * w * h + (if f then 0 else w * h * 32)) := by
    intro x y t f hx hy ht
    unfold dsIndex
    rw [tw, th, t32, if_neg (by omega), wrapU_lt hD]
    have := lin3_lt hx hy ht
    simp only [Int.toNat_natCast]
    rw [wrapU_lt]
    split <;> omega
  have hth : ∀ (x y t : Int) (f : Bool), ¬ (0 ≤ x ∧ x < w ∧ 0 ≤ y ∧ y < h ∧ 0 ≤ t ∧ t < 32) →
      dsIndex w h 32 x y t f = .throw "OutsideMapException" := by
    intro x y t f hn
    unfold dsIndex; rw [tw, th, t32, if_pos (by omega)]
  have hinj : ∀ (x y t x' y' t' : Nat) (f f' : Bool), x < w → y < h → t < 32 → x' < w → y' < h →
      t' < 32 → y * w + x + t * w * h + (if f then 0 else w * h * 32) =
        y' * w + x' + t' * w * h + (if f' then 0 else w * h * 32) →
      x = x' ∧ y = y' ∧ t = t' ∧ f = f' := by
    intro x y t x' y' t' f f' hx hy ht hx' hy' ht' he
    have l1 := lin3_lt hx hy ht
    have l2 := lin3_lt hx' hy' ht'
    cases f <;> cases f' <;> simp only [Bool.false_eq_true, if_false, if_true] at he
    · obtain ⟨a, b, c⟩ := lin3_inj (t := t) (t' := t') hx hy hx' hy' (by omega); exact ⟨a, b, c, rfl⟩
    · omega
    · omega
    · obtain ⟨a, b, c⟩ := lin3_inj (t := t) (t' := t') hx hy hx' hy' (by omega); exact ⟨a, b, c, rfl⟩
  have hwr : wrapU (2 * wrapU (w * h * 32)) = 2 * (w * h * 32) := by
    rw [wrapU_lt hD, wrapU_lt (by omega)]
  obtain ⟨a', e1, e2, e3, _⟩ := initLoop_ok
    (ix := fun k : Nat × Nat × Nat × Bool => dsIndex w h 32 k.1 k.2.1 k.2.2.1 k.2.2.2)
    (val := fun k => (k.1, k.2.1, k.2.2.1))
    (f := fun k : Nat × Nat × Nat × Bool =>
      k.2.1 * w + k.1 + k.2.2.1 * w * h + (if k.2.2.2 then 0 else w * h * 32))
    (keys4 w h 32) (List.replicate (wrapU (2 * wrapU (w * h * 32))) junk)
    (by
      rintro ⟨x, y, t, f⟩ hk
      obtain ⟨hx, hy, ht⟩ := mem_keys4.1 hk
      exact hix x y t f hx hy ht)
    (by
      rintro ⟨x, y, t, f⟩ hk
      obtain ⟨hx, hy, ht⟩ := mem_keys4.1 hk
      rw [List.length_replicate, hwr]
      have := lin3_lt hx hy ht
      simp only
      split <;> omega)
    (by
      rintro ⟨x, y, t, f⟩ hk ⟨x', y', t', f'⟩ hk' he
      obtain ⟨hx, hy, ht⟩ := mem_keys4.1 hk
      obtain ⟨hx', hy', ht'⟩ := mem_keys4.1 hk'
      obtain ⟨rfl, rfl, rfl, rfl⟩ := hinj x y t x' y' t' f f' hx hy ht hx' hy' ht' he
      rfl)
  have hlen : a'.length = 2 * (w * h * 32) := by rw [e2, List.length_replicate, hwr]
  refine ⟨a', e1, hlen, ?_, hth, ?_⟩
  · intro x y t f hx hy ht
    refine ⟨_, hix x y t f hx hy ht, ?_, e3 (x, y, t, f) (mem_keys4.2 ⟨hx, hy, ht⟩)⟩
    rw [hlen]
    have := lin3_lt hx hy ht
    split <;> omega
  · intro x y t x' y' t' f f' i h1 h2
    have c1 : 0 ≤ x ∧ x < w ∧ 0 ≤ y ∧ y < h ∧ 0 ≤ t ∧ t < 32 := by
      by_contra hn; rw [hth x y t f hn] at h1; cases h1
    have c2 : 0 ≤ x' ∧ x' < w ∧ 0 ≤ y' ∧ y' < h ∧ 0 ≤ t' ∧ t' < 32 := by
      by_contra hn; rw [hth x' y' t' f' hn] at h2; cases h2
    lift x to Nat using c1.1
    lift y to Nat using c1.2.2.1
    lift t to Nat using c1.2.2.2.2.1
    lift x' to Nat using c2.1
    lift y' to Nat using c2.2.2.1
    lift t' to Nat using c2.2.2.2.2.1
    rw [hix x y t f (by omega) (by omega) (by omega)] at h1
    rw [hix x' y' t' f' (by omega) (by omega) (by omega)] at h2
    injection h1 with h1; injection h2 with h2
    obtain ⟨a, b, c, d⟩ := hinj x y t x' y' t' f f' (by omega) (by omega) (by omega) (by omega)
      (by omega) (by omega) (h1.trans h2.symm)
    subst a b c d
    simp

/-- Non-vacuity: a 7 x 5 map satisfies the size conditions. -/
example : (7 * 5 * 36 < 2 ^ 32) ∧ 7 * 5 * 32 * 2 < 2 ^ 32 ∧
    dsIndex 7 5 32 3 2 1 false = .ok (2 * 7 + 3 + 1 * 7 * 5 + 7 * 5 * 32) := by decide

/-! ### C20 -/

section angle
variable {clamp : ℝ → ℝ} (hc : ClampSpec clamp)
include hc

theorem clamp_ratio (t : ℝ) : 0 ≤ (clamp t + Real.pi) / (2 * Real.pi) ∧
    (clamp t + Real.pi) / (2 * Real.pi) ≤ 1 := by
  have hp := Real.pi_pos
  have h1 := hc.lo t
  have h2 := hc.hi t
  constructor
  · apply div_nonneg <;> linarith
  · rw [div_le_one (by linarith)]; linarith

/-- Which slot an angle gets: the circle is cut into `slots - 1` (not `slots`) equal sectors. -/
theorem angle2index_iff {slots : Nat} (h1 : 1 < slots) (h2 : slots < 2 ^ 32) (theta : ℝ) (t : Nat) :
    angle2index clamp slots theta = .ok t ↔
      -Real.pi + 2 * Real.pi / ((slots - 1 : Nat) : ℝ) * t ≤ clamp theta ∧
      clamp theta < -Real.pi + 2 * Real.pi / ((slots - 1 : Nat) : ℝ) * (t + 1) := by
  have hp := Real.pi_pos
  obtain ⟨r0, r1⟩ := clamp_ratio hc theta
  have hs : (0 : ℝ) < ((slots - 1 : Nat) : ℝ) := by
    have : 0 < slots - 1 := by omega
    exact_mod_cast this
  have hq0 : 0 ≤ (clamp theta + Real.pi) / (2 * Real.pi) * ((slots - 1 : Nat) : ℝ) :=
    mul_nonneg r0 hs.le
  have hq1 : (clamp theta + Real.pi) / (2 * Real.pi) * ((slots - 1 : Nat) : ℝ) ≤
      ((slots - 1 : Nat) : ℝ) := by nlinarith
  have hfl : ⌊(clamp theta + Real.pi) / (2 * Real.pi) * ((slots - 1 : Nat) : ℝ)⌋ ≤
      ((slots - 1 : Nat) : Int) := by
    have := (Int.floor_le _).trans hq1
    exact_mod_cast this
  have hf0 := Int.floor_nonneg.2 hq0
  have e : angle2index clamp slots theta =
      .ok ⌊(clamp theta + Real.pi) / (2 * Real.pi) * ((slots - 1 : Nat) : ℝ)⌋.toNat := by
    unfold angle2index castU
    rw [truncC_nonneg hq0, if_pos ⟨hf0, by omega⟩]
  rw [e]
  have key : ⌊(clamp theta + Real.pi) / (2 * Real.pi) * ((slots - 1 : Nat) : ℝ)⌋ = (t : Int) ↔
      (-Real.pi + 2 * Real.pi / ((slots - 1 : Nat) : ℝ) * t ≤ clamp theta ∧
      clamp theta < -Real.pi + 2 * Real.pi / ((slots - 1 : Nat) : ℝ) * (t + 1)) := by
    rw [Int.floor_eq_iff]
    push_cast
    have a1 : (clamp theta + Real.pi) / (2 * Real.pi) * ((slots - 1 : Nat) : ℝ) =
        (clamp theta + Real.pi) / (2 * Real.pi / ((slots - 1 : Nat) : ℝ)) := by
      field_simp
    have hd : 0 < 2 * Real.pi / ((slots - 1 : Nat) : ℝ) := by positivity
    push_cast at a1 hd ⊢
    rw [a1, le_div_iff₀ hd, div_lt_iff₀ hd]
    constructor
    · rintro ⟨x, y⟩; exact ⟨by linarith, by linarith⟩
    · rintro ⟨x, y⟩; exact ⟨by linarith, by linarith⟩
  rw [← key]
  constructor
  · intro h; injection h with h; omega
  · intro h; rw [h]; simp

/-- **C20, range.** Every angle gets a slot in range. -/
theorem angle2index_in_range {slots : Nat} (h1 : 1 < slots) (h2 : slots < 2 ^ 32) (theta : ℝ) :
    ∃ t, angle2index clamp slots theta = .ok t ∧ t < slots ∧
      (t = slots - 1 → clamp theta = Real.pi) := by
  have hp := Real.pi_pos
  obtain ⟨r0, r1⟩ := clamp_ratio hc theta
  have hs : (0 : ℝ) < ((slots - 1 : Nat) : ℝ) := by
    have : 0 < slots - 1 := by omega
    exact_mod_cast this
  have hq0 : 0 ≤ (clamp theta + Real.pi) / (2 * Real.pi) * ((slots - 1 : Nat) : ℝ) :=
    mul_nonneg r0 hs.le
  have hq1 : (clamp theta + Real.pi) / (2 * Real.pi) * ((slots - 1 : Nat) : ℝ) ≤
      ((slots - 1 : Nat) : ℝ) := by nlinarith
  have hfl : ⌊(clamp theta + Real.pi) / (2 * Real.pi) * ((slots - 1 : Nat) : ℝ)⌋ ≤
      ((slots - 1 : Nat) : Int) := by
    have := (Int.floor_le _).trans hq1
    exact_mod_cast this
  have hf0 := Int.floor_nonneg.2 hq0
  refine ⟨_, by unfold angle2index castU; rw [truncC_nonneg hq0, if_pos ⟨hf0, by omega⟩],
    by omega, ?_⟩
  intro ht
  have : ((slots - 1 : Nat) : Int) ≤
      ⌊(clamp theta + Real.pi) / (2 * Real.pi) * ((slots - 1 : Nat) : ℝ)⌋ := by omega
  rw [Int.le_floor] at this
  have h3 : (1 : ℝ) ≤ (clamp theta + Real.pi) / (2 * Real.pi) := by
    by_contra hn
    have hn := not_le.1 hn
    have : ((slots - 1 : Nat) : ℝ) ≤
      (clamp theta + Real.pi) / (2 * Real.pi) * ((slots - 1 : Nat) : ℝ) := by exact_mod_cast this
    nlinarith
  rw [le_div_iff₀ (by linarith)] at h3
  exact le_antisymm (hc.hi theta) (by linarith)

/-- **C20, the last slot is wasted**: no angle is ever put into the last slot, unless the external
clamp returns `π` itself. -/
theorem angle2index_last_unused {slots : Nat} (h1 : 1 < slots) (h2 : slots < 2 ^ 32)
    (hpi : ∀ t, clamp t ≠ Real.pi) (theta : ℝ) :
    angle2index clamp slots theta ≠ .ok (slots - 1) := by
  obtain ⟨t, e, _, h3⟩ := angle2index_in_range hc h1 h2 theta
  rw [e]
  intro h
  injection h with h
  exact hpi theta (h3 h)

theorem clamp_of_mem {t : ℝ} (h1 : -Real.pi < t) (h2 : t < Real.pi) : clamp t = t := by
  have hp := Real.pi_pos
  obtain ⟨k, hk⟩ := hc.mod t
  have a := hc.lo t
  have b := hc.hi t
  have k0 : k = 0 := by
    by_contra hne
    rcases lt_or_gt_of_ne hne with hlt | hgt
    · have : (k : ℝ) ≤ -1 := by exact_mod_cast (by omega : k ≤ -1)
      nlinarith
    · have : (1 : ℝ) ≤ k := by exact_mod_cast hgt
      nlinarith
  rw [hk, k0]; simp

/-- **C20, consistency: false of the code.**  Looking up the orientation stored in the node of slot
`t` gives slot `t - 1`, for every slot `t >= 1`. -/
theorem angle2index_slotTheta {slots t : Nat} (h1 : 1 < slots) (h2 : slots < 2 ^ 32) (ht : 1 ≤ t)
    (hts : t < slots) : angle2index clamp slots (slotTheta slots t) = .ok (t - 1) := by
  have hp := Real.pi_pos
  have hs1 : (0 : ℝ) < slots := by exact_mod_cast (by omega : 0 < slots)
  have htR : (1 : ℝ) ≤ t := by exact_mod_cast ht
  have hts' : (t : ℝ) + 1 ≤ slots := by exact_mod_cast hts
  have hsm : ((slots - 1 : Nat) : ℝ) = slots - 1 := by
    rw [Nat.cast_sub (by omega)]; simp
  have htm : ((t - 1 : Nat) : ℝ) = t - 1 := by rw [Nat.cast_sub ht]; simp
  have hs : (0 : ℝ) < (slots : ℝ) - 1 := by
    have : (1 : ℝ) < slots := by exact_mod_cast h1
    linarith
  have ex : slotTheta slots t = -Real.pi + 2 * Real.pi * (t / slots) := by
    unfold slotTheta; field_simp; ring
  have f0 : 0 < (t : ℝ) / slots := by positivity
  have f1 : (t : ℝ) / slots < 1 := by rw [div_lt_one hs1]; linarith
  have hcl : clamp (slotTheta slots t) = slotTheta slots t := by
    apply clamp_of_mem hc <;> rw [ex] <;> nlinarith
  rw [angle2index_iff hc h1 h2, hcl, ex, hsm, htm]
  constructor
  · have : ((t : ℝ) - 1) / (slots - 1) ≤ t / slots := by
      rw [div_le_div_iff₀ hs hs1]; nlinarith
    have e2 : 2 * Real.pi / ((slots : ℝ) - 1) * ((t : ℝ) - 1) =
      2 * Real.pi * (((t : ℝ) - 1) / (slots - 1)) := by ring
    rw [e2]; nlinarith
  · have : (t : ℝ) / slots < ((t : ℝ)) / (slots - 1) := by
      rw [div_lt_div_iff₀ hs1 hs]; nlinarith
    have e2 : 2 * Real.pi / ((slots : ℝ) - 1) * ((t : ℝ) - 1 + 1) =
      2 * Real.pi * ((t : ℝ) / (slots - 1)) := by ring
    rw [e2]; nlinarith

/-- **C20 (partial).** What holds: the slot is the same for equivalent angles (if the clamp is
canonical), and angles in one slot differ by less than one sector. -/
theorem angle2index_close_partial {slots : Nat} (h1 : 1 < slots) (h2 : slots < 2 ^ 32)
    (a b : ℝ) (t : Nat) (ha : angle2index clamp slots a = .ok t)
    (hb : angle2index clamp slots b = .ok t) :
    |clamp a - clamp b| < 2 * Real.pi / ((slots - 1 : Nat) : ℝ) := by
  rw [angle2index_iff hc h1 h2] at ha hb
  rw [abs_lt]; constructor <;> linarith [ha.1, ha.2, hb.1, hb.2]

end angle

end PathPlanning
