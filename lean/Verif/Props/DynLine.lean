import Verif.Model.DynLine
import Verif.Props.Bresenham

/-!
# C57: line checks of the dynamic state manager
-/

namespace PathPlanning

open Spec

variable {K : Type}

/-- Moving a line by a vector. -/
def Bres.shift (b : Bres K) (c d : Int) : Bres K :=
  { b with x0 := b.x0 + c, y0 := b.y0 + d, x1 := b.x1 + c, y1 := b.y1 + d, x := b.x + c,
           y := b.y + d }

theorem Bres.next_shift (b : Bres K) (c d : Int) :
    (b.shift c d).next = (b.next.1, b.next.2.shift c d) := by
  unfold Bres.next
  have h : ((b.shift c d).x = (b.shift c d).x1 ∧ (b.shift c d).y = (b.shift c d).y1) ↔
      (b.x = b.x1 ∧ b.y = b.y1) := by simp [Bres.shift]
  by_cases hh : b.x = b.x1 ∧ b.y = b.y1
  · rw [if_pos (h.2 hh), if_pos hh]
  · rw [if_neg (fun q => hh (h.1 q)), if_neg hh]
    by_cases h1 : 2 * b.err > b.dy
    · by_cases h2 : 2 * b.err < b.dx
      · simp [Bres.shift, h1, h2, add_right_comm]
      · simp [Bres.shift, h1, h2, add_right_comm]
    · by_cases h2 : 2 * b.err < b.dx
      · simp [Bres.shift, h1, h2, add_right_comm]
      · simp [Bres.shift, h1, h2]

theorem Bres.after_shift (b : Bres K) (c d : Int) (k : Nat) :
    (b.shift c d).after k = (b.after k).shift c d := by
  induction k with
  | zero => rfl
  | succ k ih => rw [Bres.after_succ, ih, Bres.next_shift, Bres.after_succ]

theorem Bres.start_shift (m : GridMap K) (x0 y0 x1 y1 c d : Int) :
    Bres.start m (x0 + c) (y0 + d) (x1 + c) (y1 + d) = (Bres.start m x0 y0 x1 y1).shift c d := by
  simp [Bres.start, Bres.shift]

theorem lineLength_shift (x0 y0 x1 y1 c d : Int) :
    lineLength (x0 + c) (y0 + d) (x1 + c) (y1 + d) = lineLength x0 y0 x1 y1 := by
  simp [lineLength]

/-- The `l`-th cell of the digital line from `(x0,y0)` to `(x1,y1)`. -/
def lineCell (m : GridMap K) (x0 y0 x1 y1 : Int) (l : Nat) : Int × Int :=
  ((Bres.start m x0 y0 x1 y1).after l).cell

/-- The scan finds a hit iff one of the tested cells is a hit; tested are the cells
`1, 1 + (skips+1), 1 + 2 (skips+1), ...` of the line. -/
theorem dynScan_eq {m : GridMap K} {x0 y0 x1 y1 : Int} (hit : Int → Int → CRes Bool)
    (htot : ∀ x y, ∃ r, hit x y = .ok r) (skips : Nat) (fuel : Nat) :
    ∀ k : Nat, k ≤ lineLength x0 y0 x1 y1 → lineLength x0 y0 x1 y1 - k < fuel →
    ∃ r, dynScan hit skips fuel ((k % (skips + 1) : Nat) : Int)
        ((Bres.start m (x0 + 32) (y0 + 32) (x1 + 32) (y1 + 32)).after k) = .ok (some r) ∧
      (r = true ↔ ∃ l, k < l ∧ l ≤ lineLength x0 y0 x1 y1 ∧ (l - 1) % (skips + 1) = 0 ∧
        hit (lineCell m x0 y0 x1 y1 l).1 (lineCell m x0 y0 x1 y1 l).2 = .ok true) := by
  have hl := Bres.len_cast x0 y0 x1 y1
  induction fuel with
  | zero => intro k _ h; omega
  | succ fuel ih =>
    intro k hk hf
    obtain ⟨i, j, hat⟩ := Bres.at_after m x0 y0 x1 y1 k hk
    have hnext : ((Bres.start m (x0 + 32) (y0 + 32) (x1 + 32) (y1 + 32)).after k).next =
        (((Bres.start m x0 y0 x1 y1).after k).next.1,
         (Bres.start m (x0 + 32) (y0 + 32) (x1 + 32) (y1 + 32)).after (k + 1)) := by
      rw [Bres.start_shift, Bres.after_shift, Bres.next_shift, Bres.after_shift, Bres.after_succ]
    have hc : ∀ l, ((Bres.start m (x0 + 32) (y0 + 32) (x1 + 32) (y1 + 32)).after l).x - 32 =
          (lineCell m x0 y0 x1 y1 l).1 ∧
        ((Bres.start m (x0 + 32) (y0 + 32) (x1 + 32) (y1 + 32)).after l).y - 32 =
          (lineCell m x0 y0 x1 y1 l).2 := by
      intro l
      rw [Bres.start_shift, Bres.after_shift]
      simp [Bres.shift, lineCell, Bres.cell]
    rw [dynScan, hnext]
    simp only
    by_cases hend : k = lineLength x0 y0 x1 y1
    · rw [hat.stay (by omega)]
      refine ⟨false, rfl, ?_⟩
      simp only [Bool.false_eq_true, false_iff, not_exists]
      rintro l ⟨h1, h2, _⟩; omega
    · rw [(hat.step (by omega)).1]
      simp only [if_true, (hc (k + 1)).1, (hc (k + 1)).2]
      have hskip : (if ((k % (skips + 1) : Nat) : Int) + 1 > (skips : Int) then (0 : Int)
          else ((k % (skips + 1) : Nat) : Int) + 1) = (((k + 1) % (skips + 1) : Nat) : Int) := by
        have hm : k % (skips + 1) < skips + 1 := Nat.mod_lt k (Nat.succ_pos skips)
        by_cases hq : k % (skips + 1) = skips
        · rw [if_pos (by omega)]
          have : (k + 1) % (skips + 1) = 0 := by
            rw [Nat.add_mod, hq]
            rcases Nat.eq_zero_or_pos skips with rfl | hp
            · simp
            · rw [Nat.mod_eq_of_lt (by omega : 1 < skips + 1), Nat.mod_self]
          omega
        · rw [if_neg (by omega)]
          have : (k + 1) % (skips + 1) = k % (skips + 1) + 1 := by
            rw [Nat.add_mod, Nat.mod_eq_of_lt (by omega : 1 < skips + 1), Nat.mod_eq_of_lt (by omega)]
          omega
      rw [hskip]
      obtain ⟨r, h1, h2⟩ := ih (k + 1) (by omega) (by omega)
      by_cases h0 : k % (skips + 1) = 0
      · rw [if_pos (by omega)]
        obtain ⟨r0, hr0⟩ := htot (lineCell m x0 y0 x1 y1 (k + 1)).1 (lineCell m x0 y0 x1 y1 (k + 1)).2
        rw [hr0]
        cases r0 with
        | true =>
          refine ⟨true, rfl, ?_⟩
          simp only [true_iff]
          exact ⟨k + 1, by omega, by omega, by simpa using h0, hr0⟩
        | false =>
          refine ⟨r, by simpa using h1, h2.trans ⟨?_, ?_⟩⟩
          · rintro ⟨l, a, b, c, d⟩; exact ⟨l, by omega, b, c, d⟩
          · rintro ⟨l, a, b, c, d⟩
            refine ⟨l, ?_, b, c, d⟩
            by_contra hn
            have : l = k + 1 := by omega
            subst this; rw [hr0] at d; cases d
      · rw [if_neg (by omega)]
        refine ⟨r, by simpa using h1, h2.trans ⟨?_, ?_⟩⟩
        · rintro ⟨l, a, b, c, d⟩; exact ⟨l, by omega, b, c, d⟩
        · rintro ⟨l, a, b, c, d⟩
          refine ⟨l, ?_, b, c, d⟩
          by_contra hn
          have : l = k + 1 := by omega
          subst this
          simp at c; omega

section num
variable [Field K] [LinearOrder K] [IsStrictOrderedRing K] [FloorRing K]


theorem pt_total (m : GridMap K) (wf : m.WellFormed) (x y : Int) :
    (∃ r, ptFree m x y = .ok r) ∧ (∃ r, ptFreeOrUnknown m x y = .ok r) ∧
    (∃ r, ptOccupied m x y = .ok r) := by
  have tw : toI32 m.width = m.width := toI32_small (by simpa using wf.w)
  have th : toI32 m.height = m.height := toI32_small (by simpa using wf.h)
  unfold ptFree ptFreeOrUnknown ptOccupied
  by_cases h : x < 0 ∨ y < 0 ∨ toI32 m.width ≤ x ∨ toI32 m.height ≤ y
  · rw [if_pos h, if_pos h, if_pos h]; exact ⟨⟨_, rfl⟩, ⟨_, rfl⟩, ⟨_, rfl⟩⟩
  · rw [if_neg h, if_neg h, if_neg h]
    obtain ⟨v, hv⟩ := GridMap.read_ok m wf.size wf.len (x := x.toNat) (y := y.toNat)
      (by omega) (by omega)
    simp [GridMap.isFree, GridMap.isOccupied, hv]

/-- The point tests mean what they say: inside the map the cell's classification, outside false /
true / false. -/
theorem pt_spec (m : GridMap K) (wf : m.WellFormed) (x y : Int) :
    (m.isInMap x y = true → ptFree m x y = m.isFree ⟨x.toNat, y.toNat⟩ ∧
      ptOccupied m x y = m.isOccupied ⟨x.toNat, y.toNat⟩ ∧
      (ptFreeOrUnknown m x y = .ok true ↔ m.isOccupied ⟨x.toNat, y.toNat⟩ = .ok false)) ∧
    (m.isInMap x y = false → ptFree m x y = .ok false ∧ ptOccupied m x y = .ok false ∧
      ptFreeOrUnknown m x y = .ok true) := by
  have tw : toI32 m.width = m.width := toI32_small (by simpa using wf.w)
  have th : toI32 m.height = m.height := toI32_small (by simpa using wf.h)
  have hiff := GridMap.isInMap_iff m wf.w wf.h x y
  unfold ptFree ptFreeOrUnknown ptOccupied
  constructor
  · intro h
    have := hiff.1 h
    have hn : ¬ (x < 0 ∨ y < 0 ∨ toI32 m.width ≤ x ∨ toI32 m.height ≤ y) := by omega
    rw [if_neg hn, if_neg hn, if_neg hn]
    refine ⟨rfl, rfl, ?_⟩
    cases m.isOccupied ⟨x.toNat, y.toNat⟩ <;> simp
  · intro h
    have hn : (x < 0 ∨ y < 0 ∨ toI32 m.width ≤ x ∨ toI32 m.height ≤ y) := by
      by_contra hc
      have := hiff.2 (by omega)
      rw [h] at this; cases this
    rw [if_pos hn, if_pos hn, if_pos hn]; exact ⟨rfl, rfl, rfl⟩

/-- The tested cells of the line: every `(skips+1)`-th one, beginning with the one after the
start. -/
def Tested (skips : Nat) (m : GridMap K) (sx sy ex ey : K) (z : Int × Int) : Prop :=
  ∃ l, 1 ≤ l ∧ l ≤ lineLength ⌊sx⌋ ⌊sy⌋ ⌊ex⌋ ⌊ey⌋ ∧ (l - 1) % (skips + 1) = 0 ∧
    z = lineCell m ⌊sx⌋ ⌊sy⌋ ⌊ex⌋ ⌊ey⌋ l

theorem dyn_start (b : Bres K) (m : GridMap K) (sx sy ex ey : K)
    (hs : m.isInMap (⌊sx⌋ + 32) (⌊sy⌋ + 32) = true) (he : m.isInMap (⌊ex⌋ + 32) (⌊ey⌋ + 32) = true) :
    dynSetGrid b m sx sy ex ey =
      (Bres.start m (⌊sx⌋ + 32) (⌊sy⌋ + 32) (⌊ex⌋ + 32) (⌊ey⌋ + 32)).after 0 := by
  unfold dynSetGrid
  have e : ∀ a : K, ⌊a + 32⌋ = ⌊a⌋ + 32 := fun a => by
    have := Int.floor_add_intCast a 32; simpa using this
  rw [e, e, e, e, Bres.setGrid_inMap b m hs he]; rfl

/-- **C57 (partial).** If both *padded* endpoints are on the map, `isFree(sx,sy,ex,ey)` terminates
without undefined behaviour and is true iff the end cell and every `(skips+1)`-th cell of the
digital line are free map cells; dito for the two other checks.  Missing: the cells in between
(`skips > 0`, i.e. resolutions up to 0.5), the start cell, for `isFreeOrUnknown` the end cell, and
all lines that come within 32 cells of the upper map edges (next theorem). -/
theorem dynLine_iff_partial (b : Bres K) (m : GridMap K) (wf : m.WellFormed) (skips : Nat)
    (sx sy ex ey : K) (hs : m.isInMap (⌊sx⌋ + 32) (⌊sy⌋ + 32) = true)
    (he : m.isInMap (⌊ex⌋ + 32) (⌊ey⌋ + 32) = true) (fuel : Nat)
    (hf : lineLength ⌊sx⌋ ⌊sy⌋ ⌊ex⌋ ⌊ey⌋ < fuel) :
    (∃ r, dynLineFree fuel skips b m sx sy ex ey = .ok (some r) ∧
      (r = true ↔ (∀ z, Tested skips m sx sy ex ey z → ptFree m z.1 z.2 = .ok true) ∧
        ptFree m (truncC ex) (truncC ey) = .ok true)) ∧
    (∃ r, dynLineFreeOrUnknown fuel skips b m sx sy ex ey = .ok (some r) ∧
      (r = true ↔ (∀ z, Tested skips m sx sy ex ey z → ptFreeOrUnknown m z.1 z.2 = .ok true) ∧
        ptFreeOrUnknown m (truncC sx) (truncC sy) = .ok true)) ∧
    (∃ r, dynLineOccupied fuel skips b m sx sy ex ey = .ok (some r) ∧
      (r = true ↔ (∃ z, Tested skips m sx sy ex ey z ∧ ptOccupied m z.1 z.2 = .ok true) ∨
        ptOccupied m (truncC ex) (truncC ey) = .ok true)) := by
  have hst := dyn_start b m sx sy ex ey hs he
  have neg_tot : ∀ p : Int → Int → CRes Bool, (∀ x y, ∃ r, p x y = .ok r) →
      ∀ x y, ∃ r, (do let f ← p x y; pure (!f) : CRes Bool) = .ok r := by
    intro p hp x y
    obtain ⟨r, hr⟩ := hp x y
    exact ⟨!r, by simp [hr]⟩
  have neg_iff : ∀ p : Int → Int → CRes Bool, (∀ x y, ∃ r, p x y = .ok r) →
      ∀ x y, (do let f ← p x y; pure (!f) : CRes Bool) = .ok true ↔ ¬ p x y = .ok true := by
    intro p hp x y
    obtain ⟨r, hr⟩ := hp x y
    rw [hr]; cases r <;> simp
  have tF := fun x y => (pt_total m wf x y).1
  have tU := fun x y => (pt_total m wf x y).2.1
  have tO := fun x y => (pt_total m wf x y).2.2
  refine ⟨?_, ?_, ?_⟩
  · obtain ⟨r, h1, h2⟩ := dynScan_eq (m := m) (x0 := ⌊sx⌋) (y0 := ⌊sy⌋) (x1 := ⌊ex⌋) (y1 := ⌊ey⌋)
      _ (neg_tot _ tF) skips fuel 0 (Nat.zero_le _) (by omega)
    obtain ⟨q, hq⟩ := tF (truncC ex) (truncC ey)
    simp only [neg_iff _ tF] at h2
    simp only [Nat.zero_mod, Nat.cast_zero] at h1
    unfold dynLineFree
    rw [hst, h1]
    cases r with
    | true =>
      refine ⟨false, rfl, ?_⟩
      simp only [Bool.false_eq_true, false_iff, not_and]
      intro hall
      obtain ⟨l, a, bb, c, d⟩ := h2.1 rfl
      exact absurd (hall _ ⟨l, by omega, bb, c, rfl⟩) d
    | false =>
      refine ⟨q, by simp [hq], ?_⟩
      rw [hq]
      constructor
      · rintro rfl
        refine ⟨?_, rfl⟩
        rintro z ⟨l, a, bb, c, rfl⟩
        by_contra hn
        have := h2.2 ⟨l, by omega, bb, c, hn⟩
        cases this
      · rintro ⟨_, h⟩; injection h
  · obtain ⟨r, h1, h2⟩ := dynScan_eq (m := m) (x0 := ⌊sx⌋) (y0 := ⌊sy⌋) (x1 := ⌊ex⌋) (y1 := ⌊ey⌋)
      _ (neg_tot _ tU) skips fuel 0 (Nat.zero_le _) (by omega)
    obtain ⟨q, hq⟩ := tU (truncC sx) (truncC sy)
    simp only [neg_iff _ tU] at h2
    simp only [Nat.zero_mod, Nat.cast_zero] at h1
    unfold dynLineFreeOrUnknown
    rw [hst, h1]
    cases r with
    | true =>
      refine ⟨false, rfl, ?_⟩
      simp only [Bool.false_eq_true, false_iff, not_and]
      intro hall
      obtain ⟨l, a, bb, c, d⟩ := h2.1 rfl
      exact absurd (hall _ ⟨l, by omega, bb, c, rfl⟩) d
    | false =>
      refine ⟨q, by simp [hq], ?_⟩
      rw [hq]
      constructor
      · rintro rfl
        refine ⟨?_, rfl⟩
        rintro z ⟨l, a, bb, c, rfl⟩
        by_contra hn
        have := h2.2 ⟨l, by omega, bb, c, hn⟩
        cases this
      · rintro ⟨_, h⟩; injection h
  · obtain ⟨r, h1, h2⟩ := dynScan_eq (m := m) (x0 := ⌊sx⌋) (y0 := ⌊sy⌋) (x1 := ⌊ex⌋) (y1 := ⌊ey⌋)
      _ tO skips fuel 0 (Nat.zero_le _) (by omega)
    obtain ⟨q, hq⟩ := tO (truncC ex) (truncC ey)
    simp only [Nat.zero_mod, Nat.cast_zero] at h1
    unfold dynLineOccupied
    rw [hst, h1]
    cases r with
    | true =>
      refine ⟨true, rfl, ?_⟩
      simp only [true_iff]
      obtain ⟨l, a, bb, c, d⟩ := h2.1 rfl
      exact .inl ⟨_, ⟨l, by omega, bb, c, rfl⟩, d⟩
    | false =>
      refine ⟨q, by simp [hq], ?_⟩
      rw [hq]
      constructor
      · rintro rfl; exact .inr rfl
      · rintro (⟨z, ⟨l, a, bb, c, rfl⟩, hz⟩ | h)
        · have := h2.2 ⟨l, by omega, bb, c, hz⟩; cases this
        · injection h

/-- **C57 is false of the code near the upper edges** (and on every map of at most 32 columns or
rows): if one of the endpoints is within 32 cells of the right or top edge, no cell of the line is
examined: `isFree` answers for the end cell only, `isFreeOrUnknown` for the start cell only,
`isOccupied` for the end cell only, whatever lies between. -/
theorem dynLine_near_edge (b : Bres K) (m : GridMap K) (wf : m.WellFormed) (skips : Int)
    (sx sy ex ey : K)
    (h : (m.width : Int) ≤ ⌊sx⌋ + 32 ∨ (m.height : Int) ≤ ⌊sy⌋ + 32 ∨ (m.width : Int) ≤ ⌊ex⌋ + 32 ∨
      (m.height : Int) ≤ ⌊ey⌋ + 32) (fuel : Nat) (hf : 0 < fuel) :
    dynLineFree fuel skips b m sx sy ex ey = some <$> ptFree m (truncC ex) (truncC ey) ∧
    dynLineFreeOrUnknown fuel skips b m sx sy ex ey =
      some <$> ptFreeOrUnknown m (truncC sx) (truncC sy) ∧
    dynLineOccupied fuel skips b m sx sy ex ey = some <$> ptOccupied m (truncC ex) (truncC ey) := by
  obtain ⟨n, rfl⟩ : ∃ n, fuel = n + 1 := ⟨fuel - 1, by omega⟩
  have e : ∀ a : K, ⌊a + 32⌋ = ⌊a⌋ + 32 := fun a => by
    have := Int.floor_add_intCast a 32; simpa using this
  have hoff : m.isInMap (⌊sx⌋ + 32) (⌊sy⌋ + 32) = false ∨
      m.isInMap (⌊ex⌋ + 32) (⌊ey⌋ + 32) = false := by
    by_contra hn
    push Not at hn
    obtain ⟨h1, h2⟩ := hn
    have h1 := (GridMap.isInMap_iff m wf.w wf.h _ _).1 (by simpa using h1)
    have h2 := (GridMap.isInMap_iff m wf.w wf.h _ _).1 (by simpa using h2)
    omega
  have hn : (dynSetGrid b m sx sy ex ey).next.1 = false := by
    unfold dynSetGrid
    rw [e, e, e, e]
    exact (Bres.line_off_map b m _ _ _ _ hoff 0).1
  have hscan : ∀ hit, dynScan hit skips (n + 1) 0 (dynSetGrid b m sx sy ex ey) =
      .ok (some false) := by
    intro hit; rw [dynScan, hn]; rfl
  have hmap : ∀ q : CRes Bool, (do let f ← q; pure (some f)) = some <$> q := by
    intro q; cases q <;> rfl
  refine ⟨?_, ?_, ?_⟩
  · unfold dynLineFree; rw [hscan]; exact hmap _
  · unfold dynLineFreeOrUnknown; rw [hscan]; exact hmap _
  · unfold dynLineOccupied; rw [hscan]; exact hmap _

/-- The two answers side by side: a line crossing an occupied cell of a map of at most 32 columns is
reported free by the dynamic manager as soon as its end cell is free. -/
theorem dynLine_small_map (b : Bres K) (m : GridMap K) (wf : m.WellFormed) (hw : m.width ≤ 32)
    (skips : Int) (sx sy ex ey : K) (hsx : 0 ≤ sx)
    (hend : ptFree m (truncC ex) (truncC ey) = .ok true) (fuel : Nat) (hf : 0 < fuel) :
    dynLineFree fuel skips b m sx sy ex ey = .ok (some true) := by
  have h0 : 0 ≤ ⌊sx⌋ := Int.floor_nonneg.2 hsx
  rw [(dynLine_near_edge b m wf skips sx sy ex ey (.inl (by omega)) fuel hf).1, hend]
  rfl

/-- Non-vacuity: 100 x 100 map, line inside and line near the edge. -/
example : ∃ m : GridMap ℚ, m.WellFormed ∧ m.isInMap (⌊(5 : ℚ)⌋ + 32) (⌊(6 : ℚ)⌋ + 32) = true ∧
    m.isInMap (⌊(60 : ℚ)⌋ + 32) (⌊(50 : ℚ)⌋ + 32) = true ∧
    (m.width : Int) ≤ ⌊(70 : ℚ)⌋ + 32 := by
  refine ⟨⟨100, 100, 1, 0, 0, List.replicate 10000 0, 50, 200, -1⟩, ⟨by decide, by decide, by decide,
    (List.length_replicate).ge⟩, by decide +kernel, by decide +kernel, by decide +kernel⟩

end num
end PathPlanning
