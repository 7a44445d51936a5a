import Verif.Props.Renderer
import Mathlib.Data.Rat.Floor

/-!
# C82, C83: colours of the rendered map and of the explored nodes
-/

namespace PathPlanning.Render
open Spec

variable {Col : Type}

section
variable {K : Type} [Field K] [LinearOrder K] [IsStrictOrderedRing K] [FloorRing K]

theorem grey_eq (offset factor heur : K) :
    ∃ v : Nat, grey offset factor heur = .ok v ∧ 100 ≤ v ∧ v ≤ 255 ∧
      (v : Int) = ⌊255 - min (155 : K) (max 0 ((heur + offset) * factor / 255 * 155))⌋ := by
  unfold grey
  simp only
  rw [show (255 - 100 : K) = 155 by norm_num]
  set t := (255 : K) - min (155 : K) (max 0 ((heur + offset) * factor / 255 * 155)) with ht
  have h1 : (100 : K) ≤ t := by
    have := min_le_left (155 : K) (max 0 ((heur + offset) * factor / 255 * 155)); rw [ht]; linarith
  have h2 : t ≤ 255 := by
    have : (0 : K) ≤ min (155 : K) (max 0 ((heur + offset) * factor / 255 * 155)) :=
      le_min (by norm_num) (le_max_left _ _)
    rw [ht]; linarith
  have h3 : (100 : Int) ≤ ⌊t⌋ := Int.le_floor.2 (by exact_mod_cast h1)
  have h4 : ⌊t⌋ ≤ 255 := by
    have := Int.floor_le_floor h2
    rwa [show (255 : K) = ((255 : Int) : K) by norm_num, Int.floor_intCast] at this
  have h5 : truncC t = ⌊t⌋ := truncC_nonneg (by linarith)
  refine ⟨⌊t⌋.toNat, ?_, by omega, by omega, by omega⟩
  unfold castU
  rw [h5, if_pos (by omega)]

/-- **C82 (grey values).**  Whatever the focus, the grey value of a free cell is between 100 and 255 and never wraps. -/
theorem grey_range (offset factor heur : K) :
    ∃ v : Nat, grey offset factor heur = .ok v ∧ 100 ≤ v ∧ v ≤ 255 := by
  obtain ⟨v, h1, h2, h3, _⟩ := grey_eq offset factor heur
  exact ⟨v, h1, h2, h3⟩

/-- **C82 (order).**  A cell with a larger heuristic is never brighter. -/
theorem grey_antitone {offset factor h1 h2 : K} (hf : 0 ≤ factor) (hh : h1 ≤ h2) {v1 v2 : Nat}
    (e1 : grey offset factor h1 = .ok v1) (e2 : grey offset factor h2 = .ok v2) : v2 ≤ v1 := by
  obtain ⟨w1, a1, _, _, a2⟩ := grey_eq offset factor h1
  obtain ⟨w2, b1, _, _, b2⟩ := grey_eq offset factor h2
  rw [e1] at a1; rw [e2] at b1
  cases a1; cases b1
  have : (h1 + offset) * factor ≤ (h2 + offset) * factor := mul_le_mul_of_nonneg_right (by linarith) hf
  have h3 : (h1 + offset) * factor / 255 * 155 ≤ (h2 + offset) * factor / 255 * 155 := by
    have := div_le_div_of_nonneg_right this (by norm_num : (0 : K) ≤ 255)
    linarith
  have h4 := Int.floor_le_floor (show 255 - min (155 : K) (max 0 ((h2 + offset) * factor / 255 * 155)) ≤
      255 - min (155 : K) (max 0 ((h1 + offset) * factor / 255 * 155)) from
    sub_le_sub_left (min_le_min_left _ (max_le_max_left _ h3)) _)
  omega

/-- **C82 (totality).**  The colour of every cell is defined: `anthrazite` exactly for the cells that are not free (if
`anthrazite` is neither grey nor the colour of unreachable cells). -/
theorem cellColour_spec (an : Nat × Nat × Nat) (free : Bool) (offset factor heur : K)
    (hne : an ≠ (220, 200, 200)) (hng : an.1 ≠ an.2.1) :
    ∃ c, cellColour an free offset factor heur = .ok c ∧ (c = an ↔ free = false) ∧
      (free = true → heur < 0 → c = (220, 200, 200)) := by
  unfold cellColour
  cases free with
  | false => exact ⟨an, rfl, by simp, by simp⟩
  | true =>
    by_cases hh : heur < 0
    · exact ⟨_, by rw [if_neg (by simp), if_pos hh], by simp [hne.symm], fun _ _ => rfl⟩
    · obtain ⟨v, h1, _⟩ := grey_eq offset factor heur
      refine ⟨(v, v, v), by rw [if_neg (by simp), if_neg hh, h1]; rfl, ?_, fun _ h => absurd h hh⟩
      constructor
      · intro h; rw [← h] at hng; exact absurd rfl hng
      · intro h; cases h

theorem mem_focusCells {x y radius : Int} {c : Int × Int} :
    c ∈ focusCells x y radius ↔ (x - radius ≤ c.1 ∧ c.1 ≤ x + radius) ∧ (y - radius ≤ c.2 ∧ c.2 ≤ y + radius) := by
  unfold focusCells
  simp only [List.mem_flatMap, List.mem_map, List.mem_range]
  constructor
  · rintro ⟨j, hj, i, hi, rfl⟩; simp only; omega
  · rintro ⟨⟨h1, h2⟩, h3, h4⟩
    exact ⟨(c.2 - (y - radius)).toNat, by omega, (c.1 - (x - radius)).toNat, by omega, by ext <;> simp only <;> omega⟩

/-- Extremes seen by the loop. -/
theorem see_fold {dblMax : K} (usable : Int → Int → Bool) (heur : Int → Int → K) (l : List (Int × Int)) :
    ∀ r : Range K, ∀ lo hi : K,
      (∀ c ∈ l, usable c.1 c.2 = true → heur c.1 c.2 = dblMax ∨ (lo ≤ heur c.1 c.2 ∧ heur c.1 c.2 ≤ hi)) →
      lo < dblMax → hi < dblMax → lo ≤ r.lo → r.hi ≤ hi →
      ((∃ c ∈ l, usable c.1 c.2 = true ∧ heur c.1 c.2 = lo) ∨ r.lo = lo) →
      ((∃ c ∈ l, usable c.1 c.2 = true ∧ heur c.1 c.2 = hi) ∨ r.hi = hi) →
      (l.foldl (fun (r : Range K) c => r.see dblMax (usable c.1 c.2) (heur c.1 c.2)) r).lo = lo ∧
      (l.foldl (fun (r : Range K) c => r.see dblMax (usable c.1 c.2) (heur c.1 c.2)) r).hi = hi := by
  induction l with
  | nil => intro r lo hi _ _ _ _ _ h1 h2; exact ⟨h1.resolve_left (by simp), h2.resolve_left (by simp)⟩
  | cons c l ih =>
    intro r lo hi hall hl hh hr1 hr2 h1 h2
    rw [List.foldl_cons]
    have hc := hall c (by simp)
    -- one step
    have hstep : lo ≤ (r.see dblMax (usable c.1 c.2) (heur c.1 c.2)).lo ∧
        (r.see dblMax (usable c.1 c.2) (heur c.1 c.2)).hi ≤ hi ∧
        ((usable c.1 c.2 = true ∧ heur c.1 c.2 = lo) ∨ r.lo = lo →
          (r.see dblMax (usable c.1 c.2) (heur c.1 c.2)).lo = lo) ∧
        ((usable c.1 c.2 = true ∧ heur c.1 c.2 = hi) ∨ r.hi = hi →
          (r.see dblMax (usable c.1 c.2) (heur c.1 c.2)).hi = hi) := by
      unfold Range.see
      by_cases hu : usable c.1 c.2 = true
      · rw [hu]
        rw [if_neg (by simp)]
        by_cases hm : heur c.1 c.2 = dblMax
        · rw [if_pos hm]
          refine ⟨hr1, hr2, ?_, ?_⟩
          · rintro (⟨_, h⟩ | h)
            · rw [hm] at h; rw [h] at hl; exact absurd hl (lt_irrefl _)
            · exact h
          · rintro (⟨_, h⟩ | h)
            · rw [hm] at h; rw [h] at hh; exact absurd hh (lt_irrefl _)
            · exact h
        · rw [if_neg hm]
          obtain ⟨b1, b2⟩ := (hc hu).resolve_left hm
          by_cases c1 : heur c.1 c.2 > r.hi <;> by_cases c2 : heur c.1 c.2 < r.lo <;>
            simp only [c1, c2, if_true, if_false]
          · refine ⟨b1, b2, ?_, ?_⟩
            · rintro (⟨_, h⟩ | h)
              · exact h
              · rw [h] at c2; exact absurd c2 (not_lt.2 b1)
            · rintro (⟨_, h⟩ | h)
              · exact h
              · rw [h] at c1; exact absurd c1 (not_lt.2 b2)
          · refine ⟨hr1, b2, ?_, ?_⟩
            · rintro (⟨_, h⟩ | h)
              · rw [h] at c2; exact le_antisymm (not_lt.1 c2) hr1
              · exact h
            · rintro (⟨_, h⟩ | h)
              · exact h
              · rw [h] at c1; exact absurd c1 (not_lt.2 b2)
          · refine ⟨b1, hr2, ?_, ?_⟩
            · rintro (⟨_, h⟩ | h)
              · exact h
              · rw [h] at c2; exact absurd c2 (not_lt.2 b1)
            · rintro (⟨_, h⟩ | h)
              · rw [h] at c1; exact le_antisymm hr2 (not_lt.1 c1)
              · exact h
          · refine ⟨hr1, hr2, ?_, ?_⟩
            · rintro (⟨_, h⟩ | h)
              · rw [h] at c2; exact le_antisymm (not_lt.1 c2) hr1
              · exact h
            · rintro (⟨_, h⟩ | h)
              · rw [h] at c1; exact le_antisymm hr2 (not_lt.1 c1)
              · exact h
      · rw [if_pos (by simpa using hu)]
        exact ⟨hr1, hr2, fun h => h.resolve_left fun h => hu h.1, fun h => h.resolve_left fun h => hu h.1⟩
    refine ih _ lo hi (fun q hq => hall q (List.mem_cons_of_mem _ hq)) hl hh hstep.1 hstep.2.1 ?_ ?_
    · rcases h1 with ⟨q, hq, h⟩ | h
      · rcases List.mem_cons.1 hq with rfl | hq
        · exact .inr (hstep.2.2.1 (.inl h))
        · exact .inl ⟨q, hq, h⟩
      · exact .inr (hstep.2.2.1 (.inr h))
    · rcases h2 with ⟨q, hq, h⟩ | h
      · rcases List.mem_cons.1 hq with rfl | hq
        · exact .inr (hstep.2.2.2 (.inl h))
        · exact .inl ⟨q, hq, h⟩
      · exact .inr (hstep.2.2.2 (.inr h))

/-- The automatic focus visits every cell of the map, if a cell is at least two pixels wide. -/
theorem findFocus_covers {w h n : Nat} (h2 : 2 ≤ n) (x y : Int) (hx : 0 ≤ x) (hx' : x < w) (hy : 0 ≤ y) (hy' : y < h) :
    (x, y) ∈ focusCells
      (truncC ((((w * n / 2 : Nat) : Int) : K) / n))
      (truncC (((((h * n : Nat) : Int) - ((h * n / 2 : Nat) : Int) : Int) : K) / n))
      (max ((w * n / 2 : Nat) : Int) ((h * n / 2 : Nat) : Int)) := by
  have hn : 0 < n := by omega
  have hnK : (0 : K) < n := by exact_mod_cast hn
  have hn1 : (1 : K) ≤ n := by exact_mod_cast hn
  have hwn : w ≤ w * n := Nat.le_mul_of_pos_right _ hn
  have hhn : h ≤ h * n := Nat.le_mul_of_pos_right _ hn
  -- general bounds for a truncated quotient
  have key : ∀ A : Int, 0 ≤ A → truncC ((A : K) / n) = A / (n : Int) := by
    intro A hA
    rw [truncC_nonneg (by positivity)]
    have hnZ : (0 : Int) < n := by exact_mod_cast hn
    rw [Int.floor_eq_iff]
    constructor
    · rw [le_div_iff₀ hnK]
      have := Int.mul_ediv_self_le (x := A) hnZ.ne'
      have h2 : ((A / (n : Int) * (n : Int) : Int) : K) ≤ A := by exact_mod_cast (by linarith)
      push_cast at h2
      exact h2
    · rw [div_lt_iff₀ hnK]
      have := Int.lt_mul_ediv_self_add (x := A) hnZ
      have h2 : (A : K) < ((A / (n : Int) + 1) * (n : Int) : Int) := by exact_mod_cast (by linarith)
      push_cast at h2
      exact h2
  rw [key _ (by positivity), key _ (by omega), mem_focusCells]
  have hn' : (0 : Int) < n := by exact_mod_cast hn
  set A : Int := ((w * n / 2 : Nat) : Int) with hA
  set B : Int := ((h * n / 2 : Nat) : Int) with hB
  have hA2 : (w * n : Nat) ≤ 2 * A + 1 ∧ 2 * A ≤ (w * n : Nat) := by omega
  have hB2 : (h * n : Nat) ≤ 2 * B + 1 ∧ 2 * B ≤ (h * n : Nat) := by omega
  have qa0 : 0 ≤ A / (n : Int) := Int.ediv_nonneg (by omega) hn'.le
  have qaA : A / (n : Int) ≤ A := Int.ediv_le_self _ (by omega)
  -- n * (A / n) > A - n
  have qa1 := Int.lt_mul_ediv_self_add (x := A) hn'
  have qa2 := Int.mul_ediv_self_le (x := A) hn'.ne'
  set C : Int := ((h * n : Nat) : Int) - B with hC
  have qc0 : 0 ≤ C / (n : Int) := Int.ediv_nonneg (by omega) hn'.le
  have qc1 := Int.lt_mul_ediv_self_add (x := C) hn'
  have qc2 := Int.mul_ediv_self_le (x := C) hn'.ne'
  have hwn' : ((w * n : Nat) : Int) = w * n := by push_cast; rfl
  have hhn' : ((h * n : Nat) : Int) = h * n := by push_cast; rfl
  have m1 : A ≤ max A B := le_max_left _ _
  have m2 : B ≤ max A B := le_max_right _ _
  have hn2 : (2 : Int) ≤ n := by exact_mod_cast h2
  have wA : (w : Int) ≤ A := by nlinarith
  have hB' : (h : Int) ≤ B := by nlinarith
  have cB : C / (n : Int) ≤ B := by
    have : C ≤ B + 1 := by omega
    have : (2 : Int) * (C / n) ≤ n * (C / n) := mul_le_mul_of_nonneg_right hn2 qc0
    omega
  refine ⟨⟨by omega, by omega⟩, by omega, by omega⟩

/-- With one pixel per cell the lowest row of a map of 1 × 3 cells is not visited. -/
example : ((0 : Int), (0 : Int)) ∉ focusCells (truncC ((((1 * 1 / 2 : Nat) : Int) : ℚ) / (1 : Nat)))
      (truncC (((((3 * 1 : Nat) : Int) - ((3 * 1 / 2 : Nat) : Int) : Int) : ℚ) / (1 : Nat)))
      (max ((1 * 1 / 2 : Nat) : Int) ((3 * 1 / 2 : Nat) : Int)) := by
  rw [mem_focusCells]
  norm_num [truncC]

/-- **C82 (focus).**  With the automatic focus the whole range of greys is used: over all free cells of the map with a
heuristic other than `DBL_MAX`, the smallest heuristic is painted white (255) and the largest in the darkest grey (100).
The largest must be at least `DBL_MIN`, because the search for the maximum starts there and not at minus infinity. -/
theorem findFocus_contrast {w h n : Nat} (hn : 2 ≤ n) {dblMax dblMin : K} (usable : Int → Int → Bool)
    (heur : Int → Int → K) (hmap : ∀ x y, usable x y = true → (0 ≤ x ∧ x < w) ∧ (0 ≤ y ∧ y < h))
    {lo hi : K} (hlt : lo < hi) (hhi : hi < dblMax) (hmin : dblMin ≤ hi)
    (hall : ∀ x y, usable x y = true → heur x y = dblMax ∨ (lo ≤ heur x y ∧ heur x y ≤ hi))
    (hlo : ∃ x y, usable x y = true ∧ heur x y = lo) (hhi' : ∃ x y, usable x y = true ∧ heur x y = hi) :
    let f := findFocus dblMax dblMin (Geo.setMap n w h) n (h * n : Nat) usable heur
    0 < f.2 ∧ grey f.1 f.2 lo = .ok 255 ∧ grey f.1 f.2 hi = .ok 100 := by
  intro f
  have hf : f = (-lo, 255 / (hi - lo)) := by
    show findFocus dblMax dblMin (Geo.setMap n w h) n (h * n : Nat) usable heur = _
    unfold findFocus setFocus
    simp only [Geo.setMap]
    obtain ⟨e1, e2⟩ := see_fold (dblMax := dblMax) usable heur
      (focusCells
        (truncC ((((w * n / 2 : Nat) : Int) : K) / n))
        (truncC (((((h * n : Nat) : Int) - ((h * n / 2 : Nat) : Int) : Int) : K) / n))
        (max ((w * n / 2 : Nat) : Int) ((h * n / 2 : Nat) : Int))) ⟨dblMax, dblMin⟩ lo hi
      (fun c _ hu => hall c.1 c.2 hu) (hlt.trans hhi) hhi (hlt.trans hhi).le hmin
      (by
        obtain ⟨x, y, hu, he⟩ := hlo
        obtain ⟨⟨a, b⟩, c, d⟩ := hmap x y hu
        exact .inl ⟨(x, y), findFocus_covers hn x y a b c d, hu, he⟩)
      (by
        obtain ⟨x, y, hu, he⟩ := hhi'
        obtain ⟨⟨a, b⟩, c, d⟩ := hmap x y hu
        exact .inl ⟨(x, y), findFocus_covers hn x y a b c d, hu, he⟩)
    rw [e1, e2]
  have hd : 0 < hi - lo := sub_pos.2 hlt
  rw [hf]
  refine ⟨by positivity, ?_, ?_⟩
  · obtain ⟨v, h1, _, _, h2⟩ := grey_eq (-lo) (255 / (hi - lo)) lo
    rw [h1]
    have : (255 : K) - min 155 (max 0 ((lo + -lo) * (255 / (hi - lo)) / 255 * 155)) = ((255 : Int) : K) := by
      rw [add_neg_cancel, zero_mul, zero_div, zero_mul, max_self, min_eq_right (by norm_num)]; norm_num
    rw [this, Int.floor_intCast] at h2
    congr 1; omega
  · obtain ⟨v, h1, _, _, h2⟩ := grey_eq (-lo) (255 / (hi - lo)) hi
    rw [h1]
    have e : (hi + -lo) * (255 / (hi - lo)) / 255 * 155 = (155 : K) := by
      rw [← sub_eq_add_neg]; field_simp
    have : (255 : K) - min 155 (max 0 ((hi + -lo) * (255 / (hi - lo)) / 255 * 155)) = ((100 : Int) : K) := by
      rw [e, max_eq_right (by norm_num), min_self]; norm_num
    rw [this, Int.floor_intCast] at h2
    congr 1; omega

/-! ### Explored nodes -/

theorem maxDist_spec (dists : List K) : 1 ≤ maxDist dists ∧ (∀ d ∈ dists, d ≤ maxDist dists) ∧
    (maxDist dists = 1 ∨ maxDist dists ∈ dists) := by
  unfold maxDist
  have main : ∀ (l : List K) (m : K), m ≤ l.foldl (fun m d => if d > m then d else m) m ∧
      (∀ d ∈ l, d ≤ l.foldl (fun m d => if d > m then d else m) m) ∧
      (l.foldl (fun m d => if d > m then d else m) m = m ∨ l.foldl (fun m d => if d > m then d else m) m ∈ l) := by
    intro l
    induction l with
    | nil => intro m; simp
    | cons d l ih =>
      intro m
      rw [List.foldl_cons]
      by_cases hd : d > m
      · rw [if_pos hd]
        obtain ⟨h1, h2, h3⟩ := ih d
        refine ⟨hd.le.trans h1, ?_, ?_⟩
        · intro e he
          rcases List.mem_cons.1 he with rfl | he
          · exact h1
          · exact h2 e he
        · right
          rcases h3 with h | h
          · rw [h]; simp
          · exact List.mem_cons_of_mem _ h
      · rw [if_neg hd]
        obtain ⟨h1, h2, h3⟩ := ih m
        refine ⟨h1, ?_, ?_⟩
        · intro e he
          rcases List.mem_cons.1 he with rfl | he
          · exact (not_lt.1 hd).trans h1
          · exact h2 e he
        · rcases h3 with h | h
          · exact .inl h
          · exact .inr (List.mem_cons_of_mem _ h)
  exact main dists 1

/-- **C83 (colour scale).**  For a node whose distance is between one ten-thousandth of the largest distance and the
largest distance, the colour is a convex combination of two consecutive colours of the scale, both in the table. -/
theorem stageColour_convex {stages : List K} (h2 : 2 ≤ stages.length) {maxd d : K} (hm : 0 < maxd)
    (hlo : maxd / 10000 ≤ d) (hhi : d ≤ maxd) :
    ∃ (a : Nat) (ha : a + 1 < stages.length) (t : K), 0 ≤ t ∧ t ≤ 1 ∧
      t = (d / maxd - 1 / 10000) * ((stages.length : K) - 1) - a ∧
      stageColour stages maxd d = .ok (stages[a] * (1 - t) + stages[a + 1] * t) := by
  set idx : K := (d / maxd - 1 / 10000) * (((stages.length : Int) - 1 : Int) : K) with hidx
  have hc1 : (1 : K) ≤ (((stages.length : Int) - 1 : Int) : K) := by
    have : (1 : Int) ≤ (stages.length : Int) - 1 := by omega
    exact_mod_cast this
  have hq1 : (1 : K) / 10000 ≤ d / maxd := by rw [le_div_iff₀ hm]; linarith
  have hq2 : d / maxd ≤ 1 := (div_le_one hm).2 hhi
  have h0 : 0 ≤ idx := mul_nonneg (by linarith) (by linarith)
  have h1 : idx < (((stages.length : Int) - 1 : Int) : K) := by
    rw [hidx]
    have : d / maxd - 1 / 10000 < 1 := by
      have : (0 : K) < 1 / 10000 := by norm_num
      linarith
    nlinarith
  have fa0 : 0 ≤ ⌊idx⌋ := Int.floor_nonneg.2 h0
  have fa1 : ⌊idx⌋ < (stages.length : Int) - 1 := Int.floor_lt.2 h1
  have l1 := Int.floor_le idx
  have l2 := Int.lt_floor_add_one idx
  obtain ⟨a, ha⟩ : ∃ a : Nat, ⌊idx⌋ = a := ⟨⌊idx⌋.toNat, by omega⟩
  have hal : a + 1 < stages.length := by omega
  have haK : ((⌊idx⌋ : Int) : K) = (a : K) := by rw [ha]; simp
  rw [haK] at l1 l2
  refine ⟨a, hal, idx - a, by linarith, by linarith, ?_, ?_⟩
  · rw [hidx]; push_cast; ring
  · unfold stageColour stage
    simp only
    rw [← hidx, ha, min_eq_right (show ((a : Int) + 1) ≤ (stages.length : Int) - 1 by omega)]
    rw [if_neg (by omega)]
    have e1 : ((a : Int) : Int).toNat = a := by simp
    have e2 : ((a : Int) + 1 : Int).toNat = a + 1 := by omega
    rw [e1, e2, vget_of_lt (by omega), vget_of_lt hal]
    simp only [CRes.ok_bind, CRes.pure_eq]
    have e3 : |idx - (((a : Int) + 1 : Int) : K)| = 1 - (idx - a) := by
      push_cast
      rw [abs_of_nonpos (by linarith)]; ring
    have e4 : |idx - ((a : Int) : K)| = idx - a := by
      push_cast
      rw [abs_of_nonneg (by linarith)]
    rw [e3, e4]

/-- **C83, finding.**  For every node nearer than one ten-thousandth of the largest distance the table of colours is
read at index `-1`. -/
theorem stageColour_near_ub {stages : List K} (h2 : 2 ≤ stages.length) {maxd d : K} (hm : 0 < maxd)
    (hlo : d < maxd / 10000) : stageColour stages maxd d = .ub := by
  have hc1 : (1 : K) ≤ (((stages.length : Int) - 1 : Int) : K) := by
    have : (1 : Int) ≤ (stages.length : Int) - 1 := by omega
    exact_mod_cast this
  have hq1 : d / maxd - 1 / 10000 < 0 := by
    rw [sub_neg, div_lt_iff₀ hm]; linarith
  have h0 : (d / maxd - 1 / 10000) * (((stages.length : Int) - 1 : Int) : K) < 0 := by nlinarith
  have : ⌊(d / maxd - 1 / 10000) * (((stages.length : Int) - 1 : Int) : K)⌋ < 0 := Int.floor_lt.2 (by simpa using h0)
  unfold stageColour stage
  simp only
  rw [if_pos (.inl this)]

/-- **C83, finding.**  The explored nodes always contain the start node, at distance 0: drawing them is undefined after
every search, whatever else was explored. -/
theorem visGrid_start_ub {scale : Nat} {stages : List K} (h2 : 2 ≤ stages.length) {mapH : Int}
    (nodes : List (Int × Int × K)) (hs : ∃ x y, (x, y, (0 : K)) ∈ nodes) :
    ∀ o : Img K, visGrid scale stages (maxDist (nodes.map fun p => p.2.2)) mapH o nodes = .ub := by
  have hm := (maxDist_spec (nodes.map fun p => p.2.2)).1
  have hmax := (maxDist_spec (nodes.map fun p => p.2.2)).2.1
  generalize maxDist (nodes.map fun p => p.2.2) = maxd at *
  have hm0 : 0 < maxd := by linarith
  induction nodes with
  | nil => obtain ⟨x, y, h⟩ := hs; simp at h
  | cons p rest ih =>
    intro o
    obtain ⟨x, y, d⟩ := p
    rw [visGrid]
    by_cases hd : d < maxd / 10000
    · rw [stageColour_near_ub h2 hm0 hd]; rfl
    · have hdm : d ≤ maxd := hmax d (by simp)
      obtain ⟨a, ha, t, _, _, _, he⟩ := stageColour_convex h2 hm0 (not_lt.1 hd) hdm
      rw [he, CRes.ok_bind]
      refine ih ?_ (fun e he => hmax e ?_) _
      · obtain ⟨x', y', h⟩ := hs
        rcases List.mem_cons.1 h with h | h
        · injection h with _ h
          injection h with _ h
          rw [← h] at hd
          exact absurd (by positivity) hd
        · exact ⟨x', y', h⟩
      · rw [List.map_cons]; exact List.mem_cons_of_mem _ he

/-- **C83 (places).**  If no node is that near, every explored cell is painted over its whole square with the colour of
the last of its nodes, and no other pixel changes. -/
theorem visGrid_pixel {scale : Nat} (hsc : 0 < scale) {stages : List K} (h2 : 2 ≤ stages.length) {maxd : K}
    (hm : 0 < maxd) {mapH : Int} (nodes : List (Int × Int × K))
    (hd : ∀ p ∈ nodes, maxd / 10000 ≤ p.2.2 ∧ p.2.2 ≤ maxd) :
    ∀ o : Img K, ∃ o', visGrid scale stages maxd mapH o nodes = .ok o' ∧ o'.rows = o.rows ∧ o'.cols = o.cols ∧
      ∀ x y r c, InSquare scale (mapH * scale) x y r c →
        ((¬ ∃ d, (x, y, d) ∈ nodes) → o'.px r c = o.px r c) ∧
        (∀ l1 d l2, nodes = l1 ++ (x, y, d) :: l2 → (¬ ∃ d', (x, y, d') ∈ l2) →
          stageColour stages maxd d = .ok (o'.px r c)) := by
  have hn' : (0 : Int) < scale := by exact_mod_cast hsc
  induction nodes with
  | nil => intro o; exact ⟨o, rfl, rfl, rfl, fun x y r c _ => ⟨fun _ => rfl, fun l1 d l2 h => by simp at h⟩⟩
  | cons p rest ih =>
    intro o
    obtain ⟨x0, y0, d0⟩ := p
    obtain ⟨a, ha, t, _, _, _, he⟩ := stageColour_convex h2 hm (hd (x0, y0, d0) (by simp)).1 (hd (x0, y0, d0) (by simp)).2
    obtain ⟨o', e1, e2, e3, e4⟩ := ih (fun q hq => hd q (List.mem_cons_of_mem _ hq))
      (o.rectFilled (x0 * scale) ((mapH - y0 - 1) * scale) (x0 * scale + (scale - 1))
        ((mapH - y0 - 1) * scale + (scale - 1)) (stages[a] * (1 - t) + stages[a + 1] * t))
    refine ⟨o', by rw [visGrid, he, CRes.ok_bind]; exact e1, e2, e3, fun x y r c hsq => ?_⟩
    obtain ⟨g1, g2⟩ := e4 x y r c hsq
    have hrect : (o.rectFilled (x0 * scale) ((mapH - y0 - 1) * scale) (x0 * scale + (scale - 1))
        ((mapH - y0 - 1) * scale + (scale - 1)) (stages[a] * (1 - t) + stages[a + 1] * t)).px r c =
        if (x, y) = (x0, y0) then stages[a] * (1 - t) + stages[a + 1] * t else o.px r c := by
      simp only [Img.rectFilled]
      rw [min_eq_left (by omega), max_eq_right (by omega), min_eq_left (by omega), max_eq_right (by omega)]
      have hiff : ((((mapH - y0 - 1) * scale : Int) ≤ r ∧ r ≤ (mapH - y0 - 1) * scale + (scale - 1)) ∧
          (x0 * scale ≤ c ∧ c ≤ x0 * scale + (scale - 1))) ↔ InSquare scale (mapH * scale) x0 y0 r c := by
        unfold InSquare
        have a1 : (mapH - y0 - 1) * scale = mapH * scale - scale * y0 - scale := by ring
        have a2 : x0 * scale = (scale : Int) * x0 := by ring
        rw [a1, a2]
        omega
      have : InSquare scale (mapH * scale) x0 y0 r c ↔ (x, y) = (x0, y0) := by
        rw [inSquare_iff hn'] at hsq ⊢
        rw [← hsq.1, ← hsq.2]
        constructor
        · rintro ⟨rfl, rfl⟩; rfl
        · intro h; injection h with h1 h2; exact ⟨h1.symm, h2.symm⟩
      by_cases hc : (x, y) = (x0, y0)
      · rw [if_pos hc, if_pos (hiff.2 (this.2 hc))]
      · rw [if_neg hc, if_neg (fun h => hc (this.1 (hiff.1 h)))]
    constructor
    · intro hno
      rw [g1 (fun ⟨d, h⟩ => hno ⟨d, List.mem_cons_of_mem _ h⟩), hrect, if_neg]
      intro h
      injection h with h1 h2
      subst h1; subst h2
      exact hno ⟨d0, by simp⟩
    · intro l1 d l2 hl hlast
      cases l1 with
      | nil =>
        simp only [List.nil_append, List.cons.injEq, Prod.mk.injEq] at hl
        obtain ⟨⟨rfl, rfl, rfl⟩, rfl⟩ := hl
        rw [g1 hlast, hrect, if_pos rfl]
        exact he
      | cons q l1 =>
        simp only [List.cons_append, List.cons.injEq] at hl
        exact g2 l1 d l2 hl.2 hlast

/-! ### Start and goal cell -/

/-- **C83 (start and goal).**  The square drawn for a start or goal cell covers the square of that cell, but is one pixel
too large in both directions. -/
theorem fillCell_pixel {scale : Nat} (hsc : 0 < scale) (mapH : Nat) (o : Img Col) (x y : Nat) (hy : y < mapH) (col : Col)
    (r c : Int) :
    (InSquare scale (mapH * scale) x y r c → (fillCell scale mapH o (x : K) (y : K) col).px r c = col) ∧
    ((fillCell scale mapH o (x : K) (y : K) col).px r c = 
      if (scale * x ≤ c ∧ c ≤ scale * x + scale) ∧
        ((mapH : Int) * scale - scale * y - scale ≤ r ∧ r ≤ (mapH : Int) * scale - scale * y) then col else o.px r c) := by
  have hp : p2cv (x : K) ((y : K) + 1) mapH scale =
      ((scale : Int) * x, (mapH : Int) * scale - scale * y - scale) := by
    have e1 : (x : K) * ((scale : Int) : K) = (((scale : Int) * x : Int) : K) := by push_cast; ring
    have e2 : (((mapH : Int) : K) - ((y : K) + 1)) * ((scale : Int) : K) =
        (((mapH : Int) * scale - scale * y - scale : Int) : K) := by push_cast; ring
    have hpos : (0 : Int) ≤ (mapH : Int) * scale - scale * y - scale := by
      have : ((y : Int) + 1) * scale ≤ mapH * scale := mul_le_mul_of_nonneg_right (by omega) (by omega)
      linarith
    have t : ∀ z : Int, 0 ≤ z → truncC (z : K) = z := by
      intro z hz
      rw [truncC_nonneg (by exact_mod_cast hz), Int.floor_intCast]
    unfold p2cv
    rw [e1, e2, t _ (by positivity), t _ hpos]
  have heq : (fillCell scale mapH o (x : K) (y : K) col).px r c = 
      if (scale * x ≤ c ∧ c ≤ scale * x + scale) ∧
        ((mapH : Int) * scale - scale * y - scale ≤ r ∧ r ≤ (mapH : Int) * scale - scale * y) then col else o.px r c := by
    unfold fillCell
    rw [hp]
    simp only [Img.rectFilled]
    rw [min_eq_left (by omega), max_eq_right (by omega), min_eq_left (by omega), max_eq_right (by omega)]
    congr 1
    rw [eq_iff_iff]
    constructor <;> intro h <;> refine ⟨⟨?_, ?_⟩, ?_, ?_⟩ <;> linarith [h.1.1, h.1.2, h.2.1, h.2.2]
  refine ⟨fun h => ?_, heq⟩
  rw [heq, if_pos]
  unfold InSquare at h
  omega

end

/-! ### Concrete cases -/

/-- A 2 × 1 map at three pixels per cell: the upper right pixel of each square shows the cell. -/
example : ∃ o', renderCells (Geo.setMap 3 2 1) 9 3 (fun x _ => x + 1) ⟨3, 6, fun _ _ => 0⟩ = .ok o' ∧
    o'.px 0 2 = 1 ∧ o'.px 0 5 = 2 ∧ o'.px 2 2 = 9 ∧ o'.px 0 3 = 9 := by
  obtain ⟨o', h1, _, _, h2⟩ := renderCells_pixel (w := 2) (h := 1) (n := 3) (by norm_num) 9 (fun x _ => x + 1)
    ⟨3, 6, fun _ _ => 0⟩ rfl rfl
  have key : ∀ (x y : Nat) (r c : Int), x < 2 → y < 1 → InSquare 3 3 x y r c →
      (OnRaster 3 3 r c → o'.px r c = 9) ∧ (¬ OnRaster 3 3 r c → o'.px r c = x + 1) := by
    intro x y r c hx hy hsq
    obtain ⟨g1, g2⟩ := h2 x y r c hx hy hsq
    exact ⟨fun h => g1 (by norm_num) h, fun h => g2 (fun hh => h hh.2)⟩
  refine ⟨o', h1, ?_, ?_, ?_, ?_⟩
  · exact (key 0 0 0 2 (by norm_num) (by norm_num) (by unfold InSquare; norm_num)).2 (by unfold OnRaster; decide)
  · exact (key 1 0 0 5 (by norm_num) (by norm_num) (by unfold InSquare; norm_num)).2 (by unfold OnRaster; decide)
  · exact (key 0 0 2 2 (by norm_num) (by norm_num) (by unfold InSquare; norm_num)).1 (by unfold OnRaster; decide)
  · exact (key 1 0 0 3 (by norm_num) (by norm_num) (by unfold InSquare; norm_num)).1 (by unfold OnRaster; decide)

/-- The middle of the scale of five colours. -/
example : ∃ v, stageColour [255, 200, 150, 100, (50 : ℚ)] 10 5 = .ok v := by
  obtain ⟨_, _, _, _, _, _, h⟩ := stageColour_convex (stages := [255, 200, 150, 100, (50 : ℚ)]) (maxd := 10) (d := 5)
    (by decide) (by norm_num) (by norm_num) (by norm_num)
  exact ⟨_, h⟩

example : visGrid 8 [255, 200, 150, 100, (50 : ℚ)] (maxDist [5, 0]) 3 ⟨24, 24, fun _ _ => 0⟩ [(1, 1, 5), (0, 1, 0)] =
    .ub := visGrid_start_ub (by decide) [(1, 1, 5), (0, 1, 0)] ⟨0, 1, by simp⟩ _

example : ∃ f : ℚ × ℚ, grey f.1 f.2 0 = .ok 255 ∧ grey f.1 f.2 4 = .ok 100 := by
  have h := findFocus_contrast (w := 2) (h := 1) (n := 8) (by norm_num) (dblMax := (1000 : ℚ)) (dblMin := 1 / 1000)
    (fun x y => decide ((0 ≤ x ∧ x < 2) ∧ (0 ≤ y ∧ y < 1))) (fun x _ => 4 * (x : ℚ)) (fun x y h => by simpa using h)
    (lo := 0) (hi := 4) (by norm_num) (by norm_num) (by norm_num)
    (fun x y h => by
      simp only [decide_eq_true_eq] at h
      right
      have h1 : (0 : ℚ) ≤ x := by exact_mod_cast h.1.1
      have h2 : (x : ℚ) ≤ 1 := by exact_mod_cast (by omega : x ≤ 1)
      constructor <;> linarith)
    ⟨0, 0, by decide, by norm_num⟩ ⟨1, 0, by decide, by norm_num⟩
  exact ⟨_, h.2⟩

end PathPlanning.Render
