import Verif.Props.RSFind
import Verif.Spec.Ring

/-!
# C39, circle segments: which cells are tested
-/

noncomputable section

namespace PathPlanning.RS
open Spec

section scan
variable (E : RSEnv) (c : Circ) (cx cy : Int)

/-- The verdict of `testPixel`. -/
def pixOk (p : Int × Int) : Bool :=
  E.map.inMap p.1 p.2 && (!c.onSegment E cx cy p.1 p.2 || (E.ignore || E.map.free p.1 p.2))

/-- The price `testPixel` adds. -/
def pixCost (p : Int × Int) : ℝ :=
  if E.map.inMap p.1 p.2 && c.onSegment E cx cy p.1 p.2 then
    ((max E.minCell (E.map.value p.1 p.2) : Nat) : ℝ) else 0

theorem testPixel_eq (x y : Int) (w : ℝ) :
    c.testPixel E cx cy x y w = (pixOk E c cx cy (x, y), w + pixCost E c cx cy (x, y)) := by
  unfold Circ.testPixel pixOk pixCost
  cases E.map.inMap x y <;> cases c.onSegment E cx cy x y <;> cases E.ignore <;> simp

/-- Verdict and price of a list of cells. -/
def pixAll (l : List (Int × Int)) (w : ℝ) : Bool × ℝ :=
  (l.all (pixOk E c cx cy), w + (l.map (pixCost E c cx cy)).sum)

/-- The cells of `test4Points`. -/
def pix4 (x y : Int) : List (Int × Int) :=
  (cx + x, cy + y) :: ((if x ≠ 0 then [(cx - x, cy + y)] else []) ++
    (if y ≠ 0 then [(cx + x, cy - y)] else []) ++
    (if x ≠ 0 ∧ y ≠ 0 then [(cx - x, cy - y)] else []))

theorem test4_eq (x y : Int) (w : ℝ) :
    c.test4 E cx cy x y w = pixAll E c cx cy (pix4 cx cy x y) w := by
  unfold Circ.test4 pixAll pix4
  by_cases hx : x = 0 <;> by_cases hy : y = 0 <;>
    simp [hx, hy, testPixel_eq, add_assoc, Bool.and_assoc]

/-- The cells of `test8Points`. -/
def pix8 (x y : Int) : List (Int × Int) :=
  pix4 cx cy x y ++ (if x ≠ y then pix4 cx cy y x else [])

theorem test8_eq (x y : Int) (w : ℝ) :
    c.test8 E cx cy x y w = pixAll E c cx cy (pix8 cx cy x y) w := by
  unfold Circ.test8 pix8
  by_cases h : x = y
  · simp [h, test4_eq]
  · simp [h, test4_eq, pixAll, add_assoc]

/-- The cells of `checkCircle`. -/
def ringList (cx cy : Int) : Nat → Int → Int → Int → Option (List (Int × Int))
  | 0, _, _, _ => none
  | fuel + 1, error, x, y =>
    if y ≤ x then
      let rest := if 0 ≤ error + y + (y + 1) then
          ringList cx cy fuel (error + y + (y + 1) - x - (x - 1)) (x - 1) (y + 1)
        else ringList cx cy fuel (error + y + (y + 1)) x (y + 1)
      rest.map (pix8 cx cy x y ++ ·)
    else some []

theorem checkLoop_eq (fuel : Nat) : ∀ (error x y : Int) (f : Bool) (w : ℝ) (l : List (Int × Int)),
    ringList cx cy fuel error x y = some l →
    c.checkLoop E cx cy fuel error x y f w =
      some (f && l.all (pixOk E c cx cy), w + (l.map (pixCost E c cx cy)).sum) := by
  induction fuel with
  | zero => intro error x y f w l h; simp [ringList] at h
  | succ fuel ih =>
    intro error x y f w l h
    rw [ringList] at h
    rw [Circ.checkLoop]
    by_cases hy : y ≤ x
    · simp only [if_pos hy] at h ⊢
      rw [test8_eq]
      by_cases h0 : 0 ≤ error + y + (y + 1)
      · simp only [if_pos h0, Option.map_eq_some_iff] at h ⊢
        obtain ⟨r, hr, rfl⟩ := h
        rw [ih _ _ _ _ _ _ hr]
        simp [pixAll, add_assoc, Bool.and_assoc]
      · simp only [if_neg h0, Option.map_eq_some_iff] at h ⊢
        obtain ⟨r, hr, rfl⟩ := h
        rw [ih _ _ _ _ _ _ hr]
        simp [pixAll, add_assoc, Bool.and_assoc]
    · simp only [if_neg hy, Option.some.injEq] at h ⊢
      subst h
      simp

end scan

/-! ### The cells are the digital circle -/

theorem mem_pix4 {cx cy x y : Int} (hx : 0 ≤ x) (hy : 0 ≤ y) (p : Int × Int) :
    p ∈ pix4 cx cy x y ↔ |p.1 - cx| = x ∧ |p.2 - cy| = y := by
  obtain ⟨a, b⟩ := p
  rw [abs_eq hx, abs_eq hy]
  unfold pix4
  by_cases h1 : x = 0 <;> by_cases h2 : y = 0 <;>
    simp [h1, h2] <;> omega

theorem nodup_pix4 (cx cy x y : Int) : (pix4 cx cy x y).Nodup := by
  unfold pix4
  by_cases h1 : x = 0 <;> by_cases h2 : y = 0 <;>
    simp [h1, h2] <;> omega

theorem mem_pix8 {cx cy x y : Int} (hy : 0 ≤ y) (hyx : y ≤ x) (p : Int × Int) :
    p ∈ pix8 cx cy x y ↔ max |p.1 - cx| |p.2 - cy| = x ∧ min |p.1 - cx| |p.2 - cy| = y := by
  unfold pix8
  rw [List.mem_append, mem_pix4 (by omega) hy]
  by_cases h : x = y
  · subst h; simp; omega
  · simp only [ne_eq, h, not_false_eq_true, if_true]
    rw [mem_pix4 hy (by omega)]
    omega

theorem nodup_pix8 {cx cy x y : Int} (hy : 0 ≤ y) (hyx : y ≤ x) : (pix8 cx cy x y).Nodup := by
  unfold pix8
  by_cases h : x = y
  · simp [h, nodup_pix4]
  · simp only [ne_eq, h, not_false_eq_true, if_true]
    rw [List.nodup_append]
    refine ⟨nodup_pix4 _ _ _ _, nodup_pix4 _ _ _ _, ?_⟩
    intro p hp q hq e
    subst e
    rw [mem_pix4 (by omega) hy] at hp
    rw [mem_pix4 hy (by omega)] at hq
    omega

theorem ringList_spec (cx cy r : Int) (fuel : Nat) : ∀ (e x y : Int),
    e = x ^ 2 + y ^ 2 - r ^ 2 - r → 0 ≤ y → -1 ≤ x → (y ≤ x → e < 0) →
    r ^ 2 + r ≤ (x + 1) ^ 2 + y ^ 2 → x + 1 - y < fuel → 0 < fuel →
    ∃ l, ringList cx cy fuel e x y = some l ∧ l.Nodup ∧
      ∀ p : Int × Int, p ∈ l ↔ y ≤ min |p.1 - cx| |p.2 - cy| ∧ RingCell r (cx, cy) p := by
  induction fuel with
  | zero => intro e x y _ _ _ _ _ _ h; omega
  | succ fuel ih =>
    intro e x y he hy hx hlt hge hf _
    rw [ringList]
    by_cases hyx : y ≤ x
    · rw [if_pos hyx]
      have hlt := hlt hyx
      have key : ∀ (rest : Option (List (Int × Int))),
          (∃ l, rest = some l ∧ l.Nodup ∧ ∀ p : Int × Int, p ∈ l ↔
            y + 1 ≤ min |p.1 - cx| |p.2 - cy| ∧ RingCell r (cx, cy) p) →
          ∃ l, rest.map (pix8 cx cy x y ++ ·) = some l ∧ l.Nodup ∧ ∀ p : Int × Int, p ∈ l ↔
            y ≤ min |p.1 - cx| |p.2 - cy| ∧ RingCell r (cx, cy) p := by
        rintro rest ⟨l, rfl, hn, hm⟩
        refine ⟨_, rfl, ?_, ?_⟩
        · rw [List.nodup_append]
          refine ⟨nodup_pix8 hy hyx, hn, ?_⟩
          intro p hp q hq e
          subst e
          rw [mem_pix8 hy hyx] at hp
          rw [hm] at hq
          omega
        · intro p
          rw [List.mem_append, mem_pix8 hy hyx, hm]
          unfold RingCell
          simp only
          set a := max |p.1 - cx| |p.2 - cy| with ha
          set b := min |p.1 - cx| |p.2 - cy| with hb
          have hab : b ≤ a := min_le_max
          have hb0 : 0 ≤ b := le_min (abs_nonneg _) (abs_nonneg _)
          constructor
          · rintro (⟨h1, h2⟩ | ⟨h1, h2⟩)
            · rw [h1, h2]; exact ⟨le_rfl, by linarith, hge⟩
            · exact ⟨by omega, h2⟩
          · rintro ⟨h1, h2, h3⟩
            rcases Int.lt_or_eq_of_le h1 with h | h
            · exact Or.inr ⟨by omega, h2, h3⟩
            · left
              refine ⟨?_, h.symm⟩
              rw [← h] at h2 h3
              have u1 : a < x + 1 := by
                by_contra hc
                have : (x + 1) ^ 2 ≤ a ^ 2 := pow_le_pow_left₀ (by omega) (by omega) 2
                omega
              have u2 : x < a + 1 := by
                by_contra hc
                have : (a + 1) ^ 2 ≤ x ^ 2 := pow_le_pow_left₀ (by omega) (by omega) 2
                omega
              omega
      have he' : e + y + (y + 1) = x ^ 2 + (y + 1) ^ 2 - r ^ 2 - r := by rw [he]; ring
      by_cases h0 : 0 ≤ e + y + (y + 1)
      · rw [if_pos h0]
        apply key
        refine ih _ _ _ (by rw [he]; ring) (by omega) (by omega) ?_ ?_ (by push_cast at hf; omega)
          (by push_cast at hf; omega)
        · intro h; omega
        · have : (x - 1 + 1) ^ 2 = x ^ 2 := by ring
          rw [this]; omega
      · rw [if_neg h0]
        apply key
        refine ih _ _ _ (by rw [he]; ring) (by omega) (by omega) (fun _ => by omega) ?_
          (by push_cast at hf; omega) (by push_cast at hf; omega)
        have : y ^ 2 ≤ (y + 1) ^ 2 := pow_le_pow_left₀ hy (by omega) 2
        omega
    · rw [if_neg hyx]
      refine ⟨[], rfl, List.nodup_nil, ?_⟩
      intro p
      simp only [List.not_mem_nil, false_iff, not_and]
      intro h1 h2
      unfold RingCell at h2
      simp only at h2
      set a := max |p.1 - cx| |p.2 - cy| with ha
      set b := min |p.1 - cx| |p.2 - cy| with hb
      have hab : b ≤ a := min_le_max
      have q1 : (x + 1) ^ 2 ≤ a ^ 2 := pow_le_pow_left₀ (by omega) (by omega) 2
      have q2 : y ^ 2 ≤ b ^ 2 := pow_le_pow_left₀ hy (by omega) 2
      omega

/-- **C39, circles.** For any centre cell and radius of at least one cell the tested cells are exactly
the cells of the digital circle, each tested once: the test succeeds iff all of them lie in the map
and those on the driven arc are free (or obstacles are ignored), and the cell sum is
`Σ max(min_cell_cost, value)` over the cells on the arc in the map. -/
theorem checkCircle_spec (cx cy r : Int) (hr : 1 ≤ r) :
    ∃ cells : List (Int × Int), cells.Nodup ∧ (∀ p, p ∈ cells ↔ RingCell r (cx, cy) p) ∧
      ∀ (E : RSEnv) (c : Circ), ∃ s, c.checkCircle E cx cy r = some s ∧
        (s.1 = true ↔ ∀ p, RingCell r (cx, cy) p → E.map.inMap p.1 p.2 = true ∧
          (c.onSegment E cx cy p.1 p.2 = true → E.ignore = true ∨ E.map.free p.1 p.2 = true)) ∧
        s.2 = ((cells.filter fun p => E.map.inMap p.1 p.2 && c.onSegment E cx cy p.1 p.2).map
          fun p => ((max E.minCell (E.map.value p.1 p.2) : Nat) : ℝ)).sum := by
  obtain ⟨l, hl, hn, hm⟩ := ringList_spec cx cy r (r.toNat + 2) (-r) r 0 (by ring) le_rfl (by omega)
    (by omega) (by nlinarith) (by omega) (by omega)
  have hm' : ∀ p, p ∈ l ↔ RingCell r (cx, cy) p := fun p => by
    rw [hm p]
    exact ⟨fun h => h.2, fun h => ⟨le_min (abs_nonneg _) (abs_nonneg _), h⟩⟩
  refine ⟨l, hn, hm', fun E c => ⟨_, checkLoop_eq E c cx cy _ _ _ _ _ _ _ hl, ?_, ?_⟩⟩
  · simp only [Bool.true_and, List.all_eq_true, hm']
    refine forall_congr' fun p => imp_congr_right fun _ => ?_
    unfold pixOk
    cases E.map.inMap p.1 p.2 <;> cases c.onSegment E cx cy p.1 p.2 <;> simp
  · simp only [zero_add]
    clear hn hm hm' hl
    induction l with
    | nil => rfl
    | cons p ps ih =>
      rw [List.filter_cons, List.map_cons, List.sum_cons, ih]
      unfold pixCost
      split_ifs <;> simp

/-- A radius below one cell: only the centre cell is tested. -/
theorem checkCircle_zero (cx cy : Int) (E : RSEnv) (c : Circ) :
    c.checkCircle E cx cy 0 = some (pixOk E c cx cy (cx, cy), pixCost E c cx cy (cx, cy)) := by
  unfold Circ.checkCircle
  rw [checkLoop_eq E c cx cy _ _ _ _ _ _ [(cx, cy)]]
  · simp
  · simp [ringList, pix8, pix4]

/-- The loop of `checkCircle` terminates. -/
theorem checkCircle_terminates (E : RSEnv) (c : Circ) (cx cy r : Int) :
    (c.checkCircle E cx cy r).isSome = true := by
  rcases lt_trichotomy r 0 with h | rfl | h
  · unfold Circ.checkCircle
    rw [Circ.checkLoop, if_neg (by omega)]; rfl
  · rw [checkCircle_zero]; rfl
  · obtain ⟨_, _, _, hs⟩ := checkCircle_spec cx cy r (by omega)
    obtain ⟨s, h, _⟩ := hs E c
    rw [h]; rfl

/-- Accuracy: the centres of the tested cells are between `r - 1` and `r + 1` away from the centre of
the circle. -/
theorem ringCell_accurate {r : Int} (hr : 1 ≤ r) {c p : Int × Int} (h : RingCell r c p) :
    (r - 1) ^ 2 < (p.1 - c.1) ^ 2 + (p.2 - c.2) ^ 2 ∧
      (p.1 - c.1) ^ 2 + (p.2 - c.2) ^ 2 < (r + 1) ^ 2 := by
  unfold RingCell at h
  simp only at h
  have e : (max |p.1 - c.1| |p.2 - c.2|) ^ 2 + (min |p.1 - c.1| |p.2 - c.2|) ^ 2 =
      (p.1 - c.1) ^ 2 + (p.2 - c.2) ^ 2 := by
    rcases le_total |p.1 - c.1| |p.2 - c.2| with h | h
    · rw [max_eq_right h, min_eq_left h, sq_abs, sq_abs]; ring
    · rw [max_eq_left h, min_eq_right h, sq_abs, sq_abs]
  set a := max |p.1 - c.1| |p.2 - c.2|
  set b := min |p.1 - c.1| |p.2 - c.2|
  have ha : 0 ≤ a := (abs_nonneg _).trans (le_max_left _ _)
  have hb : 0 ≤ b := le_min (abs_nonneg _) (abs_nonneg _)
  rw [← e]
  obtain ⟨h1, h2⟩ := h
  refine ⟨?_, by nlinarith⟩
  by_contra hc
  push Not at hc
  have har : a ≤ r - 1 := by
    by_contra hx
    have : r ^ 2 ≤ a ^ 2 := pow_le_pow_left₀ (by omega) (by omega) 2
    nlinarith [sq_nonneg b]
  nlinarith

/-- The digital circle of radius 1 has 4 cells (its corners are too far away); of radius 4, the cell
(4,1) belongs to it and (4,2) does not. -/
example : RingCell 1 (0, 0) (1, 0) ∧ ¬ RingCell 1 (0, 0) (1, 1) ∧ RingCell 4 (5, 5) (6, 9) ∧
    ¬ RingCell 4 (5, 5) (7, 9) := by
  unfold RingCell; decide

/-! ### The driven arc -/

/-- **C39.** The angular test of a cell: it is on the segment iff the arc passes over its direction
(for a normaliser into `(-π, π]`). -/
theorem onSegment_iff {E : RSEnv} (hC : ClampSpec E.clamp) (hpi : ∀ t, -Real.pi < E.clamp t) {c : Circ}
    (hf : c.Fit E) (hr : 0 < c.radius) (hd : 0 < E.maxDist) (cx cy x y : Int)
    (hne : ¬ (x = cx ∧ y = cy)) :
    c.onSegment E cx cy x y = true ↔ ArcPasses c.aStart c.arc ((x - cx : Int) : ℝ) ((y - cy : Int) : ℝ) := by
  obtain ⟨harc, hstep, _⟩ := hf
  obtain ⟨⟨k0, hk0⟩, hp1, hp2⟩ := computeArc_spec hC c
  rw [← harc] at hk0 hp1 hp2
  have hone : oriSign c.ori * dirSign c.dir = 1 ∨ oriSign c.ori * dirSign c.dir = -1 := by
    cases c.ori <;> cases c.dir <;> norm_num [oriSign, dirSign]
  obtain ⟨ks, hks⟩ := hC.mod c.aStart
  obtain ⟨ke, hke⟩ := hC.mod c.aEnd
  have s1 := hpi c.aStart
  have s2 := hC.hi c.aStart
  have e1 := hpi c.aEnd
  have e2 := hC.hi c.aEnd
  set s := E.clamp c.aStart with hs
  set e := E.clamp c.aEnd with he
  set φ := atan2 ((y - cy : Int) : ℝ) ((x - cx : Int) : ℝ) with hφ
  set A := c.arc with hA
  have π0 := Real.pi_pos
  -- the direction of the cell
  obtain ⟨f1, f2⟩ : -Real.pi < φ ∧ φ ≤ Real.pi := ⟨Complex.neg_pi_lt_arg _, Complex.arg_le_pi _⟩
  have hdist : ∃ d : ℝ, 0 < d ∧ ((x - cx : Int) : ℝ) = d * Real.cos φ ∧
      ((y - cy : Int) : ℝ) = d * Real.sin φ := by
    have hv : (⟨((x - cx : Int) : ℝ), ((y - cy : Int) : ℝ)⟩ : P2) ≠ ⟨0, 0⟩ := by
      intro h
      have h1 := congrArg P2.x h
      have h2 := congrArg P2.y h
      simp only at h1 h2
      have h1 : x - cx = 0 := by exact_mod_cast h1
      have h2 : y - cy = 0 := by exact_mod_cast h2
      exact hne ⟨by omega, by omega⟩
    set v : P2 := ⟨((x - cx : Int) : ℝ), ((y - cy : Int) : ℝ)⟩ with hv'
    refine ⟨v.length, P2.length_pos hv, ?_, ?_⟩
    · have := polar_x v; rw [mul_comm] at this; exact this
    · have := polar_y v; rw [mul_comm] at this; exact this
  have hpass : ArcPasses c.aStart A ((x - cx : Int) : ℝ) ((y - cy : Int) : ℝ) ↔
      ∃ t : ℝ, 0 ≤ t ∧ t ≤ 1 ∧ ∃ k : Int, φ = s + t * A + k * (2 * Real.pi) := by
    obtain ⟨d, d0, dx, dy⟩ := hdist
    constructor
    · rintro ⟨t, t0, t1, d', d0', dx', dy'⟩
      have hl : d = d' := by
        have q1 : d ^ 2 = ((x - cx : Int) : ℝ) ^ 2 + ((y - cy : Int) : ℝ) ^ 2 := by
          rw [dx, dy]; linear_combination -(d ^ 2) * (Real.sin_sq_add_cos_sq φ)
        have q2 : d' ^ 2 = ((x - cx : Int) : ℝ) ^ 2 + ((y - cy : Int) : ℝ) ^ 2 := by
          rw [dx', dy']
          linear_combination -(d' ^ 2) * (Real.sin_sq_add_cos_sq (c.aStart + t * A))
        exact (pow_left_inj₀ d0.le d0'.le two_ne_zero).1 (q1.trans q2.symm)
      subst hl
      obtain ⟨k, hk⟩ := angle_cong (a := φ) (b := c.aStart + t * A)
        (mul_left_cancel₀ d0.ne' (dx.symm.trans dx')) (mul_left_cancel₀ d0.ne' (dy.symm.trans dy'))
      exact ⟨t, t0, t1, k - ks, by push_cast; rw [hk, hks]; ring⟩
    · rintro ⟨t, t0, t1, k, hk⟩
      have : φ = (c.aStart + t * A) + ((k + ks : Int) : ℝ) * (2 * Real.pi) := by
        push_cast; rw [hk, hks]; ring
      refine ⟨t, t0, t1, d, d0, ?_, ?_⟩
      · rw [dx, this, Real.cos_add_int_mul_two_pi]
      · rw [dy, this, Real.sin_add_int_mul_two_pi]
  rw [hpass]
  have hAk : A = e - s + ((k0 - ke + ks : Int) : ℝ) * (2 * Real.pi) := by
    push_cast; rw [hk0, hks, hke]; ring
  generalize (k0 - ke + ks : Int) = j at hAk
  have jbound : ∀ {n : Int} {u : ℝ}, u = (n : ℝ) * (2 * Real.pi) → u < 2 * Real.pi →
      -(2 * Real.pi) < u → n = 0 := by
    intro n u h1 h2 h3
    have k1 : (n : ℝ) < 1 := by
      by_contra hh; push Not at hh
      have := mul_le_mul_of_nonneg_right hh (by linarith : (0:ℝ) ≤ 2 * Real.pi)
      linarith
    have k2 : (-1 : ℝ) < n := by
      by_contra hh; push Not at hh
      have := mul_le_mul_of_nonneg_right hh (by linarith : (0:ℝ) ≤ 2 * Real.pi)
      linarith
    have a1 : n < 1 := by exact_mod_cast k1
    have a2 : -1 < n := by exact_mod_cast k2
    omega
  -- `φ` lies in the interval swept, up to full turns
  have hint : (∃ t : ℝ, 0 ≤ t ∧ t ≤ 1 ∧ ∃ k : Int, φ = s + t * A + k * (2 * Real.pi)) ↔
      ∃ k : Int, min 0 A ≤ φ - s - k * (2 * Real.pi) ∧ φ - s - k * (2 * Real.pi) ≤ max 0 A := by
    constructor
    · rintro ⟨t, t0, t1, k, hk⟩
      refine ⟨k, ?_, ?_⟩
      · have e1 : φ - s - k * (2 * Real.pi) = t * A := by linarith
        rw [e1]
        rcases le_total 0 A with h | h
        · rw [min_eq_left h]; positivity
        · rw [min_eq_right h]; nlinarith
      · have e1 : φ - s - k * (2 * Real.pi) = t * A := by linarith
        rw [e1]
        rcases le_total 0 A with h | h
        · rw [max_eq_right h]; nlinarith
        · rw [max_eq_left h]; nlinarith
    · rintro ⟨k, h1, h2⟩
      rcases eq_or_ne A 0 with h | h
      · rw [h, min_self] at h1; rw [h, max_self] at h2
        exact ⟨0, le_rfl, zero_le_one, k, by linarith⟩
      · refine ⟨(φ - s - k * (2 * Real.pi)) / A, ?_, ?_, k, by field_simp; ring⟩
        · rcases lt_or_gt_of_ne h with h | h
          · rw [max_eq_left h.le] at h2
            exact div_nonneg_of_nonpos h2 h.le
          · rw [min_eq_left h.le] at h1
            exact div_nonneg h1 h.le
        · rcases lt_or_gt_of_ne h with h | h
          · rw [min_eq_right h.le] at h1
            rw [div_le_one_of_neg h]; exact h1
          · rw [max_eq_right h.le] at h2
            rw [div_le_one h]; exact h2
  rw [hint]
  have hq : 0 < E.maxDist / c.radius := div_pos hd hr
  have kcase : ∀ k : Int, k ≤ -2 ∨ k = -1 ∨ k = 0 ∨ k = 1 ∨ 2 ≤ k := fun k => by omega
  have klo : ∀ {k : Int}, k ≤ -2 → (k : ℝ) * (2 * Real.pi) ≤ -(4 * Real.pi) := by
    intro k h
    have : (k : ℝ) ≤ -2 := by exact_mod_cast h
    nlinarith
  have khi : ∀ {k : Int}, 2 ≤ k → 4 * Real.pi ≤ (k : ℝ) * (2 * Real.pi) := by
    intro k h
    have : (2 : ℝ) ≤ k := by exact_mod_cast h
    nlinarith
  unfold Circ.onSegment
  simp only [← hs, ← he, ← hφ]
  rcases hone with h1 | h1
  · obtain ⟨a0, a1⟩ := hp1 h1
    have hinc : (0 < c.step) := by
      rw [hstep]
      have : (c.computeArc E).step = E.maxDist / c.radius *
          (if 0 ≤ (c.computeArc E).arc then 1 else -1) := rfl
      rw [this, ← harc, if_pos a0, mul_one]; exact hq
    rw [min_eq_left a0, max_eq_right a0]
    simp only [hinc, decide_true, Bool.not_true, Bool.false_eq_true, if_false, if_true]
    by_cases hes : e < s
    · rw [if_pos hes]
      have hj : A = e - s + 2 * Real.pi := by
        have := jbound (n := j - 1) (u := A - (e - s) - 2 * Real.pi) (by push_cast; rw [hAk]; ring)
          (by linarith) (by linarith)
        have : j = 1 := by omega
        rw [hAk, this]; push_cast; ring
      simp only [Bool.or_eq_true, decide_eq_true_eq]
      constructor
      · rintro (h | h)
        · exact ⟨0, by push_cast; linarith, by push_cast; linarith⟩
        · exact ⟨-1, by push_cast; linarith, by push_cast; linarith⟩
      · rintro ⟨k, b1, b2⟩
        rcases kcase k with h | h | h | h | h
        · exfalso; have := klo h; linarith
        · subst h; push_cast at b1 b2; right; linarith
        · subst h; push_cast at b1 b2; left; linarith
        · subst h; push_cast at b1 b2; exfalso; linarith
        · exfalso; have := khi h; linarith
    · rw [if_neg hes]
      push Not at hes
      have hj : A = e - s := by
        have := jbound (n := j) (u := A - (e - s)) (by rw [hAk]; ring) (by linarith) (by linarith)
        rw [hAk, this]; push_cast; ring
      simp only [Bool.and_eq_true, decide_eq_true_eq]
      constructor
      · rintro ⟨h, h'⟩
        exact ⟨0, by push_cast; linarith, by push_cast; linarith⟩
      · rintro ⟨k, b1, b2⟩
        rcases kcase k with h | h | h | h | h
        · exfalso; have := klo h; linarith
        · subst h; push_cast at b1 b2; exfalso; linarith
        · subst h; push_cast at b1 b2; constructor <;> linarith
        · subst h; push_cast at b1 b2; exfalso; linarith
        · exfalso; have := khi h; linarith
  · obtain ⟨a0, a1⟩ := hp2 h1
    have hinc : ¬ (0 < c.step) := by
      rw [hstep]
      have : (c.computeArc E).step = E.maxDist / c.radius *
          (if 0 ≤ (c.computeArc E).arc then 1 else -1) := rfl
      rw [this, ← harc, if_neg (not_le.2 a1)]; linarith
    rw [min_eq_right a1.le, max_eq_left a1.le]
    simp only [hinc, decide_false, Bool.not_false, Bool.false_eq_true, if_false, if_true]
    by_cases hes : e < s
    · rw [if_pos hes]
      have hj : A = e - s := by
        have := jbound (n := j) (u := A - (e - s)) (by rw [hAk]; ring) (by linarith) (by linarith)
        rw [hAk, this]; push_cast; ring
      simp only [Bool.and_eq_true, decide_eq_true_eq]
      constructor
      · rintro ⟨h, h'⟩
        exact ⟨0, by push_cast; linarith, by push_cast; linarith⟩
      · rintro ⟨k, b1, b2⟩
        rcases kcase k with h | h | h | h | h
        · exfalso; have := klo h; linarith
        · subst h; push_cast at b1 b2; exfalso; linarith
        · subst h; push_cast at b1 b2; constructor <;> linarith
        · subst h; push_cast at b1 b2; exfalso; linarith
        · exfalso; have := khi h; linarith
    · rw [if_neg hes]
      push Not at hes
      have hj : A = e - s - 2 * Real.pi := by
        have := jbound (n := j + 1) (u := A - (e - s) + 2 * Real.pi) (by push_cast; rw [hAk]; ring)
          (by linarith) (by linarith)
        have : j = -1 := by omega
        rw [hAk, this]; push_cast; ring
      simp only [Bool.or_eq_true, decide_eq_true_eq]
      constructor
      · rintro (h | h)
        · exact ⟨0, by push_cast; linarith, by push_cast; linarith⟩
        · exact ⟨1, by push_cast; linarith, by push_cast; linarith⟩
      · rintro ⟨k, b1, b2⟩
        rcases kcase k with h | h | h | h | h
        · exfalso; have := klo h; linarith
        · subst h; push_cast at b1 b2; exfalso; linarith
        · subst h; push_cast at b1 b2; left; linarith
        · subst h; push_cast at b1 b2; right; linarith
        · exfalso; have := khi h; linarith

end PathPlanning.RS
