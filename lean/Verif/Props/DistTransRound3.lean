import Verif.Props.DistTransRound2
import Verif.Props.GridRound3

/-!
# C125: the distance transformation with `double`, and the heuristic built on it
-/

noncomputable section

namespace PathPlanning.DTR

open Spec
open DT (Cell Usable InArr nb8)

variable {F : Fmt}

/-- `k` roundings, as a relative error. -/
theorem near_abs {k : ℕ} (hk : (k : ℝ) * F.u ≤ 1 / 2) {x L : ℝ} (hL : 0 ≤ L) (h1 : (1 - F.u) ^ k * L ≤ x)
    (h2 : x ≤ (1 + F.u) ^ k * L) : |x - L| ≤ k * (2 * F.u) * L := by
  have hu := F.u_nonneg
  have hu1 := F.u_lt
  have h3 := ratio_bound hu (a := 0) (b := k) (by push_cast; linarith) hL (x := x) (by simpa using h2)
  have h4 : 1 - (k : ℝ) * F.u ≤ (1 - F.u) ^ k := by
    have := one_add_mul_le_pow (a := -F.u) (by linarith) k
    have e : (1 : ℝ) + -F.u = 1 - F.u := by ring
    rw [e] at this
    linarith
  have h5 : (1 - (k : ℝ) * F.u) * L ≤ x := (mul_le_mul_of_nonneg_right h4 hL).trans h1
  push_cast at h3
  have h6 : 0 ≤ (k : ℝ) * F.u * L := by positivity
  rw [abs_le]
  constructor <;> nlinarith

theorem walk_nonneg {okc : Int × Int → Prop} {goal v : Int × Int} {L : ℝ} (h : Walk okc goal v L) : 0 ≤ L := by
  induction h with
  | nil => exact le_refl _
  | @snoc u v L hw ht hv ih =>
    have := DT.stepLen_ge_one u v
    linarith

/-- **The transformation with `double`.**  On a map with fewer than `2^51` interior cells the loop ends within
`(w-2)(h-2) + 1` rounds, and then: infinite costs are those of the occupied cells (other than the goal), the cells with
the largest double are the free cells no walk leads to, and all other costs are lengths of shortest walks up to a relative
error of `2^-52` per interior cell. -/
theorem double_costs {r : ℝ → ℤ} (hrr : WholeRounding r) {w h : Nat} (hs : (w - 2) * (h - 2) < 2 ^ 51)
    (occ : Cell → Bool) (goal : Cell) {n : Nat} (hn : (w - 2) * (h - 2) + 1 ≤ n) :
    ∃ c, loopF (doubleFmt r hrr) w h n occ goal = some c ∧
    (∀ v, c v = inf ↔ occ v = true ∧ v ≠ goal) ∧
    (∀ v, c v = big ↔ occ v = false ∧ v ≠ goal ∧ NoWalk (FreeInterior w h occ) goal v) ∧
    (∀ v x, c v = fin x → ∃ L, ShortestWalk (FreeInterior w h occ) goal v L ∧
      |x.1 - L| ≤ (((w - 2) * (h - 2) + 1 : ℕ) : ℝ) * (2 : ℝ)⁻¹ ^ 52 * L) := by
  obtain ⟨c, hl⟩ := round_ends (doubleFmt r hrr) w h occ goal n hn
  obtain ⟨h1, h2, h3⟩ := round_costs hl
  refine ⟨c, hl, h1, h2, fun v x hx => ?_⟩
  obtain ⟨L, hs', a, b⟩ := h3 v x hx
  have hk : (((w - 2) * (h - 2) + 1 : ℕ) : ℝ) ≤ 2 ^ 51 := by exact_mod_cast hs
  have := near_abs (F := doubleFmt r hrr) (k := (w - 2) * (h - 2) + 1) (by
    show _ * (2 : ℝ)⁻¹ ^ 53 ≤ 1 / 2
    calc _ ≤ (2 : ℝ) ^ 51 * (2 : ℝ)⁻¹ ^ 53 := mul_le_mul_of_nonneg_right hk (by positivity)
      _ ≤ 1 / 2 := by norm_num) (walk_nonneg hs'.1) a b
  refine ⟨L, hs', ?_⟩
  have e : 2 * (doubleFmt r hrr).u = (2 : ℝ)⁻¹ ^ 52 := by
    show 2 * (2 : ℝ)⁻¹ ^ 53 = (2 : ℝ)⁻¹ ^ 52
    norm_num
  rwa [e] at this

/-- **The path with `double`**: whenever a walk through free interior cells connects start and goal, the search over the 8
neighbours succeeds, and its path is at most `√2` times as long as the walk, up to `2^-51` per interior cell. -/
theorem double_path {r : ℝ → ℤ} (hrr : WholeRounding r) {w h : Nat} (hs : (w - 2) * (h - 2) < 2 ^ 51)
    {occ : Cell → Bool} {goal start : Cell} (hg : 0 ≤ goal.1 ∧ 0 ≤ goal.2 ∧ goal.1 < w ∧ goal.2 < h) {L : ℝ}
    (hw : Walk (FreeInterior w h occ) goal start L) :
    ∃ c p, loopF (doubleFmt r hrr) w h ((w - 2) * (h - 2) + 1) occ goal = some c ∧
      backtrack w h nb8 c goal (w * h + 1) start = some p ∧ p.head? = some start ∧ p.getLast? = some goal ∧
      (∀ v ∈ p, v = goal ∨ FreeInterior w h occ v) ∧ p.IsChain Touch ∧ p.Nodup ∧
      cellsLen p ≤ Real.sqrt 2 * ((1 + (((w - 2) * (h - 2) + 1 : ℕ) : ℝ) * (2 : ℝ)⁻¹ ^ 51) * L) := by
  obtain ⟨c, hl⟩ := round_ends (doubleFmt r hrr) w h occ goal _ (le_refl _)
  have hk : (((w - 2) * (h - 2) + 1 : ℕ) : ℝ) ≤ 2 ^ 51 := by exact_mod_cast hs
  obtain ⟨p, h1, h2, h3, h4, h5, h6, h7⟩ := round_path (F := doubleFmt r hrr) (by
    show 4 * _ * (2 : ℝ)⁻¹ ^ 53 ≤ 1
    calc 4 * _ * (2 : ℝ)⁻¹ ^ 53 ≤ 4 * (2 : ℝ) ^ 51 * (2 : ℝ)⁻¹ ^ 53 :=
        mul_le_mul_of_nonneg_right (by linarith) (by positivity)
      _ ≤ 1 := by norm_num) hg hl hw
  refine ⟨c, p, hl, h1, h2, h3, h4, h5, h6, h7.trans (le_of_eq ?_)⟩
  have e : (doubleFmt r hrr).u = (2 : ℝ)⁻¹ ^ 53 := rfl
  rw [e]
  have e2 : 4 * (((w - 2) * (h - 2) + 1 : ℕ) : ℝ) * (2 : ℝ)⁻¹ ^ 53 = (((w - 2) * (h - 2) + 1 : ℕ) : ℝ) * (2 : ℝ)⁻¹ ^ 51 := by
    norm_num; ring
  rw [e2]

/-- The three cases of the heuristic. -/
theorem holoCompute_cases (padding : Nat) (c : Costs F.D) (res : F.D) (v : Cell) :
    (c (v.1 + padding, v.2 + padding) = inf ∧ holoCompute padding c res v = none) ∨
    (c (v.1 + padding, v.2 + padding) = big ∧ holoCompute padding c res v = some 0) ∨
    ∃ x, c (v.1 + padding, v.2 + padding) = fin x ∧ holoCompute padding c res v = some (x * res) := by
  unfold holoCompute
  rcases val_cases (c (v.1 + padding, v.2 + padding)) with e | e | ⟨x, e⟩
  · exact Or.inl ⟨e, by rw [e]; rfl⟩
  · exact Or.inr (Or.inl ⟨e, by rw [e]; rfl⟩)
  · exact Or.inr (Or.inr ⟨x, e, by rw [e]; rfl⟩)

/-- **The obstacle heuristic with `double`.**  On the padded array the heuristic of a cell is infinite if the cell asked
for is occupied, 0 if no walk leads to it, and otherwise the length of a shortest walk in metres, up to a relative error of
`2^-52` per interior cell and one more. -/
theorem double_heuristic {r : ℝ → ℤ} (hrr : WholeRounding r) {W H padding : Nat} {w h : Nat} (ew : w = W + 2 * padding)
    (eh : h = H + 2 * padding) (hs : (w - 2) * (h - 2) < 2 ^ 51) (occ : Cell → Bool) (goal : Cell)
    {res : (doubleFmt r hrr).D} (hr : 0 ≤ res.1) {n : Nat} (hn : (w - 2) * (h - 2) + 1 ≤ n) :
    ∃ c, holoF (doubleFmt r hrr) W H padding occ goal n = some c ∧ ∀ v : Cell,
      let at' : Cell := (v.1 + padding, v.2 + padding)
      let goal' : Cell := (goal.1 + padding, goal.2 + padding)
      (holoCompute padding c res v = none ↔ occ at' = true ∧ v ≠ goal) ∧
      (occ at' = false → v ≠ goal → NoWalk (FreeInterior w h occ) goal' at' → holoCompute padding c res v = some 0) ∧
      (∀ L, ShortestWalk (FreeInterior w h occ) goal' at' L → ∃ y, holoCompute padding c res v = some y ∧
        |y.1 - L * res.1| ≤ (((w - 2) * (h - 2) + 2 : ℕ) : ℝ) * (2 : ℝ)⁻¹ ^ 52 * (L * res.1)) := by
  subst ew eh
  obtain ⟨c, hl⟩ := round_ends (doubleFmt r hrr) (W + 2 * padding) (H + 2 * padding) occ
    (goal.1 + padding, goal.2 + padding) n hn
  obtain ⟨h1, h2, h3⟩ := round_costs hl
  refine ⟨c, hl, fun v => ?_⟩
  have hne : ((v.1 + padding, v.2 + padding) : Cell) = (goal.1 + padding, goal.2 + padding) ↔ v = goal := by
    obtain ⟨a, b⟩ := v
    obtain ⟨a', b'⟩ := goal
    simp
  set at' : Cell := (v.1 + padding, v.2 + padding) with hat
  set goal' : Cell := (goal.1 + padding, goal.2 + padding) with hgo
  refine ⟨?_, ?_, ?_⟩
  · have e0 : occ at' = true ∧ v ≠ goal ↔ occ at' = true ∧ at' ≠ goal' := and_congr_right fun _ => (not_congr hne).symm
    rw [e0, ← h1 at']
    rcases holoCompute_cases padding c res v with ⟨e, e2⟩ | ⟨e, e2⟩ | ⟨x, e, e2⟩
    · rw [e2, hat, e]; simp
    · rw [e2, hat, e]; simp [big_lt_inf.ne]
    · rw [e2, hat, e]; simp [((fin_lt_big x).trans big_lt_inf).ne]
  · intro ho hv hnw
    have hb := (h2 at').2 ⟨ho, fun e => hv (hne.1 e), hnw⟩
    rcases holoCompute_cases padding c res v with ⟨e, e2⟩ | ⟨e, e2⟩ | ⟨x, e, e2⟩
    · rw [← hat, hb] at e; exact absurd e big_lt_inf.ne
    · exact e2
    · rw [← hat, hb] at e; exact absurd e (fin_lt_big x).ne'
  · intro L hL
    rcases holoCompute_cases padding c res v with ⟨e, e2⟩ | ⟨e, e2⟩ | ⟨x, e, e2⟩
    · exfalso
      have ho := (h1 at').1 e
      have hw := hL.1
      generalize at' = q at ho hw
      cases hw with
      | nil => exact ho.2 rfl
      | snoc _ _ hv => rw [hv.2] at ho; exact absurd ho.1 (by simp)
    · exact absurd hL.1 (((h2 at').1 e).2.2 L)
    · refine ⟨x * res, e2, ?_⟩
      obtain ⟨L', hs', a, b⟩ := h3 at' x e
      have hLL : L' = L := le_antisymm (hs'.2 L hL.1) (hL.2 L' hs'.1)
      subst hLL
      have hL0 : 0 ≤ L' := walk_nonneg hs'.1
      obtain ⟨a', b'⟩ := (doubleFmt r hrr).fl_near (x := x.1 * res.1) (y := L' * res.1) (mul_nonneg hL0 hr)
        (by rw [← mul_assoc]; exact mul_le_mul_of_nonneg_right a hr)
        (by rw [← mul_assoc]; exact mul_le_mul_of_nonneg_right b hr)
      have hk : (((W + 2 * padding - 2) * (H + 2 * padding - 2) + 1 : ℕ) : ℝ) ≤ 2 ^ 51 := by exact_mod_cast hs
      have := near_abs (F := doubleFmt r hrr) (k := (W + 2 * padding - 2) * (H + 2 * padding - 2) + 1 + 1) (by
        show _ * (2 : ℝ)⁻¹ ^ 53 ≤ 1 / 2
        calc _ ≤ ((2 : ℝ) ^ 51 + 1) * (2 : ℝ)⁻¹ ^ 53 :=
              mul_le_mul_of_nonneg_right (by push_cast at hk ⊢; linarith) (by positivity)
          _ ≤ 1 / 2 := by norm_num) (mul_nonneg hL0 hr) a' b'
      have e3 : 2 * (doubleFmt r hrr).u = (2 : ℝ)⁻¹ ^ 52 := by
        show 2 * (2 : ℝ)⁻¹ ^ 53 = (2 : ℝ)⁻¹ ^ 52
        norm_num
      rw [e3] at this
      exact this

/-! ### A concrete case -/

namespace Ex

/-- A 5 × 5 map with one occupied cell in the middle. -/
def occ : Cell → Bool := fun v => v == (2, 2)

theorem way : Walk (FreeInterior 5 5 occ) (1, 1) (3, 3) (0 + 1 + Real.sqrt 2 + 1) := by
  have e1 : stepLen ((1, 1) : Cell) (1, 2) = 1 := by simp [stepLen]
  have e2 : stepLen ((1, 2) : Cell) (2, 3) = Real.sqrt 2 := by simp [stepLen]
  have e3 : stepLen ((2, 3) : Cell) (3, 3) = 1 := by simp [stepLen]
  have h1 : Walk (FreeInterior 5 5 occ) (1, 1) (1, 2) (0 + stepLen ((1, 1) : Cell) (1, 2)) :=
    .snoc .nil (by unfold Touch; decide) ⟨by unfold Interior; decide, by decide⟩
  have h2 := Walk.snoc (v := (2, 3)) h1 (by unfold Touch; decide) ⟨by unfold Interior; decide, by decide⟩
  have h3 := Walk.snoc (v := (3, 3)) h2 (by unfold Touch; decide) ⟨by unfold Interior; decide, by decide⟩
  rwa [e1, e2, e3] at h3

/-- With `double` the path around the obstacle is found, and its length is at most 7. -/
example : ∃ c p, loopF SearchEx.Dbl 5 5 10 occ (1, 1) = some c ∧ backtrack 5 5 nb8 c (1, 1) 26 (3, 3) = some p ∧
    p.head? = some (3, 3) ∧ p.getLast? = some (1, 1) ∧ (2, 2) ∉ p ∧ cellsLen p ≤ 7 := by
  obtain ⟨c, p, h1, h2, h3, h4, h5, _, _, h8⟩ := double_path wholeRounding_round (w := 5) (h := 5) (by norm_num)
    (by norm_num) way
  refine ⟨c, p, h1, h2, h3, h4, ?_, h8.trans ?_⟩
  · intro hm
    rcases h5 _ hm with e | e
    · exact absurd e (by decide)
    · exact absurd e.2 (by decide)
  · have hs : Real.sqrt 2 ≤ 17 / 12 := by
      rw [Real.sqrt_le_left (by norm_num)]; norm_num
    have hs0 := Real.sqrt_nonneg 2
    have h9 : (1 + (((5 - 2) * (5 - 2) + 1 : ℕ) : ℝ) * (2 : ℝ)⁻¹ ^ 51) * (0 + 1 + Real.sqrt 2 + 1) ≤ 101 / 100 * (41 / 12) := by
      refine mul_le_mul (by norm_num) (by linarith) (by linarith) (by norm_num)
    calc _ ≤ (17 / 12) * (101 / 100 * (41 / 12) : ℝ) := mul_le_mul hs h9 (by positivity) (by norm_num)
      _ ≤ 7 := by norm_num

end Ex

end PathPlanning.DTR
