import Verif.Props.GridRound

/-!
# C87: the bound in numbers, for `double`
-/

namespace PathPlanning
open Spec

variable {w h : Nat} {F : Fmt}

/-- `double`: 53 binary digits, rounding to nearest; `r` decides ties. -/
noncomputable def doubleFmt (r : ℝ → ℤ) (hr : WholeRounding r) : Fmt where
  fl := binary r 53
  u := (2 : ℝ)⁻¹ ^ 53
  ok := binary_rounding hr (by norm_num)
  u_lt := by norm_num

/-- Many roundings. -/
theorem ratio_bound {u : ℝ} (h0 : 0 ≤ u) {a b : ℕ} (hab : ((a : ℝ) + b) * u ≤ 1 / 2) {x y : ℝ} (hy : 0 ≤ y)
    (hxy : (1 - u) ^ a * x ≤ (1 + u) ^ b * y) : x ≤ (1 + 2 * ((a + b) * u)) * y := by
  by_cases hab0 : a + b = 0
  · have ha : a = 0 := by omega
    have hb : b = 0 := by omega
    subst ha; subst hb
    simpa using hxy
  have hu1 : u ≤ 1 / 2 := by
    have : (1 : ℝ) ≤ (a : ℝ) + b := by exact_mod_cast Nat.one_le_iff_ne_zero.2 hab0
    nlinarith
  have hpos : 0 < 1 - u := by linarith
  have h1 : (1 + u) ^ b * (1 - u) ^ b ≤ 1 := by
    rw [← mul_pow]
    exact pow_le_one₀ (by nlinarith) (by nlinarith)
  have h2 : 1 - ((a : ℝ) + b) * u ≤ (1 - u) ^ (a + b) := by
    have := one_add_mul_le_pow (a := -u) (by linarith) (a + b)
    push_cast at this
    have e : (1 : ℝ) + -u = 1 - u := by ring
    rw [e] at this
    linarith
  have h3 : (1 - u) ^ (a + b) * x ≤ y := by
    calc (1 - u) ^ (a + b) * x = (1 - u) ^ b * ((1 - u) ^ a * x) := by rw [pow_add]; ring
      _ ≤ (1 - u) ^ b * ((1 + u) ^ b * y) := mul_le_mul_of_nonneg_left hxy (pow_nonneg hpos.le _)
      _ = ((1 + u) ^ b * (1 - u) ^ b) * y := by ring
      _ ≤ 1 * y := mul_le_mul_of_nonneg_right h1 hy
      _ = y := one_mul y
  set e := ((a : ℝ) + b) * u with he
  have he0 : 0 ≤ e := mul_nonneg (by positivity) h0
  rcases le_or_gt x 0 with hx | hx
  · exact hx.trans (mul_nonneg (by linarith) hy)
  · have h4 : (1 - e) * x ≤ y := (mul_le_mul_of_nonneg_right h2 hx.le).trans h3
    have h5 : x ≤ (1 + 2 * e) * ((1 - e) * x) := by
      have h6 : 0 ≤ e * (1 - 2 * e) * x := mul_nonneg (mul_nonneg he0 (by linarith)) hx.le
      have h7 : (1 + 2 * e) * ((1 - e) * x) = x + e * (1 - 2 * e) * x := by ring
      linarith
    exact h5.trans (mul_le_mul_of_nonneg_left h4 (by linarith))

/-- The Euclidean estimate is one in the sense of `StepEstimate`. -/
theorem l2_stepEstimate {D : Int} (hD : 0 < D) {adj : Int × Int → Int × Int → Prop} (hadj : adj = Adj4 D ∨ adj = Adj8 D)
    {r : ℝ} (hr : 0 ≤ r) (g : GNode w h) : StepEstimate adj (fun n => hL2 r n g) r := by
  obtain ⟨dirs, he, hd⟩ : ∃ dirs : List (Dir ℝ), EuclidDirs dirs ∧ DirsExact dirs adj := by
    rcases hadj with rfl | rfl
    · exact ⟨_, euclid4 hD.le, dirs4_exact hD.le⟩
    · exact ⟨_, euclid8 hD.le, dirs8_exact hD⟩
  intro u v ha
  have hc := hL2_consistent (free := fun _ : GNode w h => true) hr he (D := D) (heur := hZero) (dist := gridHypot) g
  obtain ⟨d, hm, e1, e2, e3⟩ := (hd u.cell v.cell _).2 ⟨ha, rfl⟩
  refine hc.tri u v _ (mem_gridSucc.2 ⟨rfl, d, hm, e1, e2, by rw [e3]⟩)

/-- The computed Euclidean estimate is the exact one up to two roundings. -/
theorem hL2F_near {res : F.D} (hr : 0 ≤ res.1) (n g : GNode w h) :
    0 ≤ (hL2F F res n g).1 ∧ (hL2F F res n g).1 ≤ (1 + F.u) ^ 2 * hL2 res.1 n g := by
  have hs : 0 ≤ Real.sqrt (dX n g ^ 2 + dY n g ^ 2) := Real.sqrt_nonneg _
  obtain ⟨_, b, c⟩ := F.fl_bounds hs
  have hp : 0 ≤ res.1 * F.fl (Real.sqrt (dX n g ^ 2 + dY n g ^ 2)) := mul_nonneg hr c
  obtain ⟨_, e, f⟩ := F.fl_bounds hp
  refine ⟨f, e.trans ?_⟩
  have hu := F.u_nonneg
  calc (1 + F.u) * (res.1 * F.fl (Real.sqrt (dX n g ^ 2 + dY n g ^ 2))) ≤
        (1 + F.u) * (res.1 * ((1 + F.u) * Real.sqrt (dX n g ^ 2 + dY n g ^ 2))) :=
      mul_le_mul_of_nonneg_left (mul_le_mul_of_nonneg_left b hr) (by linarith)
    _ = _ := by unfold hL2; ring

/-- **C87 (A\* on doubles).**  On every map of at most a billion cells, with every cost and every estimate of the
Euclidean heuristic computed in `double`, the path returned is at most one millionth longer than any path of free cells
from the start to the goal cell (that is not longer than the map has cells). -/
theorem grid_search_double {r : ℝ → ℤ} (hrr : WholeRounding r) {free : GNode w h → Bool} {res : (doubleFmt r hrr).D}
    (hr : 0 < res.1) (hwh : w * h ≤ 10 ^ 9)
    {dirs : List (Dir (doubleFmt r hrr).D)} {D : Int} (hD : 0 < D) {adj : Int × Int → Int × Int → Prop}
    (hcase : (dirs = dirs4 D ∧ adj = Adj4 D) ∨ (dirs = dirs8 (sqrt2F _) D ∧ adj = Adj8 D))
    {heur dist : GNode w h → GNode w h → (doubleFmt r hrr).D} (hheur : heur = hL2F _ res ∨ heur = hZeroF _)
    {P : OpenList (GNode w h) (doubleFmt r hrr).D} (L : Lawful P) (M : MinFirst P)
    (cfg : SCfg (GNode w h) (doubleFmt r hrr).D) (ht : TopOk cfg.top) (hx : ∀ k n g, cfg.canExpand k n g = none)
    (huse : cfg.useCands = false) {s g : GNode w h} (hs : cfg.start = [s]) (hg : cfg.goal = [g])
    {fuel : Nat} {p : List (GNode w h)} {st'}
    (hrun : findPathNodes (gridAlgo free res dirs D heur dist) P cfg
      (freshLabels (gridAlgo free res dirs D heur dist)) fuel = some (.ok p, st')) (hp : p ≠ [])
    {q : List (Int × Int)} (hq : FreePath w h (freeCell free) adj s.cell g.cell q) (hql : q.length ≤ w * h) :
    gridLen (p.map GNode.cell) ≤ (1 + 1 / 10 ^ 6) * gridLen q := by
  have hadj : adj = Adj4 D ∨ adj = Adj8 D := by
    rcases hcase with ⟨_, h⟩ | ⟨_, h⟩
    · exact .inl h
    · exact .inr h
  have hest := l2_stepEstimate hD hadj hr.le g
  have hnear : NearCell D g.cell g.cell := by
    unfold NearCell; simp; exact hD.le
  have hlen : ∀ l : List (GNode w h), l.Nodup → l.length ≤ w * h := by
    intro l hl
    have := hl.length_le_card
    simpa using this
  have main : ∃ j ≤ 2, p.Nodup ∧ (1 - (doubleFmt r hrr).u) ^ (p.length + 4) * (gridLen (p.map GNode.cell) * res.1) ≤
      (1 + (doubleFmt r hrr).u) ^ (q.length + 5 + j) * (gridLen q * res.1) := by
    rcases hheur with rfl | rfl
    · obtain ⟨t, _, hnd, _, h4⟩ := grid_search_rounded hr.le hD hcase hest
        (fun n => (hL2F_near hr.le n g).1) (fun n => (hL2F_near hr.le n g).2) L M cfg ht hx huse hs hg hrun hp
      refine ⟨2, le_refl _, hnd, ?_⟩
      have := h4 q g hq hnear
      simpa [hL2, dX, dY] using this
    · obtain ⟨t, _, hnd, _, h4⟩ := grid_search_rounded (H := fun _ => 0) (j := 0) hr.le hD hcase
        (fun u v _ => by
          have := mul_nonneg (cellEucl_nonneg u.cell v.cell) hr.le
          linarith)
        (fun n => le_refl (0 : ℝ)) (fun n => by simp [hZeroF, Fmt.zero_val]) L M cfg ht hx huse hs hg hrun hp
      refine ⟨0, by omega, hnd, ?_⟩
      have := h4 q g hq hnear
      simpa using this
  obtain ⟨j, hj, hnd, h5⟩ := main
  have hpl := hlen p hnd
  have hu : (doubleFmt r hrr).u = (2 : ℝ)⁻¹ ^ 53 := rfl
  have hsum : ((p.length + 4 : ℕ) : ℝ) + ((q.length + 5 + j : ℕ) : ℝ) ≤ 2000000011 := by
    have : p.length + 4 + (q.length + 5 + j) ≤ 2000000011 := by omega
    exact_mod_cast this
  have hub : (((p.length + 4 : ℕ) : ℝ) + ((q.length + 5 + j : ℕ) : ℝ)) * (doubleFmt r hrr).u ≤ 1 / (2 * 10 ^ 6) := by
    rw [hu]
    calc _ ≤ (2000000011 : ℝ) * (2 : ℝ)⁻¹ ^ 53 := mul_le_mul_of_nonneg_right hsum (by positivity)
      _ ≤ _ := by norm_num
  have h6 := ratio_bound (doubleFmt r hrr).u_nonneg (hub.trans (by norm_num))
    (mul_nonneg (gridLen_nonneg q) hr.le) h5
  have h7 : gridLen (p.map GNode.cell) * res.1 ≤ (1 + 1 / 10 ^ 6) * (gridLen q * res.1) := by
    refine h6.trans (mul_le_mul_of_nonneg_right ?_ (mul_nonneg (gridLen_nonneg q) hr.le))
    have e : (1 : ℝ) / 10 ^ 6 = 2 * (1 / (2 * 10 ^ 6)) := by norm_num
    linarith
  exact le_of_mul_le_mul_right (by linarith : gridLen (p.map GNode.cell) * res.1 ≤ (1 + 1 / 10 ^ 6) * gridLen q * res.1) hr

end PathPlanning
