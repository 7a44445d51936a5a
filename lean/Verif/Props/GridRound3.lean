import Verif.Props.GridRound2
import Verif.Props.SearchExamples

/-!
# C87: paths with loops, completeness in floating point, a concrete search
-/

namespace PathPlanning
open Spec

variable {w h : Nat} {F : Fmt}

/-- Prefixes of paths are not longer. -/
theorem gridLen_append_left (p q : List (Int × Int)) : gridLen p ≤ gridLen (p ++ q) := by
  induction q using List.reverseRecOn with
  | nil => simp
  | append_singleton q v ih =>
    rw [← List.append_assoc]
    refine ih.trans ?_
    cases hl : (p ++ q).getLast? with
    | none =>
      rw [List.getLast?_eq_none_iff.1 hl]
      simp [gridLen]
    | some u =>
      rw [gridLen_snoc _ _ _ hl]
      linarith [cellEucl_nonneg u v]

/-- Loops can be cut out of a path. -/
theorem FreePath.cut_loops {free : Int × Int → Prop} {adj : Int × Int → Int × Int → Prop} {s : Int × Int}
    (p : List (Int × Int)) : ∀ {t : Int × Int}, FreePath w h free adj s t p →
    ∃ q, FreePath w h free adj s t q ∧ q.Nodup ∧ gridLen q ≤ gridLen p := by
  induction p using List.reverseRecOn with
  | nil => intro t hp; cases hp.head
  | append_singleton p v ih =>
    intro t hp
    have ht : v = t := by have := hp.last; simpa using this
    subst ht
    by_cases hpe : p = []
    · subst hpe
      exact ⟨_, hp, by simp, le_refl _⟩
    obtain ⟨u, hu⟩ : ∃ u, p.getLast? = some u := by
      cases hh : p.getLast? with
      | none => exact absurd (List.getLast?_eq_none_iff.1 hh) hpe
      | some u => exact ⟨u, rfl⟩
    have hch := List.isChain_append.1 hp.chain
    have hp' : FreePath w h free adj s u p := by
      refine ⟨?_, hu, hch.1, ?_⟩
      · have := hp.head
        rw [List.head?_append] at this
        cases hpp : p.head? with
        | none => exact absurd (List.head?_eq_none_iff.1 hpp) hpe
        | some a => rw [hpp] at this; simpa using this
      · intro c hc
        apply hp.free
        rw [List.tail_append_of_ne_nil hpe]
        exact List.mem_append_left _ hc
    obtain ⟨q, hq, hn, hl⟩ := ih hp'
    have hqe : q ≠ [] := by rintro rfl; cases hq.head
    have hfv := hp.free v (by rw [List.tail_append_of_ne_nil hpe]; exact List.mem_append_right _ (by simp))
    by_cases hv : v ∈ q
    · obtain ⟨l1, l2, rfl⟩ := List.append_of_mem hv
      have e : l1 ++ v :: l2 = (l1 ++ [v]) ++ l2 := by simp
      rw [e] at hq hn hl
      refine ⟨l1 ++ [v], ⟨?_, by simp, (List.isChain_append.1 hq.chain).1, ?_⟩, (List.nodup_append.1 hn).1, ?_⟩
      · have := hq.head
        rw [List.head?_append] at this
        cases hpp : (l1 ++ [v]).head? with
        | none => simp at hpp
        | some a => rw [hpp] at this; simpa using this
      · intro c hc
        apply hq.free
        rw [List.tail_append_of_ne_nil (by simp)]
        exact List.mem_append_left _ hc
      · exact (gridLen_append_left _ l2).trans (hl.trans (gridLen_append_left _ _))
    · refine ⟨q ++ [v], ⟨?_, by simp, ?_, ?_⟩, ?_, ?_⟩
      · rw [List.head?_append, hq.head]; rfl
      · rw [List.isChain_append]
        refine ⟨hq.chain, by simp, ?_⟩
        intro a ha b hb
        rw [hq.last] at ha
        simp only [Option.mem_def, Option.some.injEq, List.head?_cons] at ha hb
        subst ha; subst hb
        exact hch.2.2 u (by rw [hu]; simp) v (by simp)
      · rw [List.tail_append_of_ne_nil hqe]
        intro c hc
        rcases List.mem_append.1 hc with h1 | h1
        · exact hq.free c h1
        · simp only [List.mem_singleton] at h1; subst h1; exact hfv
      · rw [List.nodup_append]
        refine ⟨hn, by simp, ?_⟩
        intro a ha b hb
        simp only [List.mem_singleton] at hb
        subst hb
        rintro rfl
        exact hv ha
      · rw [gridLen_snoc _ _ _ hq.last, gridLen_snoc _ _ _ hu]
        linarith

/-- **C87 (A\* on doubles is near-optimal).**  On every map of at most a billion cells, 4- or 8-neighbourhood, any step
width, with every cost and every estimate computed in `double` (Euclidean heuristic or none), for every min-priority open
list, the path returned is at most one millionth longer than any path of free cells from the start to the goal cell. -/
theorem grid_search_double_optimal {r : ℝ → ℤ} (hrr : WholeRounding r) {free : GNode w h → Bool}
    {res : (doubleFmt r hrr).D} (hr : 0 < res.1) (hwh : w * h ≤ 10 ^ 9)
    {dirs : List (Dir (doubleFmt r hrr).D)} {D : Int} (hD : 0 < D) {adj : Int × Int → Int × Int → Prop}
    (hcase : (dirs = dirs4 D ∧ adj = Adj4 D) ∨ (dirs = dirs8 (sqrt2F _) D ∧ adj = Adj8 D))
    {heur dist : GNode w h → GNode w h → (doubleFmt r hrr).D} (hheur : heur = hL2F _ res ∨ heur = hZeroF _)
    {P : OpenList (GNode w h) (doubleFmt r hrr).D} (L : Lawful P) (M : MinFirst P)
    (cfg : SCfg (GNode w h) (doubleFmt r hrr).D) (ht : TopOk cfg.top) (hx : ∀ k n g, cfg.canExpand k n g = none)
    (huse : cfg.useCands = false) {s g : GNode w h} (hs : cfg.start = [s]) (hg : cfg.goal = [g])
    {fuel : Nat} {p : List (GNode w h)} {st'}
    (hrun : findPathNodes (gridAlgo free res dirs D heur dist) P cfg
      (freshLabels (gridAlgo free res dirs D heur dist)) fuel = some (.ok p, st')) (hp : p ≠ [])
    {q : List (Int × Int)} (hq : FreePath w h (freeCell free) adj s.cell g.cell q) :
    gridLen (p.map GNode.cell) ≤ (1 + 1 / 10 ^ 6) * gridLen q := by
  obtain ⟨q', h1, h2, h3⟩ := FreePath.cut_loops q hq
  obtain ⟨n, l, c, _, hl, hw⟩ := freePath_walk (res := res) (D := D) (heur := heur) (dist := dist)
    (show DirsNear (doubleFmt r hrr) dirs adj 3 by
      rcases hcase with ⟨rfl, rfl⟩ | ⟨rfl, rfl⟩
      · exact dirs4_near hD.le
      · exact dirs8_near hD) q' h1
  have hlen : q'.length ≤ w * h := by
    have hnd : l.Nodup := by
      rw [← hl] at h2
      exact h2.of_map _
    have := hnd.length_le_card
    rw [← hl, List.length_map]
    simpa using this
  have := grid_search_double hrr hr hwh hD hcase hheur L M cfg ht hx huse hs hg hrun hp h1 hlen
  exact this.trans (mul_le_mul_of_nonneg_left h3 (by norm_num))

/-- **C87 (completeness in floating point).**  With all costs rounded, any heuristic and any lawful open list, the search
without time limit terminates, and returns no path only if there is no path of free cells to any cell within the step width
of the goal: rounding never hides a path. -/
theorem grid_search_rounded_complete {free : GNode w h → Bool} {res : F.D} (hr : 0 ≤ res.1)
    {dirs : List (Dir F.D)} {D : Int} (hD : 0 < D) {adj : Int × Int → Int × Int → Prop}
    (hcase : (dirs = dirs4 D ∧ adj = Adj4 D) ∨ (dirs = dirs8 (sqrt2F F) D ∧ adj = Adj8 D))
    {heur dist : GNode w h → GNode w h → F.D}
    {P : OpenList (GNode w h) F.D} (L : Lawful P)
    (cfg : SCfg (GNode w h) F.D) (ht : TopOk cfg.top) (hx : ∀ k n g, cfg.canExpand k n g = none)
    (hab : ∀ k, cfg.abort k = false) {s g : GNode w h} (hs : cfg.start = [s]) (hg : cfg.goal = [g]) :
    ∃ fuel p st', findPathNodes (gridAlgo free res dirs D heur dist) P cfg
        (freshLabels (gridAlgo free res dirs D heur dist)) fuel = some (.ok p, st') ∧
      (p = [] ↔ ¬ ∃ (q : List (Int × Int)) (t : GNode w h),
        FreePath w h (freeCell free) adj s.cell t.cell q ∧ NearCell D g.cell t.cell) := by
  have hd : DirsNear F dirs adj 3 := by
    rcases hcase with ⟨rfl, rfl⟩ | ⟨rfl, rfl⟩
    · exact dirs4_near hD.le
    · exact dirs8_near hD
  have hnc : ∀ t : GNode w h, InGoalRegion (gridAlgo free res dirs D heur dist) cfg.goal t ↔
      NearCell D g.cell t.cell := by
    intro t
    unfold InGoalRegion
    rw [hg]
    show (∃ g' ∈ [g], gridIsGoal D g' t = true) ↔ _
    simp only [List.mem_singleton, exists_eq_left, gridIsGoal, Bool.and_eq_true, decide_eq_true_eq,
      NearCell, GNode.cell, Int.natCast_natAbs]
  obtain ⟨fuel, p, st', h1, h2⟩ := search_empty_iff (gridRound_ok (free := free) (D := D) (heur := heur)
    (dist := dist) hd hr) L cfg ht hx hab
  refine ⟨fuel, p, st', h1, h2.trans (not_congr ⟨?_, ?_⟩)⟩
  · rintro ⟨n, d, hre, hreg⟩
    rw [hs] at hre
    obtain ⟨l, hw⟩ := Reach.exists_walk hre
    exact ⟨_, n, (walkTo_near hd hr hw).1, (hnc n).1 hreg⟩
  · rintro ⟨q, t, hq, hn⟩
    obtain ⟨n, l, c, hn1, hl, hw⟩ := freePath_walk (res := res) (D := D) (heur := heur) (dist := dist) hd q hq
    have hnt : n = t := GNode.cell_inj hn1
    subst hnt
    exact ⟨n, c, by rw [hs]; exact hw.reach, (hnc n).2 hn⟩

namespace SearchEx

/-- `double`, ties rounded up. -/
noncomputable abbrev Dbl : Fmt := doubleFmt round wholeRounding_round

/-- A resolution of (the double nearest to) 5 cm. -/
noncomputable def resD : Dbl.D := Dbl.rd (5 / 100)

theorem resD_pos : 0 < resD.1 := by
  have h := abs_le.1 (Dbl.ok.err (5 / 100))
  have hu : Dbl.u = (2 : ℝ)⁻¹ ^ 53 := rfl
  rw [hu] at h
  have h1 := h.1
  rw [abs_of_nonneg (by norm_num)] at h1
  show 0 < Dbl.fl (5 / 100)
  have : (2 : ℝ)⁻¹ ^ 53 * (5 / 100) < 5 / 100 := by norm_num
  linarith

noncomputable def cfgD : SCfg W Dbl.D where
  start := [(0, 0)]
  goal := [(0, 2)]
  useCands := false
  oversearch := 0
  accept := none
  abort _ := false
  canExpand _ _ _ := none
  top l := l.argmin Prod.snd

theorem topD_ok : TopOk cfgD.top where
  none_iff l := List.argmin_eq_none
  mem l x h := List.argmin_mem h
  min l x h y hy := not_lt.1 (List.not_lt_of_mem_argmin hy h)

/-- The way around the wall. -/
theorem wayRound : FreePath 4 3 (freeCell free) (Adj8 1) (0, 0) (0, 2)
    [(0, 0), (1, 0), (2, 0), (3, 1), (2, 2), (1, 2), (0, 2)] := by
  refine ⟨rfl, rfl, ?_, ?_⟩
  · simp [Adj8]
  · intro c hc
    simp only [List.tail_cons, List.mem_cons, List.not_mem_nil, or_false] at hc
    rcases hc with rfl | rfl | rfl | rfl | rfl | rfl
    · exact ⟨by simp, by simp, ((1 : Fin 4), (0 : Fin 3)), by decide, by decide⟩
    · exact ⟨by simp, by simp, ((2 : Fin 4), (0 : Fin 3)), by decide, by decide⟩
    · exact ⟨by simp, by simp, ((3 : Fin 4), (1 : Fin 3)), by decide, by decide⟩
    · exact ⟨by simp, by simp, ((2 : Fin 4), (2 : Fin 3)), by decide, by decide⟩
    · exact ⟨by simp, by simp, ((1 : Fin 4), (2 : Fin 3)), by decide, by decide⟩
    · exact ⟨by simp, by simp, ((0 : Fin 4), (2 : Fin 3)), by decide, by decide⟩

/-- A\* on doubles on the wall map with 5 cm cells: it finds a path, and the path is at most a millionth longer than the
way round the wall. -/
example : ∃ fuel p st', findPathNodes (gridAlgo free resD (dirs8 (sqrt2F Dbl) 1) 1 (hL2F Dbl resD) (hL2F Dbl resD))
      PriorityManager cfgD
      (freshLabels (gridAlgo free resD (dirs8 (sqrt2F Dbl) 1) 1 (hL2F Dbl resD) (hL2F Dbl resD))) fuel =
        some (.ok p, st') ∧ p ≠ [] ∧
    gridLen (p.map GNode.cell) ≤ (1 + 1 / 10 ^ 6) *
      gridLen [(0, 0), (1, 0), (2, 0), (3, 1), (2, 2), (1, 2), (0, 2)] := by
  obtain ⟨fuel, p, st', h1, h2⟩ := grid_search_rounded_complete (free := free) (res := resD) resD_pos.le
    (dirs := dirs8 (sqrt2F Dbl) 1) (D := 1) (by norm_num) (.inr ⟨rfl, rfl⟩) (heur := hL2F Dbl resD)
    (dist := hL2F Dbl resD) prioLawful cfgD topD_ok (fun _ _ _ => rfl) (fun _ => rfl) (s := (0, 0)) (g := (0, 2)) rfl rfl
  have hne : p ≠ [] := fun hp => (h2.1 hp) ⟨_, ((0, 2) : W), wayRound, by simp [NearCell]⟩
  exact ⟨fuel, p, st', h1, hne, grid_search_double_optimal wholeRounding_round resD_pos (by norm_num) (by norm_num)
    (.inr ⟨rfl, rfl⟩) (.inl rfl) prioLawful prioMin cfgD topD_ok (fun _ _ _ => rfl) rfl (s := (0, 0)) (g := (0, 2))
    rfl rfl h1 hne wayRound⟩

end SearchEx

end PathPlanning
