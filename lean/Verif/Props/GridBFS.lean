import Verif.Props.GridPath

/-!
# C81: breadth-first search returns a path with the fewest moves; `getDelta`
-/

namespace PathPlanning
open Spec

variable {w h : Nat}

/-- A table of directions offers exactly the steps `adj`, each at cost 1. -/
def DirsUnit (dirs : List (Dir ℝ)) (adj : Int × Int → Int × Int → Prop) : Prop :=
  ∀ u v : Int × Int, ∀ c : ℝ, (∃ d ∈ dirs, v.1 = u.1 + d.dx ∧ v.2 = u.2 + d.dy ∧ c = d.delta) ↔
    adj u v ∧ c = 1

theorem bfsDirs_unit {dirs : List (Dir ℝ)} {adj : Int × Int → Int × Int → Prop} (hd : DirsExact dirs adj) :
    DirsUnit (bfsDirs dirs) adj := by
  intro u v c
  constructor
  · rintro ⟨d, hdm, e1, e2, rfl⟩
    obtain ⟨d0, h0, rfl⟩ := List.mem_map.1 hdm
    exact ⟨((hd u v d0.delta).1 ⟨d0, h0, e1, e2, rfl⟩).1, rfl⟩
  · rintro ⟨ha, rfl⟩
    obtain ⟨d0, h0, e1, e2, _⟩ := (hd u v _).2 ⟨ha, rfl⟩
    exact ⟨_, List.mem_map.2 ⟨d0, h0, rfl⟩, e1, e2, rfl⟩

section
variable {free : GNode w h → Bool} {res : ℝ} {dirs : List (Dir ℝ)} {D : Int}
  {heur dist : GNode w h → GNode w h → ℝ} {adj : Int × Int → Int × Int → Prop}

theorem walkTo_moves (hd : DirsUnit dirs adj) {s n : GNode w h} {l : List (GNode w h)} {c : ℝ}
    (hw : WalkTo (gridAlgo free res dirs D heur dist) [s] n l c) :
    FreePath w h (freeCell free) adj s.cell n.cell (l.map GNode.cell) ∧
      c = ((l.length : ℝ) - 1) * res := by
  induction hw with
  | @start s' hs =>
    simp only [List.mem_singleton] at hs
    subst hs
    refine ⟨⟨rfl, rfl, by simp, by simp⟩, ?_⟩
    show (0 : ℝ) = _
    simp
  | @step u v l d c hw he ih =>
    obtain ⟨⟨i1, i2, i3, i4⟩, i5⟩ := ih
    obtain ⟨hf, dr, hdr, e1, e2, ec⟩ := mem_gridSucc.1 he
    obtain ⟨ha, hc⟩ := (hd u.cell v.cell dr.delta).1 ⟨dr, hdr, e1, e2, rfl⟩
    have hne : l.map GNode.cell ≠ [] := by simpa using hw.ne_nil
    have hm : (l ++ [v]).map GNode.cell = l.map GNode.cell ++ [v.cell] := by simp
    rw [hm]
    refine ⟨⟨?_, by simp, ?_, ?_⟩, ?_⟩
    · rw [List.head?_append, i1]; rfl
    · rw [List.isChain_append]
      refine ⟨i3, by simp, ?_⟩
      intro a ha' b hb
      rw [i2] at ha'
      simp only [Option.mem_def, Option.some.injEq, List.head?_cons] at ha' hb
      subst ha'; subst hb
      exact ha
    · rw [List.tail_append_of_ne_nil hne]
      intro m hm
      rcases List.mem_append.1 hm with h1 | h1
      · exact i4 m h1
      · simp only [List.mem_singleton] at h1
        subst h1
        have hx := v.1.isLt
        have hy := v.2.isLt
        refine ⟨?_, ?_, v, rfl, hf⟩ <;> simp only [GNode.cell] <;> omega
    · show d + c = _
      rw [i5, ec, hc]
      simp only [List.length_append, List.length_cons, List.length_nil, Nat.cast_add, Nat.cast_one,
        Nat.cast_zero]
      ring

theorem freePath_moves (hd : DirsUnit dirs adj) {s : GNode w h} (p : List (Int × Int)) :
    ∀ {t : Int × Int}, FreePath w h (freeCell free) adj s.cell t p →
    ∃ n : GNode w h, n.cell = t ∧
      Reach (gridAlgo free res dirs D heur dist) [s] n (((p.length : ℝ) - 1) * res) := by
  induction p using List.reverseRecOn with
  | nil => intro t hp; cases hp.head
  | append_singleton p v ih =>
    intro t hp
    have ht : v = t := by have := hp.last; simpa using this
    subst ht
    by_cases hpe : p = []
    · subst hpe
      have hs : v = s.cell := by have := hp.head; simpa using this
      refine ⟨s, hs.symm, ?_⟩
      have : ((([] ++ [v] : List (Int × Int)).length : ℝ) - 1) * res = 0 := by simp
      rw [this]
      exact Reach.start (by simp)
    · obtain ⟨u, hu⟩ : ∃ u, p.getLast? = some u := by
        cases hh : p.getLast? with
        | none => exact absurd (List.getLast?_eq_none_iff.1 hh) hpe
        | some u => exact ⟨u, rfl⟩
      have hch := List.isChain_append.1 hp.chain
      have hp' : FreePath w h (freeCell free) adj s.cell u p := by
        refine ⟨?_, hu, hch.1, ?_⟩
        · have := hp.head
          rw [List.head?_append] at this
          cases hpp : p.head? with
          | none => exact absurd (List.head?_eq_none_iff.1 hpp) hpe
          | some a => rw [hpp] at this; simpa using this
        · intro c hc
          apply hp.free
          rw [List.tail_append_of_ne_nil hpe]
          exact List.mem_append_left _ hc
      obtain ⟨n, hn, hr⟩ := ih hp'
      have hadj : adj u v := hch.2.2 u (by rw [hu]; simp) v (by simp)
      obtain ⟨_, _, m, hm, hfm⟩ := hp.free v (by
        rw [List.tail_append_of_ne_nil hpe]; exact List.mem_append_right _ (by simp))
      refine ⟨m, hm, ?_⟩
      have hlen : ((((p ++ [v]).length : Nat) : ℝ) - 1) * res = ((p.length : ℝ) - 1) * res + 1 * res := by
        simp only [List.length_append, List.length_cons, List.length_nil, Nat.cast_add, Nat.cast_one,
          Nat.cast_zero]
        ring
      rw [hlen]
      refine Reach.step hr (mem_gridSucc.2 ⟨hfm, ?_⟩)
      obtain ⟨dr, hdr, e1, e2, e3⟩ := (hd u v 1).2 ⟨hadj, rfl⟩
      rw [← hn, ← hm] at e1
      rw [← hn, ← hm] at e2
      exact ⟨dr, hdr, e1, e2, by rw [e3]⟩

end

theorem bfs_exact {free : GNode w h → Bool} {res : ℝ} (hr : 0 ≤ res) {dirs : List (Dir ℝ)}
    {D : Int} {heur dist : GNode w h → GNode w h → ℝ} :
    ExactCosts (gridAlgo free res (bfsDirs dirs) D heur dist) where
  zero := rfl
  add _ _ := rfl
  nonneg u v c hc := by
    obtain ⟨_, d, hd, _, _, rfl⟩ := mem_gridSucc.1 hc
    obtain ⟨d0, _, rfl⟩ := List.mem_map.1 hd
    simpa using hr

/-- **C81 (fewest moves).**  The breadth-first search of the evaluator (unit step costs, no heuristic) on any map, for
the 4- or the 8-neighbourhood and any step width: a non-empty result is a path of free cells from the start to within
the step width of the goal, and no path of free cells to such a cell has fewer cells. -/
theorem bfs_fewest_moves {free : GNode w h → Bool} {res : ℝ} (hr : 0 < res)
    {dirs : List (Dir ℝ)} {D : Int} (hD : 0 < D) {adj : Int × Int → Int × Int → Prop}
    (hcase : (dirs = dirs4 D ∧ adj = Adj4 D) ∨ (dirs = dirs8 (Real.sqrt 2) D ∧ adj = Adj8 D))
    {P : OpenList (GNode w h) ℝ} (L : Lawful P) (M : MinFirst P)
    (cfg : SCfg (GNode w h) ℝ) (ht : TopOk cfg.top) (hx : ∀ k n g, cfg.canExpand k n g = none)
    (huse : cfg.useCands = false) {s g : GNode w h} (hs : cfg.start = [s]) (hg : cfg.goal = [g])
    {fuel : Nat} {p : List (GNode w h)} {st'}
    (hrun : findPathNodes (gridAlgo free res (bfsDirs dirs) D hZero gridHypot) P cfg
      (freshLabels (gridAlgo free res (bfsDirs dirs) D hZero gridHypot)) fuel = some (.ok p, st'))
    (hp : p ≠ []) :
    ∃ t : GNode w h, FreePath w h (freeCell free) adj s.cell t.cell (p.map GNode.cell) ∧
      NearCell D g.cell t.cell ∧
      ∀ (q : List (Int × Int)) (t' : Int × Int),
        FreePath w h (freeCell free) adj s.cell t' q → NearCell D g.cell t' → p.length ≤ q.length := by
  have hde : DirsUnit (bfsDirs dirs) adj := by
    rcases hcase with ⟨rfl, rfl⟩ | ⟨rfl, rfl⟩
    · exact bfsDirs_unit (dirs4_exact hD.le)
    · exact bfsDirs_unit (dirs8_exact hD)
  obtain ⟨t, d, h1, h2, h3⟩ := dijkstra_optimal (bfs_exact hr.le) L M cfg ht hx huse
    (fun _ _ => rfl) hrun hp
  rw [hs] at h1 h3
  obtain ⟨hfp, hd⟩ := walkTo_moves hde h1
  have hnc : ∀ t : GNode w h, InGoalRegion (gridAlgo free res (bfsDirs dirs) D hZero gridHypot) cfg.goal t ↔
      NearCell D g.cell t.cell := by
    intro t
    unfold InGoalRegion
    rw [hg]
    show (∃ g' ∈ [g], gridIsGoal D g' t = true) ↔ _
    simp only [List.mem_singleton, exists_eq_left, gridIsGoal, Bool.and_eq_true, decide_eq_true_eq,
      NearCell, GNode.cell, Int.natCast_natAbs]
  refine ⟨t, hfp, (hnc t).1 h2, ?_⟩
  intro q t' hq hn
  obtain ⟨n, hn', hrch⟩ := freePath_moves (res := res) (D := D) (heur := hZero)
    (dist := gridHypot) hde q hq
  rw [← hn'] at hn
  have := h3 n _ hrch ((hnc n).2 hn)
  rw [hd] at this
  have h4 := le_of_mul_le_mul_right this hr
  have : (p.length : ℝ) ≤ q.length := by linarith
  exact_mod_cast this

/-- **C81 (completeness).**  The breadth-first search terminates without undefined behaviour on every map, and without
a time limit it answers with an empty path only if no path of free cells leads from the start to within the step width
of the goal. -/
theorem bfs_complete {free : GNode w h → Bool} {res : ℝ} (hr : 0 < res)
    {dirs : List (Dir ℝ)} {D : Int} (hD : 0 < D) {adj : Int × Int → Int × Int → Prop}
    (hcase : (dirs = dirs4 D ∧ adj = Adj4 D) ∨ (dirs = dirs8 (Real.sqrt 2) D ∧ adj = Adj8 D))
    {P : OpenList (GNode w h) ℝ} (L : Lawful P)
    (cfg : SCfg (GNode w h) ℝ) (ht : TopOk cfg.top) (hx : ∀ k n g, cfg.canExpand k n g = none)
    (hab : ∀ n, cfg.abort n = false) {s g : GNode w h} (hs : cfg.start = [s]) (hg : cfg.goal = [g]) :
    ∃ fuel p st', findPathNodes (gridAlgo free res (bfsDirs dirs) D hZero gridHypot) P cfg
      (freshLabels (gridAlgo free res (bfsDirs dirs) D hZero gridHypot)) fuel = some (.ok p, st') ∧
      (p = [] ↔ ∀ (q : List (Int × Int)) (t' : Int × Int),
        FreePath w h (freeCell free) adj s.cell t' q → ¬ NearCell D g.cell t') := by
  have hde : DirsUnit (bfsDirs dirs) adj := by
    rcases hcase with ⟨rfl, rfl⟩ | ⟨rfl, rfl⟩
    · exact bfsDirs_unit (dirs4_exact hD.le)
    · exact bfsDirs_unit (dirs8_exact hD)
  obtain ⟨fuel, p, st', h1, h2⟩ := search_empty_iff
    (bfs_exact (free := free) (dirs := dirs) (D := D) (heur := hZero) (dist := gridHypot) hr.le).ok L cfg ht hx hab
  have hnc : ∀ t : GNode w h, InGoalRegion (gridAlgo free res (bfsDirs dirs) D hZero gridHypot) cfg.goal t ↔
      NearCell D g.cell t.cell := by
    intro t
    unfold InGoalRegion
    rw [hg]
    show (∃ g' ∈ [g], gridIsGoal D g' t = true) ↔ _
    simp only [List.mem_singleton, exists_eq_left, gridIsGoal, Bool.and_eq_true, decide_eq_true_eq,
      NearCell, GNode.cell, Int.natCast_natAbs]
  refine ⟨fuel, p, st', h1, h2.trans ⟨?_, ?_⟩⟩
  · intro hno q t' hq hn
    obtain ⟨n, hn', hrch⟩ := freePath_moves (res := res) (D := D) (heur := hZero) (dist := gridHypot) hde q hq
    rw [← hn'] at hn
    exact hno ⟨n, _, by rw [hs]; exact hrch, (hnc n).2 hn⟩
  · rintro hno ⟨n, d, hrch, hreg⟩
    rw [hs] at hrch
    obtain ⟨l, hw⟩ : ∃ l, WalkTo (gridAlgo free res (bfsDirs dirs) D hZero gridHypot) [s] n l d := by
      clear hreg
      induction hrch with
      | start h => exact ⟨_, .start h⟩
      | step _ he ih => obtain ⟨l, hl⟩ := ih; exact ⟨_, .step hl he⟩
    exact hno _ _ (walkTo_moves hde hw).1 ((hnc n).1 hreg)

/-- **C81 (`getDelta`).**  Between neighbouring cells `getDelta` is the Euclidean length of the step; for any other pair
of cells it is the length of the table's last step, so a caller cannot tell the two cases apart. -/
theorem gridDelta_spec {dirs : List (Dir ℝ)} {adj : Int × Int → Int × Int → Prop} (hd : DirsExact dirs adj)
    (last : Dir ℝ) (n m : GNode w h) :
    (adj n.cell m.cell → gridDelta dirs last n m = cellEucl n.cell m.cell) ∧
    (¬ adj n.cell m.cell → gridDelta dirs last n m = last.delta) := by
  have key : ∀ d : Dir ℝ, gridNode w h ((n.1 : Nat) + d.dx) ((n.2 : Nat) + d.dy) = some m ↔
      (m.cell.1 = n.cell.1 + d.dx ∧ m.cell.2 = n.cell.2 + d.dy) := by
    intro d
    rw [gridNode_eq_some]
    unfold GNode.cell
    constructor <;> rintro ⟨a, b⟩ <;> exact ⟨by simpa using a, by simpa using b⟩
  unfold gridDelta
  constructor
  · intro ha
    obtain ⟨d, hdm, e1, e2, -⟩ := (hd n.cell m.cell _).2 ⟨ha, rfl⟩
    cases hf : dirs.find? fun d =>
        decide (gridNode w h ((n.1 : Nat) + d.dx) ((n.2 : Nat) + d.dy) = some m) with
    | none =>
      have := List.find?_eq_none.1 hf d hdm
      exact absurd ((key d).2 ⟨e1, e2⟩) (by simpa using this)
    | some d' =>
      have h1 := List.mem_of_find?_eq_some hf
      have h2 := List.find?_some hf
      obtain ⟨e1', e2'⟩ := (key d').1 (by simpa using h2)
      exact ((hd n.cell m.cell d'.delta).1 ⟨d', h1, e1', e2', rfl⟩).2
  · intro hna
    cases hf : dirs.find? fun d =>
        decide (gridNode w h ((n.1 : Nat) + d.dx) ((n.2 : Nat) + d.dy) = some m) with
    | none => rfl
    | some d' =>
      have h1 := List.mem_of_find?_eq_some hf
      have h2 := List.find?_some hf
      obtain ⟨e1', e2'⟩ := (key d').1 (by simpa using h2)
      exact absurd ((hd n.cell m.cell d'.delta).1 ⟨d', h1, e1', e2', rfl⟩).1 hna

namespace SearchEx

/-- Both theorems apply to the map with the wall of `SearchExamples`: the breadth-first search finds a path, of at most
six cells. -/
example : ∃ fuel p st', findPathNodes (gridAlgo free 1 (bfsDirs (dirs8 (Real.sqrt 2) 1)) 1 hZero gridHypot) P cfg
      (freshLabels (gridAlgo free 1 (bfsDirs (dirs8 (Real.sqrt 2) 1)) 1 hZero gridHypot)) fuel = some (.ok p, st') ∧
      p ≠ [] ∧ p.length ≤ 6 := by
  have hp0 : FreePath 4 3 (freeCell free) (Adj8 1) (0, 0) (1, 2) [(0, 0), (1, 0), (2, 0), (3, 1), (2, 2), (1, 2)] := by
    refine ⟨rfl, rfl, ?_, ?_⟩
    · simp [Adj8]
    · intro c hc
      simp only [List.tail_cons, List.mem_cons, List.not_mem_nil, or_false] at hc
      rcases hc with rfl | rfl | rfl | rfl | rfl
      · exact ⟨by simp, by simp, ((1 : Fin 4), (0 : Fin 3)), by decide, by decide⟩
      · exact ⟨by simp, by simp, ((2 : Fin 4), (0 : Fin 3)), by decide, by decide⟩
      · exact ⟨by simp, by simp, ((3 : Fin 4), (1 : Fin 3)), by decide, by decide⟩
      · exact ⟨by simp, by simp, ((2 : Fin 4), (2 : Fin 3)), by decide, by decide⟩
      · exact ⟨by simp, by simp, ((1 : Fin 4), (2 : Fin 3)), by decide, by decide⟩
  have hn0 : NearCell 1 ((0, 2) : Int × Int) (1, 2) := by unfold NearCell; simp
  obtain ⟨fuel, p, st', h1, h2⟩ := bfs_complete (free := free) (res := 1) (by norm_num) (D := 1) (by norm_num)
    (.inr ⟨rfl, rfl⟩) prioLawful cfg topRef_ok (fun _ _ _ => rfl) (fun _ => rfl) (s := (0, 0)) (g := (0, 2)) rfl rfl
  have hp : p ≠ [] := fun hp => h2.1 hp _ _ hp0 hn0
  obtain ⟨t, _, _, h3⟩ := bfs_fewest_moves (free := free) (res := 1) (by norm_num) (D := 1) (by norm_num)
    (.inr ⟨rfl, rfl⟩) prioLawful prioMin cfg topRef_ok (fun _ _ _ => rfl) rfl (s := (0, 0)) (g := (0, 2)) rfl rfl h1 hp
  exact ⟨fuel, p, st', h1, hp, h3 _ _ hp0 hn0⟩

end SearchEx

end PathPlanning
