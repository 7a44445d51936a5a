import Verif.Props.SearchRound
import Verif.Props.Float
import Verif.Model.Float
import Verif.Props.GridPath

/-!
# C87: shortest paths on a grid in floating point arithmetic
-/

namespace PathPlanning
open Spec

variable {w h : Nat} {F : Fmt}

namespace Fmt

theorem add_val (a b : F.D) : (a + b).1 = F.fl (a.1 + b.1) := rfl
theorem mul_val (a b : F.D) : (a * b).1 = F.fl (a.1 * b.1) := rfl
theorem zero_val : (0 : F.D).1 = 0 := rfl
theorem int_val (n : Int) : ((n : F.D)).1 = F.fl n := rfl
theorem le_iff {a b : F.D} : a ≤ b ↔ a.1 ≤ b.1 := Iff.rfl

/-- Rounding a non-negative number. -/
theorem fl_bounds (F : Fmt) {x : ℝ} (hx : 0 ≤ x) : (1 - F.u) * x ≤ F.fl x ∧ F.fl x ≤ (1 + F.u) * x ∧ 0 ≤ F.fl x := by
  have h := abs_le.1 (F.ok.err x)
  rw [abs_of_nonneg hx] at h
  refine ⟨by linarith [h.1], by linarith [h.2], ?_⟩
  have := F.ok.mono hx
  rwa [F.fl_zero] at this

/-- Rounding a number known up to a relative error. -/
theorem fl_near (F : Fmt) {x y : ℝ} {k : ℕ} (hy : 0 ≤ y) (h1 : (1 - F.u) ^ k * y ≤ x) (h2 : x ≤ (1 + F.u) ^ k * y) :
    (1 - F.u) ^ (k + 1) * y ≤ F.fl x ∧ F.fl x ≤ (1 + F.u) ^ (k + 1) * y := by
  have hu := F.u_nonneg
  have hu1 := F.u_lt
  have hx : 0 ≤ x := le_trans (mul_nonneg (pow_nonneg (by linarith) _) hy) h1
  obtain ⟨a, b, _⟩ := F.fl_bounds hx
  constructor
  · calc (1 - F.u) ^ (k + 1) * y = (1 - F.u) * ((1 - F.u) ^ k * y) := by ring
      _ ≤ (1 - F.u) * x := mul_le_mul_of_nonneg_left h1 (by linarith)
      _ ≤ _ := a
  · calc F.fl x ≤ (1 + F.u) * x := b
      _ ≤ (1 + F.u) * ((1 + F.u) ^ k * y) := mul_le_mul_of_nonneg_left h2 (by linarith)
      _ = _ := by ring

/-- Larger relative errors. -/
theorem near_mono (F : Fmt) {x y : ℝ} {k j : ℕ} (hkj : k ≤ j) (hy : 0 ≤ y) (h1 : (1 - F.u) ^ k * y ≤ x)
    (h2 : x ≤ (1 + F.u) ^ k * y) : (1 - F.u) ^ j * y ≤ x ∧ x ≤ (1 + F.u) ^ j * y := by
  have hu := F.u_nonneg
  have hu1 := F.u_lt
  constructor
  · exact (mul_le_mul_of_nonneg_right (pow_le_pow_of_le_one (by linarith) (by linarith) hkj) hy).trans h1
  · exact h2.trans (mul_le_mul_of_nonneg_right (pow_le_pow_right₀ (by linarith) hkj) hy)

end Fmt

/-- A table of directions in floating point: exactly the steps `adj`, each at its Euclidean length up to `k` roundings. -/
structure DirsNear (F : Fmt) (dirs : List (Dir F.D)) (adj : Int × Int → Int × Int → Prop) (k : ℕ) : Prop where
  sound : ∀ u v : Int × Int, ∀ d ∈ dirs, v.1 = u.1 + d.dx → v.2 = u.2 + d.dy → adj u v ∧
    (1 - F.u) ^ k * cellEucl u v ≤ d.delta.1 ∧ d.delta.1 ≤ (1 + F.u) ^ k * cellEucl u v
  complete : ∀ u v : Int × Int, adj u v → ∃ d ∈ dirs, v.1 = u.1 + d.dx ∧ v.2 = u.2 + d.dy

theorem cellEucl_nonneg (u v : Int × Int) : 0 ≤ cellEucl u v := Real.sqrt_nonneg _

theorem gridLen_nonneg : ∀ p : List (Int × Int), 0 ≤ gridLen p
  | [] => le_refl _
  | [_] => le_refl _
  | u :: v :: l => add_nonneg (cellEucl_nonneg _ _) (gridLen_nonneg (v :: l))

/-- A table of rounded directions whose exact table is `dirs`. -/
theorem dirsNear_of {dirsF : List (Dir F.D)} {dirs : List (Dir ℝ)} {adj : Int × Int → Int × Int → Prop} {k : ℕ}
    (hd : DirsExact dirs adj)
    (h1 : ∀ d ∈ dirsF, ∃ e ∈ dirs, e.dx = d.dx ∧ e.dy = d.dy ∧ (1 - F.u) ^ k * e.delta ≤ d.delta.1 ∧
      d.delta.1 ≤ (1 + F.u) ^ k * e.delta)
    (h2 : ∀ e ∈ dirs, ∃ d ∈ dirsF, e.dx = d.dx ∧ e.dy = d.dy) : DirsNear F dirsF adj k where
  sound u v d hm e1 e2 := by
    obtain ⟨e, he, x1, x2, x3, x4⟩ := h1 d hm
    obtain ⟨ha, hc⟩ := (hd u v e.delta).1 ⟨e, he, by rw [x1]; exact e1, by rw [x2]; exact e2, rfl⟩
    rw [hc] at x3 x4
    exact ⟨ha, x3, x4⟩
  complete u v ha := by
    obtain ⟨e, he, e1, e2, _⟩ := (hd u v (cellEucl u v)).2 ⟨ha, rfl⟩
    obtain ⟨d, hm, x1, x2⟩ := h2 e he
    exact ⟨d, hm, by rw [← x1]; exact e1, by rw [← x2]; exact e2⟩

/-- The four directions in floating point. -/
theorem dirs4_near {D : Int} (hD : 0 ≤ D) : DirsNear F (dirs4 D) (Adj4 D) 3 := by
  have hD' : (0 : ℝ) ≤ D := by exact_mod_cast hD
  have hb : (1 - F.u) ^ 3 * (D : ℝ) ≤ F.fl D ∧ F.fl D ≤ (1 + F.u) ^ 3 * (D : ℝ) := by
    have := F.fl_near (x := (D : ℝ)) (y := D) (k := 0) hD' (by simp) (by simp)
    exact F.near_mono (k := 1) (by omega) hD' this.1 this.2
  refine dirsNear_of (dirs4_exact hD) ?_ ?_
  · intro d hd
    simp only [dirs4, List.mem_cons, List.not_mem_nil, or_false] at hd
    rcases hd with rfl | rfl | rfl | rfl
    · exact ⟨⟨-D, 0, D⟩, by simp [dirs4], rfl, rfl, hb⟩
    · exact ⟨⟨0, -D, D⟩, by simp [dirs4], rfl, rfl, hb⟩
    · exact ⟨⟨D, 0, D⟩, by simp [dirs4], rfl, rfl, hb⟩
    · exact ⟨⟨0, D, D⟩, by simp [dirs4], rfl, rfl, hb⟩
  · intro e he
    simp only [dirs4, List.mem_cons, List.not_mem_nil, or_false] at he
    rcases he with rfl | rfl | rfl | rfl
    · exact ⟨⟨-D, 0, (D : F.D)⟩, by simp [dirs4], rfl, rfl⟩
    · exact ⟨⟨0, -D, (D : F.D)⟩, by simp [dirs4], rfl, rfl⟩
    · exact ⟨⟨D, 0, (D : F.D)⟩, by simp [dirs4], rfl, rfl⟩
    · exact ⟨⟨0, D, (D : F.D)⟩, by simp [dirs4], rfl, rfl⟩

/-- The eight directions in floating point. -/
theorem dirs8_near {D : Int} (hD : 0 < D) : DirsNear F (dirs8 (sqrt2F F) D) (Adj8 D) 3 := by
  have hD' : (0 : ℝ) ≤ D := by exact_mod_cast hD.le
  have hu := F.u_nonneg
  have hu1 := F.u_lt
  have hb : (1 - F.u) ^ 3 * (D : ℝ) ≤ F.fl D ∧ F.fl D ≤ (1 + F.u) ^ 3 * (D : ℝ) := by
    have := F.fl_near (x := (D : ℝ)) (y := D) (k := 0) hD' (by simp) (by simp)
    exact F.near_mono (k := 1) (by omega) hD' this.1 this.2
  have h2 : (0 : ℝ) ≤ Real.sqrt 2 := Real.sqrt_nonneg _
  have hc : (1 - F.u) ^ 3 * (Real.sqrt 2 * D) ≤ F.fl (F.fl (Real.sqrt 2) * F.fl D) ∧
      F.fl (F.fl (Real.sqrt 2) * F.fl D) ≤ (1 + F.u) ^ 3 * (Real.sqrt 2 * D) := by
    obtain ⟨a1, a2, a3⟩ := F.fl_bounds h2
    obtain ⟨b1, b2, b3⟩ := F.fl_bounds hD'
    refine F.fl_near (k := 2) (mul_nonneg h2 hD') ?_ ?_
    · calc (1 - F.u) ^ 2 * (Real.sqrt 2 * D) = ((1 - F.u) * Real.sqrt 2) * ((1 - F.u) * D) := by ring
        _ ≤ _ := mul_le_mul a1 b1 (mul_nonneg (by linarith) hD') a3
    · calc F.fl (Real.sqrt 2) * F.fl D ≤ ((1 + F.u) * Real.sqrt 2) * ((1 + F.u) * D) :=
            mul_le_mul a2 b2 b3 (mul_nonneg (by linarith) h2)
        _ = _ := by ring
  refine dirsNear_of (dirs8_exact hD) ?_ ?_
  · intro d hd
    simp only [dirs8, List.mem_cons, List.not_mem_nil, or_false] at hd
    rcases hd with rfl | rfl | rfl | rfl | rfl | rfl | rfl | rfl
    · exact ⟨⟨-D, -D, Real.sqrt 2 * D⟩, by simp [dirs8], rfl, rfl, hc⟩
    · exact ⟨⟨0, -D, D⟩, by simp [dirs8], rfl, rfl, hb⟩
    · exact ⟨⟨D, -D, Real.sqrt 2 * D⟩, by simp [dirs8], rfl, rfl, hc⟩
    · exact ⟨⟨-D, 0, D⟩, by simp [dirs8], rfl, rfl, hb⟩
    · exact ⟨⟨D, 0, D⟩, by simp [dirs8], rfl, rfl, hb⟩
    · exact ⟨⟨-D, D, Real.sqrt 2 * D⟩, by simp [dirs8], rfl, rfl, hc⟩
    · exact ⟨⟨0, D, D⟩, by simp [dirs8], rfl, rfl, hb⟩
    · exact ⟨⟨D, D, Real.sqrt 2 * D⟩, by simp [dirs8], rfl, rfl, hc⟩
  · intro e he
    simp only [dirs8, List.mem_cons, List.not_mem_nil, or_false] at he
    rcases he with rfl | rfl | rfl | rfl | rfl | rfl | rfl | rfl
    · exact ⟨⟨-D, -D, sqrt2F F * (D : F.D)⟩, by simp [dirs8], rfl, rfl⟩
    · exact ⟨⟨0, -D, (D : F.D)⟩, by simp [dirs8], rfl, rfl⟩
    · exact ⟨⟨D, -D, sqrt2F F * (D : F.D)⟩, by simp [dirs8], rfl, rfl⟩
    · exact ⟨⟨-D, 0, (D : F.D)⟩, by simp [dirs8], rfl, rfl⟩
    · exact ⟨⟨D, 0, (D : F.D)⟩, by simp [dirs8], rfl, rfl⟩
    · exact ⟨⟨-D, D, sqrt2F F * (D : F.D)⟩, by simp [dirs8], rfl, rfl⟩
    · exact ⟨⟨0, D, (D : F.D)⟩, by simp [dirs8], rfl, rfl⟩
    · exact ⟨⟨D, D, sqrt2F F * (D : F.D)⟩, by simp [dirs8], rfl, rfl⟩

section
variable {free : GNode w h → Bool} {res : F.D} {dirs : List (Dir F.D)} {D : Int}
  {heur dist : GNode w h → GNode w h → F.D} {adj : Int × Int → Int × Int → Prop}

/-- Costs of single steps. -/
theorem stepCost_near (hd : DirsNear F dirs adj 3) (hr : 0 ≤ res.1) {u v : GNode w h} {c : F.D}
    (he : (v, c) ∈ gridSucc free res dirs u) :
    adj u.cell v.cell ∧ free v = true ∧ (1 - F.u) ^ 4 * (cellEucl u.cell v.cell * res.1) ≤ c.1 ∧
      c.1 ≤ (1 + F.u) ^ 4 * (cellEucl u.cell v.cell * res.1) := by
  obtain ⟨hf, dr, hdr, e1, e2, rfl⟩ := mem_gridSucc.1 he
  obtain ⟨ha, b1, b2⟩ := hd.sound u.cell v.cell dr hdr e1 e2
  refine ⟨ha, hf, ?_⟩
  rw [Fmt.mul_val]
  refine F.fl_near (k := 3) (mul_nonneg (cellEucl_nonneg _ _) hr) ?_ ?_
  · rw [← mul_assoc]; exact mul_le_mul_of_nonneg_right b1 hr
  · rw [← mul_assoc]; exact mul_le_mul_of_nonneg_right b2 hr

/-- Costs in floating point never make a path cheaper, and addition is monotone: the arithmetic the search theorems ask
for. -/
theorem gridRound_ok (hd : DirsNear F dirs adj 3) (hr : 0 ≤ res.1) :
    CostOk (gridAlgo free res dirs D heur dist) where
  infl u v c he a := by
    obtain ⟨_, _, h1, _⟩ := stepCost_near hd hr he
    have hu1 := F.u_lt
    have hc : 0 ≤ c.1 := le_trans (mul_nonneg (pow_nonneg (by linarith) _) (mul_nonneg (cellEucl_nonneg _ _) hr)) h1
    show a.1 ≤ F.fl (a.1 + c.1)
    calc a.1 = F.fl a.1 := a.2.symm
      _ ≤ _ := F.ok.mono (by linarith)
  mono a b c hab := by
    show F.fl (a.1 + c.1) ≤ F.fl (b.1 + c.1)
    have : a.1 ≤ b.1 := hab
    exact F.ok.mono (by linarith)

/-- Walks of the search are paths of free cells, and the cost the search computes is the length of the path up to one
rounding per step and four more. -/
theorem walkTo_near (hd : DirsNear F dirs adj 3) (hr : 0 ≤ res.1) {s n : GNode w h} {l : List (GNode w h)} {c : F.D}
    (hw : WalkTo (gridAlgo free res dirs D heur dist) [s] n l c) :
    FreePath w h (freeCell free) adj s.cell n.cell (l.map GNode.cell) ∧
      (1 - F.u) ^ (l.length + 4) * (gridLen (l.map GNode.cell) * res.1) ≤ c.1 ∧
      c.1 ≤ (1 + F.u) ^ (l.length + 4) * (gridLen (l.map GNode.cell) * res.1) := by
  induction hw with
  | @start s' hs =>
    simp only [List.mem_singleton] at hs
    subst hs
    refine ⟨⟨rfl, rfl, by simp, by simp⟩, ?_⟩
    show _ ≤ (0 : ℝ) ∧ (0 : ℝ) ≤ _
    simp [gridLen]
  | @step u v l d c hw he ih =>
    obtain ⟨⟨i1, i2, i3, i4⟩, i5, i6⟩ := ih
    obtain ⟨ha, hf, c1, c2⟩ := stepCost_near hd hr he
    have hne : l.map GNode.cell ≠ [] := by simpa using hw.ne_nil
    have hm : (l ++ [v]).map GNode.cell = l.map GNode.cell ++ [v.cell] := by simp
    rw [hm]
    refine ⟨⟨?_, by simp, ?_, ?_⟩, ?_⟩
    · rw [List.head?_append, i1]; rfl
    · rw [List.isChain_append]
      refine ⟨i3, by simp, ?_⟩
      intro a ha' b hb
      rw [i2] at ha'
      simp only [Option.mem_def, Option.some.injEq, List.head?_cons] at ha' hb
      subst ha'; subst hb
      exact ha
    · rw [List.tail_append_of_ne_nil hne]
      intro m hm
      rcases List.mem_append.1 hm with h1 | h1
      · exact i4 m h1
      · simp only [List.mem_singleton] at h1
        subst h1
        have hx := v.1.isLt
        have hy := v.2.isLt
        refine ⟨?_, ?_, v, rfl, hf⟩ <;> simp only [GNode.cell] <;> omega
    · show _ ≤ F.fl (d.1 + c.1) ∧ F.fl (d.1 + c.1) ≤ _
      rw [gridLen_snoc _ _ _ i2, List.length_append, List.length_singleton, add_mul,
        show l.length + 1 + 4 = (l.length + 4) + 1 by ring]
      have g0 := mul_nonneg (gridLen_nonneg (l.map GNode.cell)) hr
      have e0 := mul_nonneg (cellEucl_nonneg u.cell v.cell) hr
      obtain ⟨c1', c2'⟩ := F.near_mono (show 4 ≤ l.length + 4 by omega) e0 c1 c2
      refine F.fl_near (add_nonneg g0 e0) ?_ ?_
      · rw [mul_add]; exact add_le_add i5 c1'
      · rw [mul_add]; exact add_le_add i6 c2'

/-- Every path of free cells is a walk of the search. -/
theorem freePath_walk (hd : DirsNear F dirs adj 3) {s : GNode w h} (p : List (Int × Int)) :
    ∀ {t : Int × Int}, FreePath w h (freeCell free) adj s.cell t p →
    ∃ (n : GNode w h) (l : List (GNode w h)) (c : F.D), n.cell = t ∧ l.map GNode.cell = p ∧
      WalkTo (gridAlgo free res dirs D heur dist) [s] n l c := by
  induction p using List.reverseRecOn with
  | nil => intro t hp; cases hp.head
  | append_singleton p v ih =>
    intro t hp
    have ht : v = t := by have := hp.last; simpa using this
    subst ht
    by_cases hpe : p = []
    · subst hpe
      have hs : v = s.cell := by have := hp.head; simpa using this
      exact ⟨s, [s], 0, hs.symm, by simp [hs], WalkTo.start (by simp)⟩
    · obtain ⟨u, hu⟩ : ∃ u, p.getLast? = some u := by
        cases hh : p.getLast? with
        | none => exact absurd (List.getLast?_eq_none_iff.1 hh) hpe
        | some u => exact ⟨u, rfl⟩
      have hch := List.isChain_append.1 hp.chain
      have hp' : FreePath w h (freeCell free) adj s.cell u p := by
        refine ⟨?_, hu, hch.1, ?_⟩
        · have := hp.head
          rw [List.head?_append] at this
          cases hpp : p.head? with
          | none => exact absurd (List.head?_eq_none_iff.1 hpp) hpe
          | some a => rw [hpp] at this; simpa using this
        · intro c hc
          apply hp.free
          rw [List.tail_append_of_ne_nil hpe]
          exact List.mem_append_left _ hc
      obtain ⟨n, l, c, hn, hl, hw⟩ := ih hp'
      have hadj : adj u v := hch.2.2 u (by rw [hu]; simp) v (by simp)
      obtain ⟨_, _, m, hm, hfm⟩ := hp.free v (by
        rw [List.tail_append_of_ne_nil hpe]; exact List.mem_append_right _ (by simp))
      obtain ⟨dr, hdr, e1, e2⟩ := hd.complete u v hadj
      rw [← hn, ← hm] at e1
      rw [← hn, ← hm] at e2
      refine ⟨m, l ++ [m], _, hm, by simp [hl, hm], WalkTo.step hw (mem_gridSucc.2 ⟨hfm, dr, hdr, e1, e2, rfl⟩)⟩

/-- An estimate of the remaining distance that obeys the triangle inequality along the steps, in exact arithmetic. -/
def StepEstimate (adj : Int × Int → Int × Int → Prop) (H : GNode w h → ℝ) (r : ℝ) : Prop :=
  ∀ u v : GNode w h, adj u.cell v.cell → H u ≤ cellEucl u.cell v.cell * r + H v

theorem cont_estimate (hd : DirsNear F dirs adj 3) (hr : 0 ≤ res.1) {H : GNode w h → ℝ}
    (hH : StepEstimate adj H res.1) {s m n : GNode w h} {l1 l2 : List (GNode w h)} {dm d : F.D}
    (h1 : WalkTo (gridAlgo free res dirs D heur dist) [s] m l1 dm)
    (h2 : Cont (gridAlgo free res dirs D heur dist) m dm n l2 d) :
    gridLen (l1.map GNode.cell) * res.1 + H m ≤ gridLen ((l1 ++ l2).map GNode.cell) * res.1 + H n := by
  induction h2 with
  | refl => simp
  | @step u v l d c hc he ih =>
    have hw := (Cont.walk h1 hc)
    obtain ⟨hfp, _⟩ := walkTo_near hd hr hw
    obtain ⟨ha, _, _⟩ := stepCost_near hd hr he
    have := hH u v ha
    rw [← List.append_assoc, List.map_append (l₁ := l1 ++ l), List.map_singleton, gridLen_snoc _ _ _ hfp.last]
    nlinarith

end

/-- **C87 (near-optimality in floating point).**  The search on a grid with all costs rounded, for the 4- or the
8-neighbourhood, any step width, any rounding, any heuristic whose computed value is an estimate `H` (with the triangle
inequality) up to `j` roundings, and any min-priority open list: the path returned is a path of free cells without
repetitions from the start to within the step width of the goal; compared with any other path `q` of free cells to a cell
`t'` within the step width of the goal it is longer by rounding errors only, one for every cell of the two paths. -/
theorem grid_search_rounded {free : GNode w h → Bool} {res : F.D} (hr : 0 ≤ res.1)
    {dirs : List (Dir F.D)} {D : Int} (hD : 0 < D) {adj : Int × Int → Int × Int → Prop}
    (hcase : (dirs = dirs4 D ∧ adj = Adj4 D) ∨ (dirs = dirs8 (sqrt2F F) D ∧ adj = Adj8 D))
    {heur dist : GNode w h → GNode w h → F.D} {H : GNode w h → ℝ} {j : ℕ} {s g : GNode w h}
    (hH : StepEstimate adj H res.1) (hH0 : ∀ n, 0 ≤ (heur n g).1) (hHj : ∀ n, (heur n g).1 ≤ (1 + F.u) ^ j * H n)
    {P : OpenList (GNode w h) F.D} (L : Lawful P) (M : MinFirst P)
    (cfg : SCfg (GNode w h) F.D) (ht : TopOk cfg.top) (hx : ∀ k n g, cfg.canExpand k n g = none)
    (huse : cfg.useCands = false) (hs : cfg.start = [s]) (hg : cfg.goal = [g])
    {fuel : Nat} {p : List (GNode w h)} {st'}
    (hrun : findPathNodes (gridAlgo free res dirs D heur dist) P cfg
      (freshLabels (gridAlgo free res dirs D heur dist)) fuel = some (.ok p, st')) (hp : p ≠ []) :
    ∃ t : GNode w h, FreePath w h (freeCell free) adj s.cell t.cell (p.map GNode.cell) ∧ p.Nodup ∧
      NearCell D g.cell t.cell ∧
      ∀ (q : List (Int × Int)) (t' : GNode w h),
        FreePath w h (freeCell free) adj s.cell t'.cell q → NearCell D g.cell t'.cell →
        (1 - F.u) ^ (p.length + 4) * (gridLen (p.map GNode.cell) * res.1) ≤
          (1 + F.u) ^ (q.length + 5 + j) * (gridLen q * res.1 + H t') := by
  have hu := F.u_nonneg
  have hd : DirsNear F dirs adj 3 := by
    rcases hcase with ⟨rfl, rfl⟩ | ⟨rfl, rfl⟩
    · exact dirs4_near hD.le
    · exact dirs8_near hD
  have hv : ∀ n, hvalR (gridAlgo free res dirs D heur dist) cfg.goal n = heur n g := by
    intro n; unfold hvalR; rw [hg]; rfl
  have hmono : ∀ a b c : F.D, b.1 ≤ c.1 → a + b ≤ a + c := by
    intro a b c hbc
    show F.fl (a.1 + b.1) ≤ F.fl (a.1 + c.1)
    exact F.ok.mono (by linarith)
  obtain ⟨t, d, h1, hnd, h2, h3⟩ := search_beats_frontier (gridRound_ok hd hr) L M cfg ht hx huse
    (fun s' _ => by rw [hv]; exact hmono _ _ _ (hH0 _))
    (fun s1 hs1 _ s2 hs2 => by
      rw [hs] at hs1 hs2
      simp only [List.mem_singleton] at hs1 hs2
      subst hs1; subst hs2
      exact le_refl _) hrun hp
  rw [hs] at h1 h3
  have hnc : ∀ t : GNode w h, InGoalRegion (gridAlgo free res dirs D heur dist) cfg.goal t ↔
      NearCell D g.cell t.cell := by
    intro t
    unfold InGoalRegion
    rw [hg]
    show (∃ g' ∈ [g], gridIsGoal D g' t = true) ↔ _
    simp only [List.mem_singleton, exists_eq_left, gridIsGoal, Bool.and_eq_true, decide_eq_true_eq,
      NearCell, GNode.cell, Int.natCast_natAbs]
  obtain ⟨hfp, b1, _⟩ := walkTo_near hd hr h1
  refine ⟨t, hfp, hnd, (hnc t).1 h2, ?_⟩
  intro q t' hq hn
  obtain ⟨n, l, c, hn1, hl, hw⟩ := freePath_walk (res := res) (D := D) (heur := heur) (dist := dist) hd q hq
  have hnt : n = t' := GNode.cell_inj hn1
  subst hnt
  obtain ⟨m, dm, l1, l2, hl12, k1, k2, k3⟩ := h3 n l c hw ((hnc n).2 hn)
  rw [hv, hv] at k3
  have k3' : F.fl (d.1 + (heur t g).1) ≤ F.fl (dm.1 + (heur m g).1) := k3
  obtain ⟨_, _, m2⟩ := walkTo_near hd hr k1
  have hest := cont_estimate hd hr hH k1 k2
  rw [← hl12, hl] at hest
  have hlen : l1.length ≤ q.length := by
    rw [← hl, hl12, List.length_map, List.length_append]; omega
  have hHm : 0 ≤ H m := by
    have := (hH0 m).trans (hHj m)
    have hpos : 0 < (1 + F.u) ^ j := pow_pos (by linarith) _
    exact nonneg_of_mul_nonneg_right this hpos
  have g0 : 0 ≤ gridLen (l1.map GNode.cell) * res.1 := mul_nonneg (gridLen_nonneg _) hr
  have hdm0 : 0 ≤ dm.1 + (heur m g).1 := by
    have h4 := (walkTo_near hd hr k1).2.1
    have : 0 ≤ dm.1 := le_trans (mul_nonneg (pow_nonneg (by linarith [F.u_lt]) _) g0) h4
    linarith [hH0 m]
  calc (1 - F.u) ^ (p.length + 4) * (gridLen (p.map GNode.cell) * res.1) ≤ d.1 := b1
    _ = F.fl d.1 := d.2.symm
    _ ≤ F.fl (d.1 + (heur t g).1) := F.ok.mono (by linarith [hH0 t])
    _ ≤ F.fl (dm.1 + (heur m g).1) := k3'
    _ ≤ (1 + F.u) * (dm.1 + (heur m g).1) := (F.fl_bounds hdm0).2.1
    _ ≤ (1 + F.u) * ((1 + F.u) ^ (q.length + 4 + j) * (gridLen (l1.map GNode.cell) * res.1) +
          (1 + F.u) ^ (q.length + 4 + j) * H m) := by
        refine mul_le_mul_of_nonneg_left (add_le_add ?_ ?_) (by linarith)
        · exact m2.trans (mul_le_mul_of_nonneg_right (pow_le_pow_right₀ (by linarith) (by omega)) g0)
        · exact (hHj m).trans (mul_le_mul_of_nonneg_right (pow_le_pow_right₀ (by linarith) (by omega)) hHm)
    _ = (1 + F.u) ^ (q.length + 5 + j) * (gridLen (l1.map GNode.cell) * res.1 + H m) := by ring
    _ ≤ _ := mul_le_mul_of_nonneg_left hest (pow_nonneg (by linarith) _)

end PathPlanning
