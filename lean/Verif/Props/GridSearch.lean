import Verif.Model.GridSearch
import Verif.Props.SearchHistory
import Verif.Props.GridMap

/-!
# Heuristics and the search on grid maps (C25, C27, C28)
-/

namespace PathPlanning
set_option linter.unusedSectionVars false

variable {w h : Nat}

theorem gridNode_eq_some {xx yy : Int} {m : GNode w h} :
    gridNode w h xx yy = some m ↔ ((m.1 : Nat) : Int) = xx ∧ ((m.2 : Nat) : Int) = yy := by
  unfold gridNode
  constructor
  · intro hm
    split at hm
    · rename_i hc
      cases hm
      simp only
      omega
    · cases hm
  · rintro ⟨h1, h2⟩
    have hx := m.1.isLt
    have hy := m.2.isLt
    rw [dif_pos (by omega)]
    congr 1
    refine Prod.ext (Fin.ext ?_) (Fin.ext ?_) <;> simp only <;> omega

theorem mem_gridSucc {K : Type} [Mul K] {free : GNode w h → Bool} {res : K} {dirs : List (Dir K)}
    {n m : GNode w h} {c : K} :
    (m, c) ∈ gridSucc free res dirs n ↔ free m = true ∧ ∃ d ∈ dirs,
      ((m.1 : Nat) : Int) = (n.1 : Nat) + d.dx ∧ ((m.2 : Nat) : Int) = (n.2 : Nat) + d.dy ∧
      c = d.delta * res := by
  unfold gridSucc
  rw [List.mem_filterMap]
  constructor
  · rintro ⟨d, hd, he⟩
    cases hg : gridNode w h ((n.1 : Nat) + d.dx) ((n.2 : Nat) + d.dy) with
    | none => rw [hg] at he; cases he
    | some m' =>
      rw [hg] at he
      simp only at he
      split at he
      · rename_i hf
        cases he
        obtain ⟨h1, h2⟩ := gridNode_eq_some.1 hg
        exact ⟨hf, d, hd, h1, h2, rfl⟩
      · cases he
  · rintro ⟨hf, d, hd, h1, h2, rfl⟩
    refine ⟨d, hd, ?_⟩
    rw [gridNode_eq_some.2 ⟨h1, h2⟩]
    simp [hf]

/-- Reading the map for a node never leaves the data array and gives the cell's state. -/
theorem mapFree_iff {K : Type} (m : GridMap K) (hl : m.data.length = m.width * m.height)
    (hs : m.width * m.height < 2 ^ 32) (n : GNode m.width m.height) :
    (∃ b, m.isFree ⟨n.1, n.2⟩ = .ok b) ∧
      (mapFree m n = true ↔ m.isFree ⟨n.1, n.2⟩ = .ok true) := by
  refine ⟨?_, by simp [mapFree]⟩
  have hx := n.1.isLt
  have hy := n.2.isLt
  have h1 : (n.2 : Nat) * m.width + n.1 < m.width * m.height := GridMap.cell_lt hx hy
  have hi : m.index ⟨n.1, n.2⟩ = (n.2 : Nat) * m.width + n.1 := by
    unfold GridMap.index wrapU u32
    simp only
    rw [Nat.mod_eq_of_lt (a := (n.2 : Nat) * m.width) (by omega),
      Nat.mod_eq_of_lt (by omega)]
  unfold GridMap.isFree GridMap.getValue
  rw [hi, vget_of_lt (by omega)]
  exact ⟨_, rfl⟩

/-! ### Norms -/

theorem sqrt_triangle (a b c d : ℝ) :
    Real.sqrt ((a + c) ^ 2 + (b + d) ^ 2) ≤ Real.sqrt (a ^ 2 + b ^ 2) + Real.sqrt (c ^ 2 + d ^ 2) := by
  have h := norm_add_le (⟨a, b⟩ : ℂ) ⟨c, d⟩
  simpa [Complex.norm_eq_sqrt_sq_add_sq] using h

theorem max_triangle (a b c d : ℝ) :
    max |a + c| |b + d| ≤ max |a| |b| + max |c| |d| := by
  refine max_le ?_ ?_
  · exact (abs_add_le a c).trans (add_le_add (le_max_left _ _) (le_max_left _ _))
  · exact (abs_add_le b d).trans (add_le_add (le_max_right _ _) (le_max_right _ _))

/-- A step of the neighbourhood covers at least its Euclidean length. -/
def EuclidDirs (dirs : List (Dir ℝ)) : Prop :=
  ∀ d ∈ dirs, Real.sqrt ((d.dx : ℝ) ^ 2 + (d.dy : ℝ) ^ 2) ≤ d.delta

theorem euclid4 {D : Int} (hD : 0 ≤ D) : EuclidDirs (dirs4 (K := ℝ) D) := by
  have h0 : (0 : ℝ) ≤ D := by exact_mod_cast hD
  have h1 : Real.sqrt ((D : ℝ) ^ 2) = D := Real.sqrt_sq h0
  intro d hd
  simp only [dirs4, List.mem_cons, List.not_mem_nil, or_false] at hd
  rcases hd with rfl | rfl | rfl | rfl <;> simp [h1]

theorem euclid8 {D : Int} (hD : 0 ≤ D) : EuclidDirs (dirs8 (Real.sqrt 2) D) := by
  have h0 : (0 : ℝ) ≤ D := by exact_mod_cast hD
  have h1 : Real.sqrt ((D : ℝ) ^ 2) = D := Real.sqrt_sq h0
  have h2 : Real.sqrt ((D : ℝ) ^ 2 + (D : ℝ) ^ 2) = Real.sqrt 2 * D := by
    rw [← two_mul, Real.sqrt_mul (by norm_num), h1]
  intro d hd
  simp only [dirs8, List.mem_cons, List.not_mem_nil, or_false] at hd
  rcases hd with rfl | rfl | rfl | rfl | rfl | rfl | rfl | rfl <;> simp [h1, h2]

theorem grid_exact {free : GNode w h → Bool} {res : ℝ} (hr : 0 ≤ res) {dirs : List (Dir ℝ)}
    (he : EuclidDirs dirs) {D : Int} {heur dist : GNode w h → GNode w h → ℝ} :
    ExactCosts (gridAlgo free res dirs D heur dist) where
  zero := rfl
  add _ _ := rfl
  nonneg u v c hc := by
    obtain ⟨_, d, hd, _, _, rfl⟩ := mem_gridSucc.1 hc
    exact mul_nonneg ((Real.sqrt_nonneg _).trans (he d hd)) hr

theorem dX_step {n m g : GNode w h} {k : Int} (hk : ((m.1 : Nat) : Int) = (n.1 : Nat) + k) :
    dX n g = dX m g + (-(k : ℝ)) := by
  have : ((m.1 : Nat) : ℝ) = ((n.1 : Nat) : ℝ) + k := by exact_mod_cast hk
  unfold dX; rw [this]; ring

theorem dY_step {n m g : GNode w h} {k : Int} (hk : ((m.2 : Nat) : Int) = (n.2 : Nat) + k) :
    dY n g = dY m g + (-(k : ℝ)) := by
  have : ((m.2 : Nat) : ℝ) = ((n.2 : Nat) : ℝ) + k := by exact_mod_cast hk
  unfold dY; rw [this]; ring

/-- A heuristic is consistent for one goal node. -/
def HCons (A : Algo (GNode w h) ℝ) (heur : GNode w h → GNode w h → ℝ) : Prop :=
  ∀ g, Consistent A (fun n => heur n g)

/-- **C28 (zero).** -/
theorem hZero_consistent {free : GNode w h → Bool} {res : ℝ} (hr : 0 ≤ res)
    {dirs : List (Dir ℝ)} (he : EuclidDirs dirs) {D : Int}
    {heur dist : GNode w h → GNode w h → ℝ} :
    HCons (gridAlgo free res dirs D heur dist) hZero := fun _ =>
  ⟨fun _ => le_refl _, fun u v c hc => by
    have := (grid_exact (free := free) hr he (D := D) (heur := heur) (dist := dist)).nonneg u v c hc
    simpa [hZero] using this⟩

/-- **C28 (L2).**  The Euclidean heuristic is non-negative and consistent for the 4- and the
8-neighbourhood, on every map, for every goal. -/
theorem hL2_consistent {free : GNode w h → Bool} {res : ℝ} (hr : 0 ≤ res)
    {dirs : List (Dir ℝ)} (he : EuclidDirs dirs) {D : Int}
    {heur dist : GNode w h → GNode w h → ℝ} :
    HCons (gridAlgo free res dirs D heur dist) (hL2 res) := by
  intro g
  refine ⟨fun n => mul_nonneg hr (Real.sqrt_nonneg _), ?_⟩
  intro u v c hc
  obtain ⟨_, d, hd, h1, h2, rfl⟩ := mem_gridSucc.1 hc
  unfold hL2
  rw [dX_step (g := g) h1, dY_step (g := g) h2]
  have ht := sqrt_triangle (dX v g) (dY v g) (-(d.dx : ℝ)) (-(d.dy : ℝ))
  have hd' := he d hd
  rw [neg_sq, neg_sq] at ht
  have := mul_le_mul_of_nonneg_left (ht.trans (add_le_add_right hd' _)) hr
  calc _ ≤ _ := this
    _ = _ := by ring

/-- **C28 (L∞).** -/
theorem hLInf_consistent {free : GNode w h → Bool} {res : ℝ} (hr : 0 ≤ res)
    {dirs : List (Dir ℝ)} (he : EuclidDirs dirs) {D : Int}
    {heur dist : GNode w h → GNode w h → ℝ} :
    HCons (gridAlgo free res dirs D heur dist) (hLInf res) := by
  intro g
  refine ⟨fun n => mul_nonneg hr (le_max_of_le_left (abs_nonneg _)), ?_⟩
  intro u v c hc
  obtain ⟨_, d, hd, h1, h2, rfl⟩ := mem_gridSucc.1 hc
  unfold hLInf
  rw [dX_step (g := g) h1, dY_step (g := g) h2]
  have ht := max_triangle (dX v g) (dY v g) (-(d.dx : ℝ)) (-(d.dy : ℝ))
  rw [abs_neg, abs_neg] at ht
  have hm : max |(d.dx : ℝ)| |(d.dy : ℝ)| ≤ d.delta := by
    refine le_trans ?_ (he d hd)
    refine max_le ?_ ?_
    · rw [← Real.sqrt_sq_eq_abs]; exact Real.sqrt_le_sqrt (by nlinarith [sq_nonneg (d.dy : ℝ)])
    · rw [← Real.sqrt_sq_eq_abs]; exact Real.sqrt_le_sqrt (by nlinarith [sq_nonneg (d.dx : ℝ)])
  have := mul_le_mul_of_nonneg_left (ht.trans (add_le_add_right hm _)) hr
  calc _ ≤ _ := this
    _ = _ := by ring

/-- **C28 (L1).**  The Manhattan heuristic is consistent for the 4-neighbourhood. -/
theorem hL1_consistent_4 {free : GNode w h → Bool} {res : ℝ} (hr : 0 ≤ res) {D : Int}
    (hD : 0 ≤ D) {heur dist : GNode w h → GNode w h → ℝ} :
    HCons (gridAlgo free res (dirs4 D) D heur dist) (hL1 res) := by
  have h0 : (0 : ℝ) ≤ D := by exact_mod_cast hD
  intro g
  refine ⟨fun n => mul_nonneg hr (add_nonneg (abs_nonneg _) (abs_nonneg _)), ?_⟩
  intro u v c hc
  obtain ⟨_, d, hd, h1, h2, rfl⟩ := mem_gridSucc.1 hc
  unfold hL1
  rw [dX_step (g := g) h1, dY_step (g := g) h2]
  have hx := abs_add_le (dX v g) (-(d.dx : ℝ))
  have hy := abs_add_le (dY v g) (-(d.dy : ℝ))
  rw [abs_neg] at hx hy
  have hm : |(d.dx : ℝ)| + |(d.dy : ℝ)| = d.delta := by
    simp only [dirs4, List.mem_cons, List.not_mem_nil, or_false] at hd
    rcases hd with rfl | rfl | rfl | rfl <;> simp [abs_of_nonneg h0]
  have : |dX v g + -(d.dx : ℝ)| + |dY v g + -(d.dy : ℝ)| ≤
      |dX v g| + |dY v g| + d.delta := by rw [← hm]; linarith
  calc _ ≤ _ := mul_le_mul_of_nonneg_left this hr
    _ = _ := by ring

/-- **C28, boundary.**  For the 8-neighbourhood the Manhattan heuristic overestimates: across
any diagonal step to a free goal cell the estimate `2 D res` exceeds the true cost
`sqrt 2 D res`. -/
theorem hL1_overestimates_8 {free : GNode w h → Bool} {res : ℝ} (hr : 0 < res) {D : Int}
    (hD : 0 < D) {heur dist : GNode w h → GNode w h → ℝ} {n g : GNode w h} (hg : free g = true)
    (hx : ((g.1 : Nat) : Int) = (n.1 : Nat) + D) (hy : ((g.2 : Nat) : Int) = (n.2 : Nat) + D) :
    ∃ c, Reach (gridAlgo free res (dirs8 (Real.sqrt 2) D) D heur dist) [n] g c ∧
      c < hL1 res n g := by
  have h0 : (0 : ℝ) < D := by exact_mod_cast hD
  refine ⟨0 + Real.sqrt 2 * D * res, ?_, ?_⟩
  · refine Reach.step (u := n) (.start (by simp)) ?_
    exact mem_gridSucc.2 ⟨hg, ⟨D, D, Real.sqrt 2 * D⟩, by simp [dirs8], hx, hy, rfl⟩
  · unfold hL1
    rw [dX_step (g := g) hx, dY_step (g := g) hy]
    have e1 : dX g g = 0 := by simp [dX]
    have e2 : dY g g = 0 := by simp [dY]
    rw [e1, e2]
    simp only [zero_add, abs_neg, abs_of_pos h0]
    have hs : Real.sqrt 2 < 2 := by
      rw [Real.sqrt_lt' (by norm_num)]; norm_num
    have : 0 < (D : ℝ) * res := mul_pos h0 hr
    nlinarith

/-- **C28 (max).**  The maximum of consistent heuristics is consistent. -/
theorem hMax_consistent {A : Algo (GNode w h) ℝ} {h1 h2 : GNode w h → GNode w h → ℝ}
    (c1 : HCons A h1) (c2 : HCons A h2) : HCons A (hMax h1 h2) := by
  intro g
  refine ⟨fun n => le_max_of_le_left ((c2 g).nonneg n), ?_⟩
  intro u v c hc
  have e1 := (c1 g).tri u v c hc
  have e2 := (c2 g).tri u v c hc
  refine max_le (e2.trans ?_) (e1.trans ?_)
  · exact add_le_add_right (le_max_left _ _) c
  · exact add_le_add_right (le_max_right _ _) c

/-- **C28 (max, admissibility).**  The maximum of two heuristics that never overestimate never
overestimates. -/
theorem hMax_admissible {A : Algo (GNode w h) ℝ} {goal : List (GNode w h)}
    {h1 h2 : GNode w h → GNode w h → ℝ} {g : GNode w h} {B : GNode w h → ℝ}
    (c1 : Admissible A goal (fun n => h1 n g) B) (c2 : Admissible A goal (fun n => h2 n g) B) :
    Admissible A goal (fun n => hMax h1 h2 n g) B :=
  ⟨fun n => le_max_of_le_left (c2.nonneg n), fun m t c hr ht =>
    max_le (c2.le m t c hr ht) (c1.le m t c hr ht)⟩

/-! ### The search on a grid map -/

/-- Adjacent cells of the neighbourhood. -/
def GridStep {K : Type} (dirs : List (Dir K)) (n m : GNode w h) : Prop :=
  ∃ d ∈ dirs, ((m.1 : Nat) : Int) = (n.1 : Nat) + d.dx ∧ ((m.2 : Nat) : Int) = (n.2 : Nat) + d.dy

/-- **C25 on a grid.**  Along a walk every cell but the first is free and consecutive cells are
neighbours; its cost is the sum of the step costs. -/
theorem grid_walk_free {K : Type} [LinearOrder K] [Zero K] [Add K] [Mul K] {free : GNode w h → Bool} {res : K}
    {dirs : List (Dir K)} {D : Int} {heur dist : GNode w h → GNode w h → K}
    {start : List (GNode w h)} {n : GNode w h} {l : List (GNode w h)} {c : K}
    (hw : WalkTo (gridAlgo free res dirs D heur dist) start n l c) :
    l.getLast? = some n ∧ (∃ s ∈ start, l.head? = some s) ∧ (∀ m ∈ l.tail, free m = true) ∧
      l.IsChain (GridStep dirs) := by
  induction hw with
  | start hs => exact ⟨rfl, ⟨_, hs, rfl⟩, by simp, by simp⟩
  | @step u v l d c hw he ih =>
    obtain ⟨i1, ⟨s, hs, i2⟩, i3, i4⟩ := ih
    obtain ⟨hf, dr, hdr, e1, e2, _⟩ := mem_gridSucc.1 he
    have hne : l ≠ [] := hw.ne_nil
    refine ⟨by simp, ⟨s, hs, ?_⟩, ?_, ?_⟩
    · rw [List.head?_append, i2]; rfl
    · rw [List.tail_append_of_ne_nil hne]
      intro m hm
      rcases List.mem_append.1 hm with h1 | h1
      · exact i3 m h1
      · simp only [List.mem_singleton] at h1; rw [h1]; exact hf
    · rw [List.isChain_append]
      refine ⟨i4, by simp, ?_⟩
      intro a ha b hb
      rw [i1] at ha
      simp only [Option.mem_def, Option.some.injEq, List.head?_cons] at ha hb
      subst ha; subst hb
      exact ⟨dr, hdr, e1, e2⟩

/-- The shipped search configurations on a grid (Algorithms.hpp): neighbourhood, heuristic. -/
inductive GridHeur where
  | zero | l2 | linf | maxL2Linf
deriving DecidableEq

noncomputable def GridHeur.fn (k : GridHeur) (res : ℝ) : GNode w h → GNode w h → ℝ :=
  match k with
  | .zero => hZero
  | .l2 => hL2 res
  | .linf => hLInf res
  | .maxL2Linf => hMax (hL2 res) (hLInf res)

/-- **C25 + C27 on grid maps.**  On every grid map, for the 4- or 8-neighbourhood with any step
width and any of the listed heuristics, with a min-priority open list: the path returned starts
at a start cell, consists of free neighbouring cells, ends within the step width of the goal
cell, and no other walk of free cells into the goal region has smaller cost + estimate. -/
theorem grid_search_optimal {free : GNode w h → Bool} {res : ℝ} (hr : 0 ≤ res)
    {dirs : List (Dir ℝ)} (he : EuclidDirs dirs) {D : Int} (k : GridHeur)
    {P : OpenList (GNode w h) ℝ} (L : Lawful P) (M : MinFirst P)
    (cfg : SCfg (GNode w h) ℝ) (ht : TopOk cfg.top) (hx : ∀ k n g, cfg.canExpand k n g = none)
    (huse : cfg.useCands = false) {s g : GNode w h} (hs : cfg.start = [s]) (hg : cfg.goal = [g])
    {fuel : Nat} {p : List (GNode w h)} {st'}
    (hrun : findPathNodes (gridAlgo free res dirs D (k.fn res) gridHypot) P cfg
      (freshLabels (gridAlgo free res dirs D (k.fn res) gridHypot)) fuel = some (.ok p, st'))
    (hp : p ≠ []) :
    ∃ t d, WalkTo (gridAlgo free res dirs D (k.fn res) gridHypot) [s] t p d ∧
      p.head? = some s ∧ p.getLast? = some t ∧ (∀ m ∈ p.tail, free m = true) ∧
      p.IsChain (GridStep dirs) ∧
      ((((g.1 : Nat) : Int) - (t.1 : Nat)).natAbs ≤ D ∧
        (((g.2 : Nat) : Int) - (t.2 : Nat)).natAbs ≤ D) ∧
      ∀ t' d', Reach (gridAlgo free res dirs D (k.fn res) gridHypot) [s] t' d' →
        ((((g.1 : Nat) : Int) - (t'.1 : Nat)).natAbs ≤ D ∧
          (((g.2 : Nat) : Int) - (t'.2 : Nat)).natAbs ≤ D) →
        d + k.fn res t g ≤ d' + k.fn res t' g := by
  set A := gridAlgo free res dirs D (k.fn res) gridHypot with hA
  have hE : ExactCosts A := grid_exact hr he
  have hcon : HCons A (k.fn res) := by
    cases k with
    | zero => exact hZero_consistent hr he
    | l2 => exact hL2_consistent hr he
    | linf => exact hLInf_consistent hr he
    | maxL2Linf => exact hMax_consistent (hL2_consistent hr he) (hLInf_consistent hr he)
  have hv : ∀ n, hval A cfg.goal n = k.fn res n g := fun n => by rw [hg]; rfl
  have hreg : ∀ t, InGoalRegion A cfg.goal t ↔
      ((((g.1 : Nat) : Int) - (t.1 : Nat)).natAbs ≤ D ∧
        (((g.2 : Nat) : Int) - (t.2 : Nat)).natAbs ≤ D) := by
    intro t
    unfold InGoalRegion
    rw [hg]
    show (∃ g' ∈ [g], gridIsGoal D g' t = true) ↔ _
    simp only [List.mem_singleton, exists_eq_left, gridIsGoal, Bool.and_eq_true,
      decide_eq_true_eq]
  obtain ⟨t, d, h1, h2, h3⟩ := search_optimal_consistent hE L M cfg ht hx huse
    (by have := hcon g; simpa only [funext hv] using this)
    (by
      intro s' hs' _ s'' hs''
      rw [hs] at hs' hs''
      simp only [List.mem_singleton] at hs' hs''
      rw [hs', hs'']) hrun hp
  rw [hs] at h1 h3
  obtain ⟨g1, ⟨s', hs', g2⟩, g3, g4⟩ := grid_walk_free h1
  simp only [List.mem_singleton] at hs'
  subst hs'
  refine ⟨t, d, h1, g2, g1, g3, g4, (hreg t).1 h2, ?_⟩
  intro t' d' hr' hreg'
  have := h3 t' d' hr' ((hreg t').2 hreg')
  rwa [hv, hv] at this

/-- **C25, finding.**  A path need not reach the goal cell: every search whose start is already
within the step width of the goal returns the start alone, on every map. -/
theorem grid_search_short {K : Type} [LinearOrder K] [Zero K] [Add K] [Mul K]
    {free : GNode w h → Bool} {res : K} {dirs : List (Dir K)} {D : Int}
    {heur dist : GNode w h → GNode w h → K} {P : OpenList (GNode w h) K} (L : Lawful P)
    (cfg : SCfg (GNode w h) K) (hx : ∀ k n g, cfg.canExpand k n g = none)
    (huse : cfg.useCands = false) (hab : cfg.abort 0 = false) {s g : GNode w h}
    (hs : cfg.start = [s]) (hg : cfg.goal = [g])
    (hnear : (((g.1 : Nat) : Int) - (s.1 : Nat)).natAbs ≤ D ∧
      (((g.2 : Nat) : Int) - (s.2 : Nat)).natAbs ≤ D) :
    ∃ st', findPathNodes (gridAlgo free res dirs D heur dist) P cfg
      (freshLabels (gridAlgo free res dirs D heur dist)) 1 = some (.ok [s], st') := by
  set A := gridAlgo free res dirs D heur dist with hA
  obtain ⟨k1, _, k3, k4, k5⟩ := init_facts (A := A) (L := L) (cfg := cfg)
  have hinv : SInv A L cfg.start (initSearch A P cfg (freshLabels A)) := init_inv
  have hex : (initSearch A P cfg (freshLabels A)).expansions = 0 := by
    simp [initSearch, hs, addStart]
  have hmem : s ∈ cfg.start := by rw [hs]; simp
  unfold findPathNodes
  generalize initSearch A P cfg (freshLabels A) = st0 at *
  have hfirst : ∃ o, P.next st0.opn = some (s, o) := by
    cases hn : P.next st0.opn with
    | none => exact absurd (k4 s hmem) ((L.next_none _).1 hn s)
    | some co =>
      have := k3 co.1 (L.next_some _ co.1 co.2 hn).1
      rw [hs] at this
      simp only [List.mem_singleton] at this
      exact ⟨co.2, by rw [← this]⟩
  obtain ⟨o, hn⟩ := hfirst
  refine ⟨popNode A cfg st0 s o, ?_⟩
  have hgoal : A.isGoal g s = true := by
    show gridIsGoal D g s = true
    unfold gridIsGoal
    rw [decide_eq_true hnear.1, decide_eq_true hnear.2]; rfl
  have hbt : backtrack (popNode A cfg st0 s o).lab cfg.start s = .ok [s] := by
    unfold backtrack backtrackFrom
    simp [hmem]
  have htest : poseTest A cfg (popNode A cfg st0 s o) s =
      .ok ⟨true, [s], popNode A cfg st0 s o⟩ := by
    unfold poseTest
    rw [hg, expansionLoop, hx, expansionLoop]
    simp only [CRes.ok_bind]
    rw [goalLoop]
    simp [hgoal, huse, hbt]
  have : iterate A cfg (poseTest A cfg) st0 = .done (.ok [s]) (popNode A cfg st0 s o) := by
    unfold iterate
    rw [hn]
    simp only [hex, hab, Bool.false_eq_true, if_false]
    rw [htest]
    simp
  rw [searchLoop, this]

end PathPlanning
