import Verif.Props.DuringSearch2
import Verif.Props.MapChange
import Verif.Props.KinSearchEx
import Verif.Spec.DuringSearch

/-!
# Searches on a grid map that changes meanwhile (C116)
-/

namespace PathPlanning.During
open PathPlanning Spec
set_option linter.unusedSectionVars false

section general
variable {N C : Type} [DecidableEq N] [LinearOrder C] [Fintype N] {A : Algo N C} {P : OpenList N C}

/-- **C116.**  A map that does not change: the search of C25. -/
theorem constant (P : OpenList N C) (cfg : SCfg N C) (lab : Labels N C) (fuel : Nat) :
    findPathDuring A (fun _ => A.succ) P cfg lab fuel = findPathNodes A P cfg lab fuel := by
  unfold findPathDuring findPathNodes
  generalize initSearch A P cfg lab = st
  induction fuel generalizing st with
  | zero => rfl
  | succ fuel ih =>
    unfold searchLoopDuring searchLoop
    simp only [ih]
    rfl

theorem walk_imp {U V : N → List (N × C)} (h : ∀ u, ∀ e ∈ U u, e ∈ V u) {S : List N} {n : N} {l : List N} {d : C}
    (hw : WalkTo (A.withSucc U) S n l d) : WalkTo (A.withSucc V) S n l d := by
  induction hw with
  | start hs => exact .start hs
  | step _ he ih => exact .step ih (h _ _ he)

end general

variable {w h : Nat}

/-- The maps the search sees. -/
def gridMaps {K : Type} [Mul K] (free : Nat → GNode w h → Bool) (res : K) (dirs : List (Dir K)) (k : Nat) :
    GNode w h → List (GNode w h × K) := gridSucc (free k) res dirs

def ever (free : Nat → GNode w h → Bool) (E : Nat) (n : GNode w h) : Bool := decide (∃ k < E, free k n = true)

def always (free : Nat → GNode w h → Bool) (E : Nat) (n : GNode w h) : Bool := decide (∀ k < E, free k n = true)

theorem seen_ever {K : Type} [Mul K] {free : Nat → GNode w h → Bool} {res : K} {dirs : List (Dir K)} {E : Nat} (u : GNode w h) :
    ∀ e ∈ seen (gridMaps free res dirs) E u, e ∈ gridSucc (ever free E) res dirs u := by
  rintro ⟨v, c⟩ he
  obtain ⟨k, hk, hm⟩ := List.mem_flatMap.1 he
  obtain ⟨hf, hr⟩ := mem_gridSucc.1 hm
  exact mem_gridSucc.2 ⟨decide_eq_true ⟨k, List.mem_range.1 hk, hf⟩, hr⟩

theorem always_map {K : Type} [Mul K] {free : Nat → GNode w h → Bool} {res : K} {dirs : List (Dir K)} {E k : Nat} (hk : k < E)
    (u : GNode w h) : ∀ e ∈ gridSucc (always free E) res dirs u, e ∈ gridMaps free res dirs k u := by
  rintro ⟨v, c⟩ he
  obtain ⟨hf, hr⟩ := mem_gridSucc.1 he
  exact mem_gridSucc.2 ⟨of_decide_eq_true hf k hk, hr⟩

theorem freeCell_ever {free : Nat → GNode w h → Bool} {E : Nat} {c : Int × Int} (hc : freeCell (ever free E) c) :
    FreeAtSomeTime E (fun k => freeCell (free k)) c := by
  obtain ⟨n, e, hf⟩ := hc
  obtain ⟨k, hk, hf⟩ := of_decide_eq_true hf
  exact ⟨k, hk, n, e, hf⟩

theorem freeCell_always {free : Nat → GNode w h → Bool} {E : Nat} (n : GNode w h)
    (hc : FreeAllTheTime E (fun k => freeCell (free k)) n.cell) : freeCell (always free E) n.cell := by
  refine ⟨n, rfl, decide_eq_true fun k hk => ?_⟩
  obtain ⟨m, e, hf⟩ := hc k hk
  rwa [GNode.cell_inj e] at hf

theorem freePath_always {free : Nat → GNode w h → Bool} {E : Nat} {adj : Int × Int → Int × Int → Prop} {s t : Int × Int}
    {q : List (Int × Int)} (hq : FreePath w h (FreeAllTheTime E fun k => freeCell (free k)) adj s t q) :
    FreePath w h (freeCell (always free E)) adj s t q := by
  refine ⟨hq.head, hq.last, hq.chain, fun c hc => ?_⟩
  obtain ⟨h1, h2, h3⟩ := hq.free c hc
  refine ⟨h1, h2, ?_⟩
  let n : GNode w h := (⟨c.1.toNat, by omega⟩, ⟨c.2.toNat, by omega⟩)
  have hn : n.cell = c := by
    refine Prod.ext ?_ ?_ <;> simp only [n, GNode.cell] <;> omega
  rw [← hn]
  exact freeCell_always n (by rw [hn]; exact h3)

/-- **C116 (grid searches).**  4- or 8-neighbourhood of any step width, one of the listed heuristics, and a map on which the
caller's callback blocks and clears cells at will while the search runs (`free k` is the map at expansion number `k`).  The
search ends normally; a path it returns is a path of cells each of which was free on one of the maps the search looked at, and
it ends at the goal; it is at least as good as every path into the goal that was free all the time; and without a time limit an
empty result means there was no such path. -/
theorem grid_during {res : ℝ} (hr : 0 ≤ res) {dirs : List (Dir ℝ)} {D : Int} (hD : 0 < D) {adj : Int × Int → Int × Int → Prop}
    (hcase : (dirs = dirs4 D ∧ adj = Adj4 D) ∨ (dirs = dirs8 (Real.sqrt 2) D ∧ adj = Adj8 D))
    (kh : GridHeur) {P : OpenList (GNode w h) ℝ} (L : Lawful P) (M : MinFirst P)
    (cfg : SCfg (GNode w h) ℝ) (ht : TopOk cfg.top) (hx : ∀ k n g, cfg.canExpand k n g = none)
    (huse : cfg.useCands = false) {s g : GNode w h} (hs : cfg.start = [s]) (hg : cfg.goal = [g])
    (free0 : GNode w h → Bool) (free : Nat → GNode w h → Bool) :
    let A := gridAlgo free0 res dirs D (kh.fn res) gridHypot
    let maps := fun k => gridSucc (free k) res dirs
    (∃ fuel p st', findPathDuring A maps P cfg (freshLabels A) fuel = some (.ok p, st')) ∧
    ∀ fuel p st', findPathDuring A maps P cfg (freshLabels A) fuel = some (.ok p, st') →
      (p ≠ [] → ∃ t : GNode w h,
        FreePath w h (FreeAtSomeTime st'.expansions fun k => freeCell (free k)) adj s.cell t.cell (p.map GNode.cell) ∧
        NearCell D g.cell t.cell ∧
        ∀ (q : List (Int × Int)) (t' : GNode w h),
          FreePath w h (FreeAllTheTime st'.expansions fun k => freeCell (free k)) adj s.cell t'.cell q → NearCell D g.cell t'.cell →
          gridLen (p.map GNode.cell) * res + kh.fn res t g ≤ gridLen q * res + kh.fn res t' g) ∧
      ((∀ k, cfg.abort k = false) → p = [] → ∀ (q : List (Int × Int)) (t' : GNode w h),
          FreePath w h (FreeAllTheTime st'.expansions fun k => freeCell (free k)) adj s.cell t'.cell q → ¬ NearCell D g.cell t'.cell) := by
  intro A maps
  have he : EuclidDirs dirs := by
    rcases hcase with ⟨rfl, _⟩ | ⟨rfl, _⟩
    · exact euclid4 hD.le
    · exact euclid8 hD.le
  have hde : DirsExact dirs adj := by
    rcases hcase with ⟨rfl, rfl⟩ | ⟨rfl, rfl⟩
    · exact dirs4_exact hD.le
    · exact dirs8_exact hD
  have hxo : ExpansionOk cfg := ⟨fun k s g _ => hx k s g, fun k n g e h => by rw [hx] at h; cases h⟩
  have hE : ∀ k, ExactCosts (A.withSucc (maps k)) := fun k => grid_exact (free := free k) hr he
  have hnc : ∀ t : GNode w h, InGoalRegion A cfg.goal t ↔ NearCell D g.cell t.cell := by
    intro t
    unfold InGoalRegion NearCell GNode.cell
    rw [hg]
    show (∃ g' ∈ [g], gridIsGoal D g' t = true) ↔ _
    simp only [List.mem_singleton, exists_eq_left, gridIsGoal, Bool.and_eq_true, decide_eq_true_eq, Int.natCast_natAbs]
  refine ⟨ends (A := A) (gridSucc (fun _ => true) res dirs) (grid_exact (free := fun _ => true) (D := D) (heur := kh.fn res) (dist := gridHypot) hr he).ok L cfg ht hxo ?_, ?_⟩
  · rintro k u ⟨v, c⟩ hm
    exact mem_gridSucc.2 ⟨rfl, (mem_gridSucc.1 hm).2⟩
  intro fuel p st' hrun
  have key : ∀ (q : List (Int × Int)) (t' : GNode w h),
      FreePath w h (FreeAllTheTime st'.expansions fun k => freeCell (free k)) adj s.cell t'.cell q →
      Reach (A.withSucc (gridSucc (always free st'.expansions) res dirs)) [s] t' (gridLen q * res) := by
    intro q t' hq
    obtain ⟨n, hn, hrch⟩ := freePath_reach (res := res) (D := D) (heur := kh.fn res) (dist := gridHypot) hde q (freePath_always hq)
    have := GNode.cell_inj hn
    subst this
    exact hrch
  constructor
  · intro hp
    have hcon : HCons (gridAlgo (always free st'.expansions) res dirs D (kh.fn res) gridHypot) (kh.fn res) := by
      cases kh with
      | zero => exact hZero_consistent hr he
      | l2 => exact hL2_consistent hr he
      | linf => exact hLInf_consistent hr he
      | maxL2Linf => exact hMax_consistent (hL2_consistent hr he) (hLInf_consistent hr he)
    have hv : ∀ n, hval A cfg.goal n = kh.fn res n g := fun n => by rw [hg]; rfl
    have hadm : Admissible (A.withSucc (gridSucc (always free st'.expansions) res dirs)) cfg.goal (hval A cfg.goal) (hval A cfg.goal) := by
      have h1 := hcon g
      rw [← (funext hv : hval A cfg.goal = fun n => kh.fn res n g)] at h1
      exact h1.admissible (grid_exact (free := always free st'.expansions) hr he) cfg.goal
    obtain ⟨t, d, h1, h2, h3⟩ := cost_le hE L M cfg ht hx huse hrun hp (gridSucc (always free st'.expansions) res dirs)
      (fun k hk => always_map hk) hadm (by
        intro s' hs' _ s'' hs''
        rw [hs] at hs' hs''
        simp only [List.mem_singleton] at hs' hs''
        rw [hs', hs''])
    rw [hs] at h1 h3
    have h1' : WalkTo (gridAlgo (ever free st'.expansions) res dirs D (kh.fn res) gridHypot) [s] t p d := walk_imp seen_ever h1
    obtain ⟨hfp, hd⟩ := walkTo_freePath hde h1'
    refine ⟨t, MapChange.freePath_mono hfp fun c => freeCell_ever, (hnc t).1 h2, fun q t' hq hn => ?_⟩
    have := h3 t' _ (key q t' hq) ((hnc t').2 hn)
    rw [hv, hv, hd] at this
    exact this
  · rintro hab rfl q t' hq hn
    refine complete (fun k => (hE k).ok) L cfg ht hxo hab hrun (gridSucc (always free st'.expansions) res dirs)
      (fun k hk => always_map hk) ⟨t', gridLen q * res, ?_, (hnc t').2 hn⟩
    rw [hs]
    exact key q t' hq

theorem blocking_first {free : Nat → Int × Int → Prop} (hb : OnlyBlocking free) {n : Nat} {c : Int × Int}
    (hc : FreeAtSomeTime n free c) : free 0 c := by
  obtain ⟨k, _, hk⟩ := hc
  induction k with
  | zero => exact hk
  | succ k ih => exact ih (by assumption |> fun h => by omega) (hb k c hk)

theorem clearing_last {free : Nat → Int × Int → Prop} (hb : OnlyClearing free) {n : Nat} {c : Int × Int}
    (hc : FreeAtSomeTime n free c) : free (n - 1) c := by
  obtain ⟨k, hk, hf⟩ := hc
  have : ∀ j, free (k + j) c := by
    intro j
    induction j with
    | zero => exact hf
    | succ j ih => exact hb _ _ ih
  have := this (n - 1 - k)
  rwa [show k + (n - 1 - k) = n - 1 by omega] at this

/-- **C116 (obstacles appear, obstacles disappear).**  If the callback only blocks cells, a path returned is free on the map
the search began with; if it only clears cells, a path returned is free on the last map the search looked at. -/
theorem grid_one_way {res : ℝ} (hr : 0 ≤ res) {dirs : List (Dir ℝ)} {D : Int} (hD : 0 < D) {adj : Int × Int → Int × Int → Prop}
    (hcase : (dirs = dirs4 D ∧ adj = Adj4 D) ∨ (dirs = dirs8 (Real.sqrt 2) D ∧ adj = Adj8 D))
    (kh : GridHeur) {P : OpenList (GNode w h) ℝ} (L : Lawful P) (M : MinFirst P)
    (cfg : SCfg (GNode w h) ℝ) (ht : TopOk cfg.top) (hx : ∀ k n g, cfg.canExpand k n g = none)
    (huse : cfg.useCands = false) {s g : GNode w h} (hs : cfg.start = [s]) (hg : cfg.goal = [g])
    (free0 : GNode w h → Bool) (free : Nat → GNode w h → Bool) {fuel : Nat} {p : List (GNode w h)} {st' : SSt (GNode w h) ℝ P}
    (hrun : findPathDuring (gridAlgo free0 res dirs D (kh.fn res) gridHypot) (fun k => gridSucc (free k) res dirs) P cfg
      (freshLabels (gridAlgo free0 res dirs D (kh.fn res) gridHypot)) fuel = some (.ok p, st')) (hp : p ≠ []) :
    ∃ t : GNode w h, NearCell D g.cell t.cell ∧
      (OnlyBlocking (fun k => freeCell (free k)) → FreePath w h (freeCell (free 0)) adj s.cell t.cell (p.map GNode.cell)) ∧
      (OnlyClearing (fun k => freeCell (free k)) →
        FreePath w h (freeCell (free (st'.expansions - 1))) adj s.cell t.cell (p.map GNode.cell)) := by
  obtain ⟨t, h1, h2, -⟩ := ((grid_during hr hD hcase kh L M cfg ht hx huse hs hg free0 free).2 fuel p st' hrun).1 hp
  exact ⟨t, h2, fun hb => MapChange.freePath_mono h1 fun c hc => blocking_first hb hc,
    fun hb => MapChange.freePath_mono h1 fun c hc => clearing_last hb hc⟩

/-! ### Concrete searches -/

namespace Ex

/-- The callback puts an obstacle into `(1, 0)` after the first expansion. -/
def blocked (k : Nat) (n : GNode 4 1) : Bool := k == 0 || !(n.1.val == 1)

/-- The callback clears `(1, 0)` after the first expansion. -/
def cleared (k : Nat) (n : GNode 4 1) : Bool := !(k == 0) || !(n.1.val == 1)

def A : Algo (GNode 4 1) Int := gridAlgo (fun _ => true) 1 (dirs4 1) 1 (fun _ _ => 0) (fun _ _ => 0)

def cfg : SCfg (GNode 4 1) Int where
  start := [(0, 0)]
  goal := [(3, 0)]
  useCands := false
  oversearch := 0
  accept := none
  abort _ := false
  canExpand _ _ _ := none
  top := KinEx.minTop

/-- **C116, finding.**  The search returns a path through a cell that is occupied when it returns: there is no path on the map
by then. -/
theorem stale : ∃ st', findPathDuring A (fun k => gridSucc (blocked k) 1 (dirs4 1)) (PriorityManager : OpenList (GNode 4 1) Int) cfg
      (freshLabels A) 4 = some (.ok [(0, 0), (1, 0), (2, 0)], st') ∧ ∀ k, 0 < k → blocked k (1, 0) = false := by
  have h : (findPathDuring A (fun k => gridSucc (blocked k) 1 (dirs4 1)) (PriorityManager : OpenList (GNode 4 1) Int) cfg
      (freshLabels A) 4).map (fun x => x.1) = some (.ok [(0, 0), (1, 0), (2, 0)]) := by decide +kernel
  rw [Option.map_eq_some_iff] at h
  obtain ⟨⟨r, st'⟩, h1, h2⟩ := h
  simp only at h2
  subst h2
  refine ⟨st', h1, fun k hk => ?_⟩
  unfold blocked
  have : (k == 0) = false := by simp; omega
  rw [this]; rfl

/-- **C116, finding.**  The search misses a path that exists from the first expansion on: it does not look again at a cell that
was occupied when its neighbour was expanded. -/
theorem missed : ∃ st', findPathDuring A (fun k => gridSucc (cleared k) 1 (dirs4 1)) (PriorityManager : OpenList (GNode 4 1) Int) cfg
      (freshLabels A) 4 = some (.ok [], st') ∧ ∀ k, 0 < k → ∀ n, cleared k n = true := by
  have h : (findPathDuring A (fun k => gridSucc (cleared k) 1 (dirs4 1)) (PriorityManager : OpenList (GNode 4 1) Int) cfg
      (freshLabels A) 4).map (fun x => x.1) = some (.ok []) := by decide +kernel
  rw [Option.map_eq_some_iff] at h
  obtain ⟨⟨r, st'⟩, h1, h2⟩ := h
  simp only at h2
  subst h2
  refine ⟨st', h1, fun k hk n => ?_⟩
  unfold cleared
  have : (k == 0) = false := by simp; omega
  rw [this]; rfl

/-- `grid_during` applies to a search on the map of `SearchEx` in whose course the callback blocks the first column: the way
around the wall stays free, so a path is returned. -/
def some4 (k : Nat) (n : SearchEx.W) : Bool := SearchEx.free n && (k == 0 || !(n == (0, 2)))

example : ∃ fuel p st', findPathDuring SearchEx.A (fun k => gridSucc (some4 k) 1 (dirs8 (Real.sqrt 2) 1)) SearchEx.P SearchEx.cfg
      (freshLabels SearchEx.A) fuel = some (.ok p, st') ∧ p ≠ [] ∧
    gridLen (p.map GNode.cell) ≤ gridLen [(0, 0), (1, 0), (2, 0), (3, 1), (2, 2), (1, 2)] + GridHeur.l2.fn 1 ((1, 2) : SearchEx.W) (0, 2) := by
  have H := grid_during (res := 1) (by norm_num) (D := 1) (by norm_num) (.inr ⟨rfl, rfl⟩) .l2 (P := SearchEx.P) prioLawful prioMin
    SearchEx.cfg SearchEx.topRef_ok (fun _ _ _ => rfl) rfl (s := ((0, 0) : SearchEx.W)) (g := (0, 2)) rfl rfl SearchEx.free some4
  obtain ⟨⟨fuel, p, st', hrun⟩, H⟩ := H
  obtain ⟨h1, h2⟩ := H fuel p st' hrun
  have hq : ∀ E, FreePath 4 3 (FreeAllTheTime E fun k => freeCell (some4 k)) (Adj8 1) (GNode.cell ((0, 0) : SearchEx.W))
      (GNode.cell ((1, 2) : SearchEx.W)) [(0, 0), (1, 0), (2, 0), (3, 1), (2, 2), (1, 2)] := by
    intro E
    have key : ∀ n : SearchEx.W, SearchEx.free n = true → n ≠ (0, 2) → FreeAllTheTime E (fun k => freeCell (some4 k)) n.cell := by
      intro n hn hne k _
      refine ⟨n, rfl, ?_⟩
      unfold some4
      rw [hn]
      simp [hne]
    refine ⟨rfl, rfl, by simp [Adj8], ?_⟩
    intro c hc
    simp only [List.tail_cons, List.mem_cons, List.not_mem_nil, or_false] at hc
    rcases hc with rfl | rfl | rfl | rfl | rfl
    · exact ⟨by simp, by simp, key ((1 : Fin 4), (0 : Fin 3)) (by decide) (by decide)⟩
    · exact ⟨by simp, by simp, key ((2 : Fin 4), (0 : Fin 3)) (by decide) (by decide)⟩
    · exact ⟨by simp, by simp, key ((3 : Fin 4), (1 : Fin 3)) (by decide) (by decide)⟩
    · exact ⟨by simp, by simp, key ((2 : Fin 4), (2 : Fin 3)) (by decide) (by decide)⟩
    · exact ⟨by simp, by simp, key ((1 : Fin 4), (2 : Fin 3)) (by decide) (by decide)⟩
  have hn : NearCell 1 (GNode.cell ((0, 2) : SearchEx.W)) (GNode.cell ((1, 2) : SearchEx.W)) := by
    unfold NearCell GNode.cell; simp
  have hp : p ≠ [] := fun e => h2 (fun _ => rfl) e _ (1, 2) (hq _) hn
  refine ⟨fuel, p, st', hrun, hp, ?_⟩
  obtain ⟨t, _, _, h5⟩ := h1 hp
  have h6 := h5 _ (1, 2) (hq _) hn
  have h7 : 0 ≤ GridHeur.l2.fn 1 t ((0, 2) : SearchEx.W) := mul_nonneg (by norm_num) (Real.sqrt_nonneg _)
  rw [mul_one, mul_one] at h6
  linarith

end Ex

end PathPlanning.During
