import Verif.Props.DStar
import Verif.Props.GridPath

/-! # The incremental search on grid maps (property C96) -/

namespace PathPlanning.DStar
open Spec

section second
variable {N K : Type} [DecidableEq N] [AddCommGroup K] [LinearOrder K] [IsOrderedAddMonoid K]

omit [IsOrderedAddMonoid K] in
/-- C96: a search on an object whose earlier search has closed all neighbours of the goal takes an element from the empty open
list: `init` resets the start and the goal only, and closed neighbours that are no farther than their step to the goal are
skipped. -/
theorem dstar_second_search_ub {A : DAlgo N K} (ht : DTopOk A) (hsg : A.start ≠ A.goal) {lab0 : N → DLab N K}
    (hcl : ∀ m ∈ A.succ A.goal, m.1 ≠ A.start ∧ m.1 ≠ A.goal ∧ (lab0 m.1).closed = true ∧ (lab0 m.1).dist ≤ (m.2 : K))
    (fuel : Nat) : dFind A (fuel + 2) lab0 = some .ub := by
  have htop : ∀ lab, A.top lab [A.goal] = some A.goal := by
    intro lab
    cases h : A.top lab [A.goal] with
    | none => rw [ht.none_iff] at h; simp at h
    | some t => have := ht.mem _ _ _ h; simp at this; rw [this]
  have htop0 : ∀ lab, A.top lab [] = none := fun lab => (ht.none_iff lab []).2 rfl
  have ho : (dInit A lab0).opn = [A.goal] := rfl
  have hg : ((dInit A lab0).lab A.goal).rhs = 0 ∧ ((dInit A lab0).lab A.goal).dist = ⊤ := by
    constructor <;> simp [dInit, setD, hsg.symm, DLab.calcKey, DLab.fresh]
  have hs : ((dInit A lab0).lab A.start).rhs = ⊤ ∧ ((dInit A lab0).lab A.start).dist = ⊤ := by
    constructor <;> simp [dInit, setD, hsg, DLab.fresh]
  have hn : ∀ n, n ≠ A.start → n ≠ A.goal → (dInit A lab0).lab n = lab0 n := by
    intro n h1 h2; simp [dInit, setD, h1, h2]
  generalize hS : dInit A lab0 = s at *
  have hw : continueWhile A s = true := by simp [continueWhile, hs.1, hs.2]
  have hfold : ∀ l : List (N × K), (∀ m ∈ l, m ∈ A.succ A.goal) →
      l.foldl (dProcess A A.goal) (popSt s A.goal) = popSt s A.goal := by
    intro l
    induction l with
    | nil => intro _; rfl
    | cons m l ih =>
      intro hl
      rw [List.foldl_cons]
      have : dProcess A A.goal (popSt s A.goal) m = popSt s A.goal := by
        obtain ⟨h1, h2, h3, h4⟩ := hcl m (hl m (by simp))
        have e : (popSt s A.goal).lab m.1 = lab0 m.1 := by
          simp only [popSt, setD_ne _ _ h2, hn _ h1 h2]
        have ed : ((popSt s A.goal).lab A.goal).dist = 0 := by simp [popSt, hg.1]
        unfold dProcess
        simp only [e, ed, h3, zero_add]
        rw [if_pos]
        simpa using h4
      rw [this]
      exact ih fun x hx => hl x (by simp [hx])
  have hstep : dStep A s = .ok (popSt s A.goal) := by
    simp only [dStep, ho, htop, hg.1, hg.2, setD_self, setD_setD]
    rw [if_pos (by simp)]
    simp only [dIterate]
    have := hfold (A.succ A.goal) (fun m hm => hm)
    simp only [popSt, ho, hg.1] at this
    simp only [this, popSt, ho, hg.1]
  have hpo : (popSt s A.goal).opn = [] := by simp [popSt, ho]
  have hps : (popSt s A.goal).lab A.start = s.lab A.start := by simp [popSt, setD_ne _ _ hsg]
  have hw2 : continueWhile A (popSt s A.goal) = true := by simp [continueWhile, hps, hs.1, hs.2]
  have : dLoop A (fuel + 2) s = some .ub := by
    simp only [dLoop, hw, hstep, if_true, hw2]
    simp [dStep, hpo, htop0]
  simp [dFind, hS, this]

end second

section grid
variable {w h : Nat}

/-- The incremental search with `DirectNeighborhood<4, D>` or `DirectNeighborhood<8, D>` on a `w × h` map. -/
structure OnGrid (free : GNode w h → Bool) (res : ℝ) (D : Int) (adj : Int × Int → Int × Int → Prop)
    (A : DAlgo (GNode w h) ℝ) : Prop where
  hD : 0 < D
  hres : 0 < res
  nbh : (A.succ = gridSucc free res (dirs4 D) ∧ adj = Adj4 D) ∨
    (A.succ = gridSucc free res (dirs8 (Real.sqrt 2) D) ∧ adj = Adj8 D)
  top : DTopOk A

variable {free : GNode w h → Bool} {res : ℝ} {D : Int} {adj : Int × Int → Int × Int → Prop} {A : DAlgo (GNode w h) ℝ}

theorem OnGrid.dirs (hA : OnGrid free res D adj A) : ∃ dirs : List (Dir ℝ), A.succ = gridSucc free res dirs ∧
    DirsExact dirs adj ∧ ∀ d ∈ dirs, 0 < d.delta := by
  have h0 : (0 : ℝ) < D := by exact_mod_cast hA.hD
  rcases hA.nbh with ⟨h1, rfl⟩ | ⟨h1, rfl⟩
  · refine ⟨_, h1, dirs4_exact hA.hD.le, ?_⟩
    simp only [dirs4, List.forall_mem_cons]
    simp [h0]
  · refine ⟨_, h1, dirs8_exact hA.hD, ?_⟩
    simp only [dirs8, List.forall_mem_cons]
    simp [h0]

theorem OnGrid.pos (hA : OnGrid free res D adj A) : ∀ n, ∀ m ∈ A.succ n, 0 < m.2 := by
  obtain ⟨dirs, h1, _, h3⟩ := hA.dirs
  rintro n ⟨m, c⟩ hm
  rw [h1, mem_gridSucc] at hm
  obtain ⟨_, d, hd, _, _, rfl⟩ := hm
  exact mul_pos (h3 d hd) hA.hres

theorem trail_walk (hA : OnGrid free res D adj A) {dirs : List (Dir ℝ)} (h1 : A.succ = gridSucc free res dirs)
    {n : GNode w h} {d : ℝ} {l : List (GNode w h)} (ht : TrailTo (dstep A) A.goal n d l) :
    WalkTo (gridAlgo free res dirs D (fun _ _ => 0) (fun _ _ => 0)) [A.goal] n l.reverse d := by
  induction ht with
  | here => exact WalkTo.start (by simp)
  | @next p n d c l _ hs ih =>
    rw [List.reverse_cons]
    refine WalkTo.step ih ?_
    show (n, c) ∈ gridSucc free res dirs p
    rw [← h1]; exact hs

theorem reach_trail (hA : OnGrid free res D adj A) {dirs : List (Dir ℝ)} (h1 : A.succ = gridSucc free res dirs)
    {n : GNode w h} {d : ℝ}
    (ht : Reach (gridAlgo free res dirs D (fun _ _ => 0) (fun _ _ => 0)) [A.goal] n d) :
    CanReach (dstep A) A.goal n := by
  induction ht with
  | @start s hs =>
    rw [List.mem_singleton] at hs
    rw [hs]; exact ⟨_, _, TrailTo.here⟩
  | @step u v d c _ hs ih =>
    obtain ⟨d', l, hl⟩ := ih
    refine ⟨_, _, hl.next (c := c) ?_⟩
    show (v, c) ∈ A.succ u
    rw [h1]; exact hs

theorem canReach_iff_freePath (hA : OnGrid free res D adj A) :
    CanReach (dstep A) A.goal A.start ↔ ∃ p, FreePath w h (freeCell free) adj A.goal.cell A.start.cell p := by
  obtain ⟨dirs, h1, h2, h3⟩ := hA.dirs
  constructor
  · rintro ⟨d, l, ht⟩
    exact ⟨_, (walkTo_freePath h2 (trail_walk hA h1 ht)).1⟩
  · rintro ⟨p, hp⟩
    obtain ⟨n, e, hr⟩ := freePath_reach (res := res) (D := D) (heur := fun _ _ => 0) (dist := fun _ _ => 0) h2 p hp
    rw [GNode.cell_inj e] at hr
    exact reach_trail hA h1 hr

/-- C96 on a grid: if a path of free cells leads from the goal to the start, the returned cells, in reverse order, are such a
path, without repetitions.  Missing for the full property: it need not be a shortest one. -/
theorem dstar_grid_path_partial (hA : OnGrid free res D adj A) (hsg : A.start ≠ A.goal)
    (hp : ∃ p, FreePath w h (freeCell free) adj A.goal.cell A.start.cell p) :
    ∃ fuel l, (∀ k, dFind A (fuel + k) allFresh = some (.ok l)) ∧ l.Nodup ∧
      FreePath w h (freeCell free) adj A.goal.cell A.start.cell (l.reverse.map GNode.cell) := by
  obtain ⟨dirs, h1, h2, h3⟩ := hA.dirs
  obtain ⟨f, r, hf⟩ := dstar_ends hA.top hA.pos hsg
  obtain ⟨l, d, e, ht, hnd⟩ := dstar_path_partial hA.top hA.pos hsg ((canReach_iff_freePath hA).2 hp) hf
  refine ⟨f, l, ?_, hnd, (walkTo_freePath h2 (trail_walk hA h1 ht)).1⟩
  intro k
  rw [dFind_mono hf k, e]

/-- C96 on a grid: without such a path the search always reads from an empty open list. -/
theorem dstar_grid_no_path_ub (hA : OnGrid free res D adj A) (hsg : A.start ≠ A.goal)
    (hp : ¬ ∃ p, FreePath w h (freeCell free) adj A.goal.cell A.start.cell p) :
    ∃ fuel, ∀ k, dFind A (fuel + k) allFresh = some .ub := by
  obtain ⟨f, r, hf⟩ := dstar_ends hA.top hA.pos hsg
  refine ⟨f, fun k => ?_⟩
  have := dstar_unreachable_ub hA.top hA.pos hsg (fun hr => hp ((canReach_iff_freePath hA).1 hr)) hf
  rw [dFind_mono hf k, this]

/-- C96 on a grid: from an occupied start cell the search always reads from an empty open list (the goal cell may be occupied). -/
theorem dstar_grid_occupied_start_ub (hA : OnGrid free res D adj A) (hsg : A.start ≠ A.goal) (ho : free A.start = false) :
    ∃ fuel, ∀ k, dFind A (fuel + k) allFresh = some .ub := by
  apply dstar_grid_no_path_ub hA hsg
  rintro ⟨p, hp⟩
  have hne : p ≠ [] := by rintro rfl; exact absurd hp.head (by simp)
  have hl := hp.last
  rw [List.getLast?_eq_some_getLast hne] at hl
  have hmem : A.start.cell ∈ p.tail := by
    have hm : A.start.cell ∈ p := by rw [← Option.some.inj hl]; exact List.getLast_mem hne
    cases p with
    | nil => exact absurd rfl hne
    | cons a l =>
      rcases List.mem_cons.1 hm with e | e
      · have := hp.head
        simp only [List.head?_cons, Option.some.injEq] at this
        rw [this] at e
        exact absurd (GNode.cell_inj e) hsg
      · exact e
  obtain ⟨_, _, n, hn, hf⟩ := hp.free _ hmem
  rw [GNode.cell_inj hn] at hf
  rw [hf] at ho
  exact absurd ho (by simp)

end grid

/-! ### Concrete searches -/

/-- The value by which the open list is ordered, for the stored keys. -/
def labTotal {N : Type} (l : DLab N ℚ) : WithTop ℚ :=
  match l.key1, l.key2 with
  | some a, some b => some (dTotal a b)
  | _, _ => ⊤

/-- `top()` of a set ordered by `getTotalCost` (Heuristics.hpp:80-82, NodeManager.hpp:120-128). -/
def minTop {N : Type} (lab : N → DLab N ℚ) : List N → Option N
  | [] => none
  | n :: l =>
    match minTop lab l with
    | none => some n
    | some m => if labTotal (lab m) < labTotal (lab n) then some m else some n

theorem minTop_none {N : Type} (lab : N → DLab N ℚ) (l : List N) : minTop lab l = none ↔ l = [] := by
  cases l with
  | nil => simp [minTop]
  | cons n l =>
    simp only [minTop, reduceCtorEq, iff_false]
    split
    · simp
    · split_ifs <;> simp

theorem minTop_mem {N : Type} (lab : N → DLab N ℚ) (l : List N) (t : N) (h : minTop lab l = some t) : t ∈ l := by
  induction l generalizing t with
  | nil => simp [minTop] at h
  | cons n l ih =>
    simp only [minTop] at h
    cases hm : minTop lab l with
    | none => rw [hm] at h; simp at h; simp [h]
    | some m =>
      rw [hm] at h
      simp only at h
      split_ifs at h
      · simp only [Option.some.injEq] at h; subst h; exact List.mem_cons_of_mem _ (ih _ hm)
      · simp only [Option.some.injEq] at h; simp [h]

/-- The eight steps of width 1, with 7/5 in place of `M_SQRT2`. -/
def exDirs : List (Dir ℚ) := dirs8 (7 / 5) 1

/-- A map of 4 × 3 cells:
```
g q # s
# v # c
# # b #
```
-/
def exFree (n : GNode 4 3) : Bool :=
  n ∈ [((0, 0) : GNode 4 3), (1, 0), (1, 1), (2, 2), (3, 1), (3, 0)]

/-- The larger of the two coordinate differences: never more than the cost of a path. -/
def exHeur (a b : GNode 4 3) : ℚ :=
  ((max (((a.1 : Nat) : Int) - (b.1 : Nat)).natAbs (((a.2 : Nat) : Int) - (b.2 : Nat)).natAbs : Nat) : ℚ)

/-- Search from `s` to `g`. -/
def exA : DAlgo (GNode 4 3) ℚ where
  succ := gridSucc exFree 1 exDirs
  delta := fun _ _ => 0
  heur := exHeur
  start := (3, 0)
  goal := (0, 0)
  top := minTop

theorem exA_top : DTopOk exA := ⟨minTop_none, minTop_mem⟩

theorem exA_pos : ∀ n, ∀ m ∈ exA.succ n, 0 < m.2 := by
  rintro n ⟨m, c⟩ hm
  rw [show exA.succ n = gridSucc exFree 1 exDirs n from rfl, mem_gridSucc] at hm
  obtain ⟨_, d, hd, _, _, rfl⟩ := hm
  simp only [exDirs, dirs8, List.mem_cons, List.not_mem_nil, or_false] at hd
  rcases hd with rfl | rfl | rfl | rfl | rfl | rfl | rfl | rfl <;> norm_num

theorem exA_run : dFind exA 12 allFresh = some (.ok [(3, 0), (3, 1), (2, 2), (1, 1), (1, 0), (0, 0)]) := by decide +kernel

theorem exA_trail : TrailTo (dstep exA) (0, 0) (3, 0) (26 / 5) [(3, 0), (3, 1), (2, 2), (1, 1), (0, 0)] := by
  have h0 : TrailTo (dstep exA) (0, 0) (0, 0) 0 [(0, 0)] := TrailTo.here
  have h1 := h0.next (n := (1, 1)) (c := 7 / 5) (by unfold dstep; decide +kernel)
  have h2 := h1.next (n := (2, 2)) (c := 7 / 5) (by unfold dstep; decide +kernel)
  have h3 := h2.next (n := (3, 1)) (c := 7 / 5) (by unfold dstep; decide +kernel)
  have h4 := h3.next (n := (3, 0)) (c := 1) (by unfold dstep; decide +kernel)
  have e : (0 + 7 / 5 + 7 / 5 + 7 / 5 + 1 : ℚ) = 26 / 5 := by norm_num
  rw [e] at h4
  exact h4

theorem exA_cost {d : ℚ}
    (h : TrailTo (dstep exA) (0, 0) (3, 0) d [(3, 0), (3, 1), (2, 2), (1, 1), (1, 0), (0, 0)]) : d = 29 / 5 := by
  have inv : ∀ {n m : GNode 4 3} {d : ℚ} {l : List (GNode 4 3)}, TrailTo (dstep exA) (0, 0) n d (n :: m :: l) →
      ∃ d' c, d = d' + c ∧ (n, c) ∈ exA.succ m ∧ TrailTo (dstep exA) (0, 0) m d' (m :: l) := by
    intro n m d l h
    cases h with
    | @next p _ d' c _ hw hs =>
      cases hw with
      | here => exact ⟨_, _, rfl, hs, TrailTo.here⟩
      | next hw' hs' => exact ⟨_, _, rfl, hs, hw'.next hs'⟩
  have last : ∀ {d : ℚ}, TrailTo (dstep exA) (0, 0) (0, 0) d [(0, 0)] → d = 0 := by
    intro d h
    cases h with
    | here => rfl
    | next hw hs => cases hw
  obtain ⟨d1, c1, e1, s1, h1⟩ := inv h
  obtain ⟨d2, c2, e2, s2, h2⟩ := inv h1
  obtain ⟨d3, c3, e3, s3, h3⟩ := inv h2
  obtain ⟨d4, c4, e4, s4, h4⟩ := inv h3
  obtain ⟨d5, c5, e5, s5, h5⟩ := inv h4
  have e6 := last h5
  rw [show exA.succ (3, 1) = [((3, 0), 1), ((2, 2), 7 / 5)] by decide +kernel] at s1
  rw [show exA.succ (2, 2) = [((1, 1), 7 / 5), ((3, 1), 7 / 5)] by decide +kernel] at s2
  rw [show exA.succ (1, 1) = [((0, 0), 7 / 5), ((1, 0), 1), ((2, 2), 7 / 5)] by decide +kernel] at s3
  rw [show exA.succ (1, 0) = [((0, 0), 1), ((1, 1), 1)] by decide +kernel] at s4
  rw [show exA.succ (0, 0) = [((1, 0), 1), ((1, 1), 7 / 5)] by decide +kernel] at s5
  simp at s1 s2 s3 s4 s5
  subst e1 e2 e3 e4 e5 e6 s1 s2 s3 s4 s5
  norm_num

/-- C96 is false of the code: on this map, with a heuristic that never exceeds the cost of a path and an open list ordered as in
the code, the search returns a path of cost 29/5 although one of cost 26/5 exists.  (The value of an open node is overwritten
by every neighbour expanded later, also if that makes it larger.) -/
theorem dstar_not_shortest :
    ∃ l l', dFind exA 12 allFresh = some (.ok l) ∧ TrailTo (dstep exA) exA.goal exA.start (26 / 5) l' ∧
      ∀ d, TrailTo (dstep exA) exA.goal exA.start d l → 26 / 5 < d := by
  refine ⟨_, _, exA_run, exA_trail, ?_⟩
  intro d h
  rw [exA_cost h]
  norm_num

/-- The hypotheses of the general theorems hold for this search. -/
example : ∃ l d, dFind exA 12 allFresh = some (.ok l) ∧ TrailTo (dstep exA) (0, 0) (3, 0) d l ∧ l.Nodup := by
  obtain ⟨l, d, h1, h2, h3⟩ := dstar_path_partial exA_top exA_pos (by decide) ⟨_, _, exA_trail⟩ exA_run
  exact ⟨l, d, by rw [exA_run, h1], h2, h3⟩

/-- A corridor of four cells. -/
def exB : DAlgo (GNode 4 1) ℚ where
  succ := gridSucc (fun _ => true) 1 exDirs
  delta := fun _ _ => 0
  heur := fun a b => ((((a.1 : Nat) : Int) - (b.1 : Nat)).natAbs : ℚ)
  start := (3, 0)
  goal := (0, 0)
  top := minTop

/-- The labels the first search leaves behind. -/
def exBLab : GNode 4 1 → DLab (GNode 4 1) ℚ :=
  match dLoop exB 10 (dInit exB allFresh) with
  | some (.ok s) => s.lab
  | _ => allFresh

/-- C96 is false of the code: the same search twice on the same object.  The first call finds the corridor, the second one takes
an element from an empty open list. -/
theorem dstar_twice_ub (fuel : Nat) : dFind exB 10 allFresh = some (.ok [(3, 0), (2, 0), (1, 0), (0, 0)]) ∧
    dFind exB (fuel + 2) exBLab = some .ub := by
  refine ⟨by decide +kernel, ?_⟩
  apply dstar_second_search_ub ⟨minTop_none, minTop_mem⟩ (by decide)
  intro m hm
  rw [show exB.succ exB.goal = [((1, 0), 1)] by decide +kernel] at hm
  simp only [List.mem_singleton] at hm
  subst hm
  refine ⟨by decide, by decide, ?_, ?_⟩ <;> decide +kernel

/-- A blocked corridor: the hypotheses of the theorem about missing paths hold. -/
example : ∃ A : DAlgo (GNode 3 1) ℝ, OnGrid (fun n => decide (n ≠ (1, 0))) 1 1 (Adj8 1) A ∧ A.start ≠ A.goal ∧
    ¬ ∃ p, FreePath 3 1 (freeCell fun n : GNode 3 1 => decide (n ≠ (1, 0))) (Adj8 1) A.goal.cell A.start.cell p := by
  refine ⟨⟨gridSucc (fun n => decide (n ≠ (1, 0))) 1 (dirs8 (Real.sqrt 2) 1), fun _ _ => 0, fun _ _ => 0, (0, 0), (2, 0),
    fun _ l => l.head?⟩, ⟨by norm_num, by norm_num, Or.inr ⟨rfl, rfl⟩, ⟨by simp, ?_⟩⟩, by decide, ?_⟩
  · intro lab l t h
    exact List.mem_of_mem_head? h
  · rintro ⟨p, hp⟩
    have key : ∀ q : List (Int × Int), q.head? = some (2, 0) → q.IsChain (Adj8 1) →
        (∀ c ∈ q.tail, (0 ≤ c.1 ∧ c.1 < (3 : Nat)) ∧ (0 ≤ c.2 ∧ c.2 < (1 : Nat)) ∧
          freeCell (fun n : GNode 3 1 => decide (n ≠ (1, 0))) c) → q = [(2, 0)] := by
      intro q h1 h2 h3
      match q, h1, h2, h3 with
      | [a], h1, _, _ => simp at h1; rw [h1]
      | a :: b :: q, h1, h2, h3 =>
        simp at h1
        subst h1
        obtain ⟨⟨b1, b2⟩, ⟨b3, b4⟩, n, hn, hf⟩ := h3 b (by simp)
        have hadj : Adj8 1 (2, 0) b := by
          rw [List.isChain_cons_cons] at h2; exact h2.1
        obtain ⟨c1, c2, c3⟩ := hadj
        have hb2 : b.2 = 0 := by push_cast at b4; omega
        have hb1 : b.1 ≠ 2 := by
          intro e; apply c1; exact Prod.ext e.symm hb2.symm
        have : b.1 = 1 := by
          rcases c2 with c2 | c2
          · exact absurd c2 hb1
          · push_cast at b2
            rcases abs_eq (by norm_num : (0 : Int) ≤ 1) |>.1 c2 with e | e <;> simp at e <;> omega
        exfalso
        have hn' : n = (1, 0) := by
          apply GNode.cell_inj
          rw [hn]
          exact Prod.ext this hb2
        rw [hn'] at hf
        simp at hf
    have e := key p hp.head hp.chain hp.free
    have := hp.last
    rw [e] at this
    simp [GNode.cell] at this

/-- C96: the key pairs of the loop condition are compared lexicographically. -/
theorem lessKeys_lex {K : Type} [LinearOrder K] [Add K] (l r : WithTop K × WithTop K) :
    lessKeys l r = true ↔ toLex l < toLex r := by
  rw [Prod.Lex.toLex_lt_toLex]
  unfold lessKeys
  by_cases h1 : l.1 < r.1
  · simp [h1]
  · by_cases h2 : l.1 = r.1
    · by_cases h3 : l.2 < r.2 <;> simp [h1, h2, h3]
    · simp [h1, h2]

/-- C96: `getTotalCost`, by which the open list is ordered, does not respect the order of the key pairs that the loop condition
uses: a smaller pair may have the larger total. -/
theorem dTotal_not_key_order : ∃ a b : ℚ × ℚ, 0 < a.2 ∧ 0 < b.2 ∧ a.2 ≤ a.1 ∧ b.2 ≤ b.1 ∧
    lessKeys ((a.1 : WithTop ℚ), (a.2 : WithTop ℚ)) ((b.1 : WithTop ℚ), (b.2 : WithTop ℚ)) = true ∧ dTotal b.1 b.2 < dTotal a.1 a.2 := by
  refine ⟨(2, 1), (11 / 5, 1 / 10), by norm_num, by norm_num, by norm_num, by norm_num, by decide +kernel, ?_⟩
  norm_num [dTotal]

/-- The total respects the order of the pairs as long as the second key does not decrease and is at most the square of the
first. -/
theorem dTotal_mono {a b : ℚ × ℚ} (h0 : 0 < a.1) (h1 : a.1 ≤ b.1) (h2 : a.2 ≤ b.2) (h3 : a.2 ≤ a.1 ^ 2) :
    dTotal a.1 a.2 ≤ dTotal b.1 b.2 := by
  have hb : 0 < b.1 := h0.trans_le h1
  have e1 : dTotal b.1 b.2 - dTotal a.1 a.2 = ((b.1 - a.1) * (a.1 * b.1 - a.2) + a.1 * (b.2 - a.2)) / (a.1 * b.1) := by
    unfold dTotal; field_simp; ring
  have e2 : 0 ≤ dTotal b.1 b.2 - dTotal a.1 a.2 := by
    rw [e1]
    apply div_nonneg
    · apply add_nonneg
      · apply mul_nonneg (by linarith)
        nlinarith
      · exact mul_nonneg h0.le (by linarith)
    · positivity
  linarith

end PathPlanning.DStar
