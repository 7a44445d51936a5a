import Verif.Props.LegacyHistory
import Mathlib.Analysis.Complex.Norm

/-!
# The stand-alone A* planner: how long the returned path can be (C59)

Node values are truncated to integers (Node.cpp:44-49), so the planner is not optimal.  With exact
arithmetic its path is longer than any route by less than one cell per step of that route, hence at
most twice as long as the shortest one.
-/

namespace PathPlanning.Legacy

open Spec

set_option linter.unusedSectionVars false

variable {K : Type} [Field K] [LinearOrder K] [IsStrictOrderedRing K] [FloorRing K]

/-- Exact arithmetic: `sqrt(2)` and 1 per step (AStar.cpp:27-34), Euclidean distance to the start as
prediction (AStar.cpp:137-140), value truncated to `int` (Node.cpp:41-50), comparison of the exact
sum with the truncated value (OpenList.cpp:77). The `float` rounding of stored distances is not
modelled. -/
noncomputable def realArith : Arith ℝ where
  zero := 0
  addStep d diag := d + if diag then Real.sqrt 2 else 1
  pred s p := Real.sqrt (((p.1 : ℝ) - s.1) ^ 2 + ((p.2 : ℝ) - s.2) ^ 2)
  value d p := truncC (d + p)
  worse d p v := decide ((v : ℝ) < d + p)

theorem cellDist_norm (a b : WP) :
    cellDist a b = ‖(⟨(a.1 : ℝ), (a.2 : ℝ)⟩ : ℂ) - ⟨(b.1 : ℝ), (b.2 : ℝ)⟩‖ := by
  rw [Complex.norm_eq_sqrt_sq_add_sq]; rfl

theorem cellDist_nonneg (a b : WP) : 0 ≤ cellDist a b := Real.sqrt_nonneg _

theorem cellDist_comm (a b : WP) : cellDist a b = cellDist b a := by
  rw [cellDist_norm, cellDist_norm, norm_sub_rev]

theorem cellDist_triangle (a b c : WP) : cellDist a c ≤ cellDist a b + cellDist b c := by
  rw [cellDist_norm, cellDist_norm, cellDist_norm]
  exact norm_sub_le_norm_sub_add_norm_sub _ _ _

/-- A step of the planner costs the Euclidean distance of the two cells. -/
theorem step_cost (a : WP) (nb : WP × Bool) (h : nb ∈ neighbors) :
    (if nb.2 then Real.sqrt 2 else 1) = cellDist (a.1 + nb.1.1, a.2 + nb.1.2) a := by
  unfold cellDist
  simp only [neighbors, List.mem_cons, List.not_mem_nil, or_false] at h
  rcases h with rfl | rfl | rfl | rfl | rfl | rfl | rfl | rfl <;> norm_num

theorem cellDist_one_le {a b : WP} (h : EightAdjacent a b) : 1 ≤ cellDist a b := by
  obtain ⟨nb, hnb, rfl⟩ := (mem_neighbors_iff a b).1 h
  rw [cellDist_comm, ← step_cost a nb hnb]
  split
  · exact Real.one_le_sqrt.2 (by norm_num)
  · exact le_refl _

/-- The three possible effects of `addNode` on the node array. -/
theorem addNode_cases {F : Type} {A : Arith F} {m : GridMap K} {goal : WP} {o : OL F}
    {cl : List Nat} (hI : Inv A m goal o cl) (p : WP) (d pr : F) (par : Option Nat)
    (hp : Cell m p) (o' : OL F) (h : o.addNode A p d pr par = .ok o') :
    (∀ j, j ≠ idx m p → o'.arr j = o.arr j) ∧
    (((o.arr (idx m p)).init = false ∧ o'.arr (idx m p) = ⟨p, d, pr, par, false, true⟩) ∨
     ((o.arr (idx m p)).init = true ∧ o'.arr (idx m p) = o.arr (idx m p) ∧
       ((o.arr (idx m p)).visited = true ∨
        A.worse d pr (A.value (o.arr (idx m p)).dist (o.arr (idx m p)).pred) = true)) ∨
     ((o.arr (idx m p)).init = true ∧ (o.arr (idx m p)).visited = false ∧
       A.worse d pr (A.value (o.arr (idx m p)).dist (o.arr (idx m p)).pred) = false ∧
       o'.arr (idx m p) = { o.arr (idx m p) with dist := d, parent := par })) := by
  obtain ⟨hlt, hidx⟩ := idx_spec hp
  have hidx' : p.1 + p.2 * o.width = (idx m p : Int) := by rw [hI.w]; exact hidx
  have hrange : ¬ (o.count ≤ p.1 + p.2 * o.width ∨ p.1 + p.2 * o.width < 0) := by
    rw [hidx', hI.c]
    have : ((m.width * m.height : Nat) : Int) = (m.width : Int) * m.height := by push_cast; rfl
    omega
  unfold OL.addNode at h
  simp only [if_neg hrange] at h
  rw [hidx', Int.toNat_natCast] at h
  generalize idx m p = i at *
  by_cases hinit : (o.arr i).init = false
  · rw [if_pos hinit] at h
    simp only [CRes.ok.injEq] at h
    subst h
    refine ⟨fun j hj => by simp [OL.insertNode, OL.setNode, hj], Or.inl ⟨hinit, ?_⟩⟩
    simp [OL.insertNode, OL.setNode]
  · rw [if_neg hinit] at h
    simp only [Bool.not_eq_false] at hinit
    by_cases hskip : ((o.arr i).visited || A.worse d pr (o.key A i)) = true
    · rw [if_pos hskip] at h
      simp only [CRes.ok.injEq] at h
      subst h
      exact ⟨fun _ _ => rfl, Or.inr (Or.inl ⟨hinit, rfl, Bool.or_eq_true _ _ ▸ hskip⟩)⟩
    · rw [if_neg hskip] at h
      simp only [Bool.or_eq_true, not_or, Bool.not_eq_true] at hskip
      unfold OL.eraseNode at h
      simp only at h
      split at h
      · simp only [CRes.ok_bind, CRes.ok.injEq] at h
        subst h
        refine ⟨fun j hj => by simp [OL.insertNode, OL.setNode, hj], Or.inr (Or.inr
          ⟨hinit, hskip.1, hskip.2, ?_⟩)⟩
        simp [OL.insertNode, OL.setNode]
      · simp at h

/-- The numbers stored in the nodes. -/
structure Num (m : GridMap K) (start : WP) (o : OL ℝ) : Prop where
  pred : ∀ i, (o.arr i).init = true → (o.arr i).pred = cellDist (o.arr i).pos start
  nonneg : ∀ i, (o.arr i).init = true → 0 ≤ (o.arr i).dist
  root : ∀ i, (o.arr i).init = true → (o.arr i).parent = none → (o.arr i).dist = 0
  step : ∀ i q, (o.arr i).init = true → (o.arr i).parent = some q →
    (o.arr i).dist = cellDist (o.arr i).pos (o.arr q).pos + (o.arr q).dist

/-- Parents are visited nodes. -/
theorem parent_mem {F : Type} {A : Arith F} {m : GridMap K} {goal : WP} {o : OL F} {cl : List Nat}
    (hI : Inv A m goal o cl) {i q : Nat} (hi : (o.arr i).init = true)
    (h : (o.arr i).parent = some q) : q ∈ cl := by
  cases hv : (o.arr i).visited with
  | false =>
    rcases hI.parO i ((hI.opn_iff i).2 ⟨hi, hv⟩) with ⟨-, e⟩ | ⟨q', hq, e, -⟩
    · rw [e] at h; simp at h
    · rw [e] at h; simp only [Option.some.injEq] at h; exact h ▸ hq
  | true =>
    have hc : i ∈ cl := (hI.cl_iff i).2 ⟨hi, hv⟩
    have := hI.parC
    clear hI hi hv
    induction cl with
    | nil => simp at hc
    | cons a rest ih =>
      rcases List.mem_cons.1 hc with rfl | hc
      · rcases this.1 with ⟨-, e⟩ | ⟨q', hq, e, -⟩
        · rw [e] at h; simp at h
        · rw [e] at h; simp only [Option.some.injEq] at h; exact List.mem_cons_of_mem _ (h ▸ hq)
      · exact List.mem_cons_of_mem _ (ih hc this.2)

theorem truncC_bounds {x : ℝ} (h : 0 ≤ x) : ((truncC x : Int) : ℝ) ≤ x ∧ x < (truncC x : Int) + 1 := by
  rw [truncC_nonneg h]; exact ⟨Int.floor_le x, Int.lt_floor_add_one x⟩

/-- `addNode` with consistent numbers: numbers stay consistent, stored distances only decrease, and
the added cell, if it is still open, is stored with at most one more than the offered distance. -/
theorem addNode_num {m : GridMap K} {goal start : WP} {o : OL ℝ}
    {cl : List Nat} (hI : Inv realArith m goal o cl) (hN : Num m start o) (p : WP) (d : ℝ)
    (hd : 0 ≤ d) (par : Option Nat) (hp : Cell m p)
    (hpar : match par with
      | none => d = 0
      | some q => q ∈ cl ∧ d = cellDist p (o.arr q).pos + (o.arr q).dist)
    (o' : OL ℝ) (h : o.addNode realArith p d (realArith.pred start p) par = .ok o')
    (hg : Grown o o') :
    Num m start o' ∧ (∀ j, (o.arr j).init = true → (o'.arr j).dist ≤ (o.arr j).dist) ∧
    ((o'.arr (idx m p)).visited = false → (o'.arr (idx m p)).dist < d + 1) := by
  obtain ⟨h1, h2⟩ := addNode_cases hI p d _ par hp o' h
  have hpr : realArith.pred start p = cellDist p start := rfl
  -- the parent of any initialised old node keeps its data
  have hkeep : ∀ q ∈ cl, o'.arr q = o.arr q := fun q hq =>
    hg.visited q ((hI.cl_iff q).1 hq).1 ((hI.cl_iff q).1 hq).2
  have hold : ∀ j, (o.arr j).init = true → o'.arr j = o.arr j →
      (o'.arr j).pred = cellDist (o'.arr j).pos start ∧ 0 ≤ (o'.arr j).dist ∧
      ((o'.arr j).parent = none → (o'.arr j).dist = 0) ∧
      (∀ q, (o'.arr j).parent = some q →
        (o'.arr j).dist = cellDist (o'.arr j).pos (o'.arr q).pos + (o'.arr q).dist) := by
    intro j hj e
    rw [e]
    refine ⟨hN.pred j hj, hN.nonneg j hj, hN.root j hj, fun q hq => ?_⟩
    rw [hkeep q (parent_mem hI hj hq)]
    exact hN.step j q hj hq
  have hnew : ∀ v, o'.arr (idx m p) = ⟨p, d, cellDist p start, par, v, true⟩ →
      (o'.arr (idx m p)).pred = cellDist (o'.arr (idx m p)).pos start ∧
      0 ≤ (o'.arr (idx m p)).dist ∧
      ((o'.arr (idx m p)).parent = none → (o'.arr (idx m p)).dist = 0) ∧
      (∀ q, (o'.arr (idx m p)).parent = some q → (o'.arr (idx m p)).dist =
        cellDist (o'.arr (idx m p)).pos (o'.arr q).pos + (o'.arr q).dist) := by
    intro v e
    rw [e]
    refine ⟨rfl, hd, ?_, ?_⟩
    · intro hn
      simp only at hn
      subst hn
      exact hpar
    · intro q hq
      simp only at hq
      subst hq
      simp only at hpar ⊢
      rw [hkeep q hpar.1]; exact hpar.2
  have hall : ∀ j, (o'.arr j).init = true →
      (o'.arr j).pred = cellDist (o'.arr j).pos start ∧ 0 ≤ (o'.arr j).dist ∧
      ((o'.arr j).parent = none → (o'.arr j).dist = 0) ∧
      (∀ q, (o'.arr j).parent = some q →
        (o'.arr j).dist = cellDist (o'.arr j).pos (o'.arr q).pos + (o'.arr q).dist) := by
    intro j hj
    by_cases hji : j = idx m p
    · subst hji
      rcases h2 with ⟨-, e⟩ | ⟨a, e, -⟩ | ⟨a, b, -, e⟩
      · exact hnew false e
      · exact hold _ a e
      · refine hnew (o.arr (idx m p)).visited ?_
        rw [e]
        have hpos := hI.pos _ a
        have e1 : (o.arr (idx m p)).pos = p := idx_inj hpos.1 hp hpos.2
        have e2 := hN.pred _ a
        rw [e1] at e2
        simp only [e1, e2, a]
    · have e := h1 j hji
      rw [e] at hj
      exact hold j hj e
  refine ⟨⟨fun j hj => (hall j hj).1, fun j hj => (hall j hj).2.1, fun j hj => (hall j hj).2.2.1,
    fun j q hj hq => (hall j hj).2.2.2 q hq⟩, ?_, ?_⟩
  · intro j hj
    by_cases hji : j = idx m p
    · subst hji
      rcases h2 with ⟨a, -⟩ | ⟨a, e, -⟩ | ⟨a, b, c, e⟩
      · rw [a] at hj; simp at hj
      · rw [e]
      · rw [e]
        simp only [realArith, decide_eq_false_iff_not, not_lt] at c
        have hpos := hI.pos _ a
        have e1 : (o.arr (idx m p)).pos = p := idx_inj hpos.1 hp hpos.2
        have e2 := hN.pred _ a
        rw [e1] at e2
        have hb := (truncC_bounds (x := (o.arr (idx m p)).dist + (o.arr (idx m p)).pred)
          (by have := hN.nonneg _ a; have := cellDist_nonneg p start; linarith)).1
        have : d + cellDist p start ≤ (o.arr (idx m p)).dist + cellDist p start := by
          rw [e2] at hb c
          calc d + cellDist p start ≤ _ := c
            _ ≤ _ := hb
        simp only
        linarith
    · rw [h1 j hji]
  · intro hv
    rcases h2 with ⟨a, e⟩ | ⟨a, e, b⟩ | ⟨a, b, c, e⟩
    · rw [e]; simp
    · rw [e] at hv ⊢
      rcases b with b | b
      · rw [b] at hv; simp at hv
      · simp only [realArith, decide_eq_true_eq] at b
        have hpos := hI.pos _ a
        have e1 : (o.arr (idx m p)).pos = p := idx_inj hpos.1 hp hpos.2
        have e2 := hN.pred _ a
        rw [e1] at e2
        have hb := (truncC_bounds (x := (o.arr (idx m p)).dist + (o.arr (idx m p)).pred)
          (by have := hN.nonneg _ a; have := cellDist_nonneg p start; linarith)).2
        rw [e2] at hb b
        have b' : ((truncC ((o.arr (idx m p)).dist + cellDist p start) : Int) : ℝ) <
          d + cellDist p start := b
        linarith
    · rw [e]; simp

theorem expand_num {m : GridMap K} (ok : MapOk m) {goal start : WP} (p : Nat)
    (nbs : List (WP × Bool)) (hn : ∀ nb ∈ nbs, nb ∈ neighbors) :
    ∀ (o : OL ℝ) (cl : List Nat), Inv realArith m goal o cl → Num m start o → p ∈ cl →
    ∀ o', expand realArith m start p nbs o = .ok o' →
      Inv realArith m goal o' cl ∧ Grown o o' ∧
      Num m start o' ∧ (∀ j, (o.arr j).init = true → (o'.arr j).dist ≤ (o.arr j).dist) ∧
      ∀ nb ∈ nbs, FreeCell m ((o.arr p).pos.1 + nb.1.1, (o.arr p).pos.2 + nb.1.2) →
        (o'.arr (idx m ((o.arr p).pos.1 + nb.1.1, (o.arr p).pos.2 + nb.1.2))).visited = false →
        (o'.arr (idx m ((o.arr p).pos.1 + nb.1.1, (o.arr p).pos.2 + nb.1.2))).dist <
          (o.arr p).dist +
            cellDist ((o.arr p).pos.1 + nb.1.1, (o.arr p).pos.2 + nb.1.2) (o.arr p).pos + 1 := by
  induction nbs with
  | nil =>
    intro o cl hI hN hp o' h
    simp only [expand, CRes.ok.injEq] at h
    subst h
    exact ⟨hI, Grown.refl o, hN, fun _ _ => le_refl _, by simp⟩
  | cons nb nbs ih =>
    intro o cl hI hN hp o' h
    have ih := ih (fun x hx => hn x (by simp [hx]))
    obtain ⟨b, hb, hbf⟩ := isFreeWay_iff ok ((o.arr p).pos.1 + nb.1.1, (o.arr p).pos.2 + nb.1.2)
    have hpc := (hI.cl_iff p).1 hp
    unfold expand at h
    simp only [hb, CRes.ok_bind] at h
    cases b with
    | false =>
      simp only [Bool.false_eq_true, if_false] at h
      obtain ⟨i1, i2, i3, i4, i5⟩ := ih o cl hI hN hp o' h
      refine ⟨i1, i2, i3, i4, ?_⟩
      intro x hx hf
      rcases List.mem_cons.1 hx with rfl | hx
      · simp only [Bool.false_eq_true, false_iff] at hbf; exact absurd hf hbf
      · exact i5 x hx hf
    | true =>
      simp only [if_true] at h
      have hfree := hbf.1 rfl
      obtain ⟨o1, a1, a2, a3, a4⟩ := addNode_inv hI
        ((o.arr p).pos.1 + nb.1.1, (o.arr p).pos.2 + nb.1.2)
        (realArith.addStep (o.arr p).dist nb.2)
        (realArith.pred start ((o.arr p).pos.1 + nb.1.1, (o.arr p).pos.2 + nb.1.2)) (some p)
        hfree.1
        (Or.inr ⟨p, hp, rfl, EightAdjacent.symm'
          ((mem_neighbors_iff _ _).2 ⟨nb, hn nb (by simp), rfl⟩), hfree⟩)
      rw [a1] at h
      simp only [CRes.ok_bind] at h
      have hstep : realArith.addStep (o.arr p).dist nb.2 =
          cellDist ((o.arr p).pos.1 + nb.1.1, (o.arr p).pos.2 + nb.1.2) (o.arr p).pos +
            (o.arr p).dist := by
        rw [← step_cost _ nb (hn nb (by simp))]
        simp only [realArith]; ring
      obtain ⟨n1, n2, n3⟩ := addNode_num hI hN _ _ (by
          rw [hstep]; have := hN.nonneg p hpc.1
          have := cellDist_nonneg ((o.arr p).pos.1 + nb.1.1, (o.arr p).pos.2 + nb.1.2) (o.arr p).pos
          linarith) (some p) hfree.1 ⟨hp, hstep⟩ o1 a1 a3
      obtain ⟨i1, i2, i3, i4, i5⟩ := ih o1 cl a2 n1 hp o' h
      have e : o1.arr p = o.arr p := a3.visited p hpc.1 hpc.2
      refine ⟨i1, a3.trans i2, i3, fun j hj => (i4 j (a3.init j hj)).trans (n2 j hj), ?_⟩
      intro x hx hf hv
      rcases List.mem_cons.1 hx with rfl | hx
      · have hv1 : (o1.arr (idx m ((o.arr p).pos.1 + x.1.1, (o.arr p).pos.2 + x.1.2))).visited = false := by
          by_contra hc
          have := i2.visited _ a4 (by simpa using hc)
          rw [this] at hv; exact hc hv
        have := n3 hv1
        rw [hstep] at this
        have := i4 _ a4
        linarith
      · rw [e] at i5; exact i5 x hx hf hv

/-- Quality invariant of the search: an open free neighbour of an expanded node is stored with less
than one more than the distance through it, and every visited node's distance exceeds the length of
any route by at most one per step. -/
structure Qual (m : GridMap K) (goal : WP) (o : OL ℝ) (ex cl : List Nat) : Prop where
  rel : ∀ c ∈ ex, ∀ q, EightAdjacent (o.arr c).pos q → FreeCell m q →
    (o.arr (idx m q)).visited = false →
    (o.arr (idx m q)).dist < (o.arr c).dist + cellDist q (o.arr c).pos + 1
  bnd : ∀ c ∈ cl, ∀ path, IsRoute (FreeCell m) (o.arr c).pos goal path →
    (o.arr c).dist ≤ routeLength path + (path.length - 1 : Nat)

/-- Along any route from an open node, an open node is found whose value is small. -/
theorem route_open {m : GridMap K} {goal start : WP} {o : OL ℝ} {cl : List Nat}
    (hI : Inv realArith m goal o cl) (hQ : Qual m goal o cl cl)
    (hE : ∀ c ∈ cl, Expanded m o c) (hg : idx m goal ∈ cl) (hgc : Cell m goal)
    (path : List WP) : ∀ a, Cell m a → IsRoute (FreeCell m) a goal path → 
      (idx m a ∈ cl ∧ (o.arr (idx m a)).dist ≤ routeLength path + (path.length - 1 : Nat)) ∨
      ∃ x ∈ o.opn, (x = idx m a ∧ (o.arr x).dist ≤ routeLength path + (path.length - 1 : Nat)) ∨
        (o.arr x).dist + cellDist (o.arr x).pos start + 1 ≤
          routeLength path + (path.length - 1 : Nat) + cellDist a start := by
  have hpos : ∀ i, (o.arr i).init = true → ∀ q, Cell m q → idx m q = i → (o.arr i).pos = q := by
    intro i hi q hq e
    have := hI.pos i hi
    exact idx_inj this.1 hq (by rw [this.2, e])
  induction path with
  | nil => intro a _ h; have := h.first; simp at this
  | cons a' path ih =>
    intro a ha h
    have e : a' = a := by have := h.first; simpa using this
    subst e
    by_cases hac : idx m a' ∈ cl
    · left
      refine ⟨hac, ?_⟩
      have := hpos _ ((hI.cl_iff _).1 hac).1 a' ha rfl
      exact hQ.bnd _ hac _ (by rw [this]; exact h)
    · right
      cases path with
      | nil =>
        have e : a' = goal := by have := h.last; simpa using this
        subst e
        exact absurd hg hac
      | cons b path =>
        have hab : EightAdjacent a' b := (List.isChain_cons_cons.1 h.steps).1
        have hfa : FreeCell m a' := h.free a' (by rw [List.dropLast_cons_cons]; simp)
        have hroute : IsRoute (FreeCell m) b goal (b :: path) :=
          ⟨rfl, by simpa using h.last, h.steps.tail, fun c hc =>
            h.free c (by rw [List.dropLast_cons_cons]; exact List.mem_cons_of_mem _ hc)⟩
        have hb : Cell m b := by
          cases path with
          | nil =>
            have e : b = goal := by have := h.last; simpa using this
            rw [e]; exact hgc
          | cons b2 path => exact (hroute.free b (by rw [List.dropLast_cons_cons]; simp)).1
        have hlen : routeLength (a' :: b :: path) = cellDist a' b + routeLength (b :: path) := rfl
        have hl2 : ((a' :: b :: path).length - 1 : Nat) = ((b :: path).length - 1 : Nat) + 1 := by
          simp
        have hl2' : (((a' :: b :: path).length - 1 : Nat) : ℝ) =
            ((b :: path).length - 1 : Nat) + 1 := by rw [hl2]; push_cast; ring
        rcases ih b hb hroute with ⟨hbc, hbd⟩ | ⟨x, hx, hx'⟩
        · have hbi := (hI.cl_iff _).1 hbc
          have hbp := hpos _ hbi.1 b hb rfl
          have hain := hE _ hbc a' (by rw [hbp]; exact EightAdjacent.symm' hab) hfa
          have hav : (o.arr (idx m a')).visited = false := by
            by_contra hv
            exact hac ((hI.cl_iff _).2 ⟨hain, by simpa using hv⟩)
          refine ⟨idx m a', (hI.opn_iff _).2 ⟨hain, hav⟩, Or.inl ⟨rfl, ?_⟩⟩
          have := hQ.rel _ hbc a' (by rw [hbp]; exact EightAdjacent.symm' hab) hfa hav
          rw [hbp] at this
          rw [hlen, hl2']
          linarith
        · refine ⟨x, hx, Or.inr ?_⟩
          have tri := cellDist_triangle b a' start
          rw [cellDist_comm b a'] at tri
          rw [hlen, hl2']
          rcases hx' with ⟨rfl, hx'⟩ | hx'
          · have hxi := (hI.opn_iff _).1 hx
            rw [hpos _ hxi.1 b hb rfl]
            linarith
          · linarith

/-- The main loop keeps the quality invariant; the distance of the start node when it is reached. -/
theorem searchLoop_num {m : GridMap K} (ok : MapOk m) {goal start : WP} (hgc : Cell m goal) :
    ∀ (fuel : Nat) (o : OL ℝ) (p : Nat) (cl : List Nat), Inv realArith m goal o (p :: cl) →
      Num m start o → Qual m goal o cl (p :: cl) → (∀ c ∈ cl, Expanded m o c) →
      idx m goal ∈ p :: cl →
    ∀ o' s, searchLoop realArith m start fuel o p = .ok (some (o', some s)) →
      ∃ cl', Inv realArith m goal o' cl' ∧ Num m start o' ∧ s ∈ cl' ∧ (o'.arr s).pos = start ∧
        ∀ path, IsRoute (FreeCell m) start goal path →
          (o'.arr s).dist ≤ routeLength path + (path.length - 1 : Nat) := by
  intro fuel
  induction fuel with
  | zero => intro o p cl _ _ _ _ _ o' s h; simp [searchLoop] at h
  | succ fuel ih =>
    intro o p cl hI hN hQ hE hg o' s h
    unfold searchLoop at h
    by_cases hs : (o.arr p).pos.1 ≠ start.1 ∨ (o.arr p).pos.2 ≠ start.2
    · rw [if_pos hs] at h
      obtain ⟨o1, a1, -, -, a4⟩ := expand_inv (A := realArith) (start := start) ok p neighbors
        (fun _ h => h) o (p :: cl) hI (by simp)
      obtain ⟨i1, i2, i3, i4, i5⟩ := expand_num ok p neighbors (fun _ h => h) o (p :: cl) hI hN
        (by simp) o1 a1
      rw [a1] at h
      simp only [CRes.ok_bind] at h
      have hE1 : ∀ c ∈ p :: cl, Expanded m o1 c := by
        intro c hc
        have hcv := (hI.cl_iff c).1 hc
        rcases List.mem_cons.1 hc with rfl | hc'
        · intro q hq hfq
          rw [i2.visited c hcv.1 hcv.2] at hq
          obtain ⟨nb, hnb, rfl⟩ := (mem_neighbors_iff _ _).1 hq
          exact a4 nb hnb hfq
        · exact (hE c hc').grown hI i2 hc
      have hQ1 : Qual m goal o1 (p :: cl) (p :: cl) := by
        constructor
        · intro c hc q hq hfq hv
          have hcv := (hI.cl_iff c).1 hc
          rw [i2.visited c hcv.1 hcv.2] at hq ⊢
          rcases List.mem_cons.1 hc with rfl | hc'
          · obtain ⟨nb, hnb, rfl⟩ := (mem_neighbors_iff _ _).1 hq
            exact i5 nb hnb hfq hv
          · have hin := hE c hc' q hq hfq
            have hv0 : (o.arr (idx m q)).visited = false := by
              by_contra hvv
              rw [i2.visited _ hin (by simpa using hvv)] at hv
              exact hvv hv
            have h1 := hQ.rel c hc' q hq hfq hv0
            have h2 := i4 _ hin
            linarith
        · intro c hc path hp
          have hcv := (hI.cl_iff c).1 hc
          rw [i2.visited c hcv.1 hcv.2] at hp ⊢
          exact hQ.bnd c hc path hp
      rcases getFirst_inv i1 with ⟨e1, e2⟩ | ⟨i, o2, b1, b2, b3, b4, b5⟩
      · rw [e2] at h; simp at h
      · rw [b1] at h
        have hii := (i1.opn_iff i).1 b2
        have hsame : ∀ j, (o2.arr j).dist = (o1.arr j).dist ∧ (o2.arr j).pred = (o1.arr j).pred ∧
            (o2.arr j).parent = (o1.arr j).parent ∧
            (j ≠ i → (o2.arr j).visited = (o1.arr j).visited) := by
          intro j
          unfold OL.getFirst at b1
          cases hop : o1.opn with
          | nil => rw [hop] at b2; simp at b2
          | cons i' rest =>
            rw [hop] at b1
            simp only [Prod.mk.injEq, Option.some.injEq] at b1
            obtain ⟨rfl, rfl⟩ := b1
            by_cases hj : j = i'
            · subst hj; simp [OL.setNode]
            · simp [OL.setNode, hj]
        refine ih o2 i (p :: cl) b3 ?_ ?_ ?_ (List.mem_cons_of_mem _ hg) o' s h
        · constructor
          · intro j hj; rw [(b4 j).2] at hj; rw [(hsame j).2.1, (b4 j).1]; exact i3.pred j hj
          · intro j hj; rw [(b4 j).2] at hj; rw [(hsame j).1]; exact i3.nonneg j hj
          · intro j hj hn; rw [(b4 j).2] at hj; rw [(hsame j).2.2.1] at hn
            rw [(hsame j).1]; exact i3.root j hj hn
          · intro j q hj hn; rw [(b4 j).2] at hj; rw [(hsame j).2.2.1] at hn
            rw [(hsame j).1, (hsame q).1, (b4 j).1, (b4 q).1]; exact i3.step j q hj hn
        · constructor
          · intro c hc q hq hfq hv
            rw [(b4 c).1] at hq ⊢
            rw [(hsame c).1, (hsame _).1]
            have hqi : idx m q ≠ i := by
              rintro rfl
              have := (b3.cl_iff (idx m q)).1 (by simp)
              rw [this.2] at hv; simp at hv
            rw [(hsame _).2.2.2 hqi] at hv
            exact hQ1.rel c hc q hq hfq hv
          · intro c hc path hp
            rw [(b4 c).1] at hp
            rw [(hsame c).1]
            rcases List.mem_cons.1 hc with rfl | hc'
            · -- the node just popped
              have hcp := i1.pos c hii.1
              have hnc : c ∉ p :: cl := fun hcc => by
                have := ((i1.cl_iff c).1 hcc).2; simp [hii.2] at this
              rcases route_open (start := start) i1 hQ1 hE1 hg hgc path _ hcp.1 hp with
                ⟨hcc, -⟩ | ⟨x, hx, hx'⟩
              · rw [hcp.2] at hcc; exact absurd hcc hnc
              · rcases hx' with ⟨rfl, hx'⟩ | hx'
                · rw [hcp.2] at hx'; exact hx'
                · have hxi := (i1.opn_iff x).1 hx
                  have hk := b5 x hx
                  have hk' : truncC ((o1.arr c).dist + (o1.arr c).pred) ≤
                    truncC ((o1.arr x).dist + (o1.arr x).pred) := hk
                  rw [i3.pred c hii.1, i3.pred x hxi.1] at hk'
                  have t1 := (truncC_bounds (x := (o1.arr c).dist + cellDist (o1.arr c).pos start)
                    (by have := i3.nonneg c hii.1; have := cellDist_nonneg (o1.arr c).pos start; linarith)).2
                  have t2 := (truncC_bounds (x := (o1.arr x).dist + cellDist (o1.arr x).pos start)
                    (by have := i3.nonneg x hxi.1; have := cellDist_nonneg (o1.arr x).pos start; linarith)).1
                  have hk2 : ((truncC ((o1.arr c).dist + cellDist (o1.arr c).pos start) : Int) : ℝ) ≤
                    (truncC ((o1.arr x).dist + cellDist (o1.arr x).pos start) : Int) := by
                    exact_mod_cast hk'
                  linarith
            · exact hQ1.bnd c hc' path hp
        · intro c hc q hq hfq
          rw [(b4 c).1] at hq
          rw [(b4 _).2]; exact hE1 c hc q hq hfq
    · rw [if_neg hs] at h
      simp only [CRes.ok.injEq, Option.some.injEq, Prod.mk.injEq] at h
      obtain ⟨rfl, rfl⟩ := h
      push Not at hs
      have hps : (o.arr p).pos = start := Prod.ext hs.1 hs.2
      refine ⟨p :: cl, hI, hN, by simp, hps, ?_⟩
      intro path hp
      exact hQ.bnd p (by simp) path (by rw [hps]; exact hp)

/-- The stored path is as long as the distance stored for its first node. -/
theorem follow_length {m : GridMap K} {start goal : WP} {o : OL ℝ} (cl : List Nat)
    (hin : ∀ i ∈ cl, (o.arr i).init = true)
    (h : ClOk m o goal cl) (hN : Num m start o) : ∀ (fuel : Nat) (s : Nat), s ∈ cl →
      ∀ path, follow o fuel (some s) = some path →
        routeLength path = (o.arr s).dist ∧ path.head? = some (o.arr s).pos := by
  induction cl with
  | nil => intro _ s hs; simp at hs
  | cons a rest ih =>
    have ih := ih (fun i hi => hin i (by simp [hi])) h.2
    intro fuel s hs path hp
    rcases List.mem_cons.1 hs with rfl | hs
    · cases fuel with
      | zero => simp [follow] at hp
      | succ n =>
        unfold follow at hp
        have hi := hin s (by simp)
        rcases h.1 with ⟨-, h2⟩ | ⟨q, hq, h1, -⟩
        · rw [h2] at hp
          simp only [follow, Option.map_some, Option.some.injEq] at hp
          subst hp
          exact ⟨by rw [hN.root s hi h2]; rfl, rfl⟩
        · rw [h1] at hp
          cases e : follow o n (some q) with
          | none => rw [e] at hp; simp at hp
          | some path' =>
            rw [e] at hp
            simp only [Option.map_some, Option.some.injEq] at hp
            obtain ⟨f1, f2⟩ := ih n q hq path' e
            subst hp
            refine ⟨?_, rfl⟩
            cases path' with
            | nil => simp at f2
            | cons b path' =>
              simp only [List.head?_cons, Option.some.injEq] at f2
              show cellDist (o.arr s).pos b + routeLength (b :: path') = _
              rw [f1, f2, hN.step s q hi h1]
    · exact ih fuel s hs path hp

theorem routeLength_ge {p : List WP} (h : p.IsChain EightAdjacent) :
    ((p.length - 1 : Nat) : ℝ) ≤ routeLength p := by
  induction p with
  | nil => simp [routeLength]
  | cons a p ih =>
    cases p with
    | nil => simp [routeLength]
    | cons b p =>
      have h1 := cellDist_one_le (List.isChain_cons_cons.1 h).1
      have h2 := ih h.tail
      show _ ≤ cellDist a b + routeLength (b :: p)
      have : (((a :: b :: p).length - 1 : Nat) : ℝ) = ((b :: p).length - 1 : Nat) + 1 := by
        simp
      linarith

/-- **C59.** With exact arithmetic, the path found by `planPath` is at most one cell per step longer
than any route of free cells from start to goal — hence at most twice as long as the shortest. -/
theorem planPath_length {m : GridMap K} {o : OL ℝ} (h : AStarObj realArith m o)
    (start goal : WP) {fuel : Nat} (r : Plan ℝ)
    (hr : planPath realArith m fuel o start goal = .ok (some r)) (hfound : r.found = true)
    (p : List WP) (hp : IsRoute (FreeCell m) start goal p) :
    routeLength r.path ≤ routeLength p + (p.length - 1 : Nat) ∧
    routeLength r.path ≤ 2 * routeLength p := by
  have hge := routeLength_ge hp.steps
  suffices hmain : routeLength r.path ≤ routeLength p + (p.length - 1 : Nat) by
    exact ⟨hmain, by linarith⟩
  obtain ⟨ok, hid⟩ := h.idle
  unfold planPath at hr
  split at hr
  · simp only [CRes.ok.injEq, Option.some.injEq] at hr; subst hr; simp at hfound
  split at hr
  · simp only [CRes.ok.injEq, Option.some.injEq] at hr; subst hr; simp at hfound
  rename_i hg
  simp only [Bool.not_eq_true, Bool.not_eq_false'] at hg
  have hgc := (isInMap_iff ok goal).1 hg
  have hI := prepare_inv (A := realArith) goal hid
  have hno : ∀ i, (o.prepare.arr i).init = false := by
    intro i
    cases e : (o.prepare.arr i).init with
    | false => rfl
    | true =>
      have hu := hI.used i e
      simp [OL.prepare] at hu
  have hN0 : Num m start o.prepare := by
    constructor
    · intro i hi; simp [hno i] at hi
    · intro i hi; simp [hno i] at hi
    · intro i hi; simp [hno i] at hi
    · intro i q hi; simp [hno i] at hi
  obtain ⟨o1, a1, a2, a3, a4⟩ := addNode_inv hI goal realArith.zero (realArith.pred start goal) none
    hgc (Or.inl ⟨rfl, rfl⟩)
  obtain ⟨n1, -, -⟩ := addNode_num hI hN0 goal realArith.zero (le_refl (0 : ℝ)) none hgc rfl o1 a1 a3
  unfold search at hr
  rw [a1] at hr
  simp only [CRes.ok_bind] at hr
  rcases getFirst_inv a2 with ⟨e1, e2⟩ | ⟨i, o2, b1, b2, b3, b4, -⟩
  · rw [e2] at hr; simp at hr
  · have hii := (a2.opn_iff i).1 b2
    have hpi := a2.pos i hii.1
    have hposi : (o1.arr i).pos = goal ∧ (o1.arr i).parent = none := by
      rcases a2.parO i b2 with hh | ⟨q, hq, -⟩
      · exact hh
      · simp at hq
    have hi : idx m goal = i := by rw [← hposi.1]; exact hpi.2
    have hsame : ∀ j, (o2.arr j).dist = (o1.arr j).dist ∧ (o2.arr j).pred = (o1.arr j).pred ∧
        (o2.arr j).parent = (o1.arr j).parent := by
      intro j
      have b1' := b1
      unfold OL.getFirst at b1'
      cases hop : o1.opn with
      | nil => rw [hop] at b2; simp at b2
      | cons i' rest =>
        rw [hop] at b1'
        simp only [Prod.mk.injEq, Option.some.injEq] at b1'
        obtain ⟨rfl, rfl⟩ := b1'
        by_cases hj : j = i'
        · subst hj; simp [OL.setNode]
        · simp [OL.setNode, hj]
    have hN2 : Num m start o2 := by
      constructor
      · intro j hj; rw [(b4 j).2] at hj; rw [(hsame j).2.1, (b4 j).1]; exact n1.pred j hj
      · intro j hj; rw [(b4 j).2] at hj; rw [(hsame j).1]; exact n1.nonneg j hj
      · intro j hj hn; rw [(b4 j).2] at hj; rw [(hsame j).2.2] at hn
        rw [(hsame j).1]; exact n1.root j hj hn
      · intro j q hj hn; rw [(b4 j).2] at hj; rw [(hsame j).2.2] at hn
        rw [(hsame j).1, (hsame q).1, (b4 j).1, (b4 q).1]; exact n1.step j q hj hn
    rw [b1] at hr
    simp only at hr
    have hQ : Qual m goal o2 [] [i] := by
      refine ⟨by simp, ?_⟩
      intro c hc path hpath
      simp only [List.mem_singleton] at hc
      subst hc
      rw [(hsame c).1, n1.root c hii.1 hposi.2]
      have := routeLength_ge hpath.steps
      have h0 : (0 : ℝ) ≤ ((path.length - 1 : Nat) : ℝ) := Nat.cast_nonneg _
      linarith
    cases hloop : searchLoop realArith m start fuel o2 i with
    | ub => rw [hloop] at hr; simp at hr
    | throw e => rw [hloop] at hr; simp at hr
    | ok res =>
      rw [hloop] at hr
      simp only [CRes.ok_bind] at hr
      cases res with
      | none => simp at hr
      | some x =>
        obtain ⟨o3, s⟩ := x
        cases s with
        | none => simp only [CRes.ok.injEq, Option.some.injEq] at hr; subst hr; simp at hfound
        | some s =>
          simp only [CRes.ok.injEq] at hr
          obtain ⟨cl', c1, c2, c3, c4, c5⟩ := searchLoop_num ok hgc fuel o2 i [] b3 hN2 hQ (by simp)
            (by simp [hi]) o3 s hloop
          cases hfo : follow o3 fuel (some s) with
          | none => rw [hfo] at hr; simp at hr
          | some path =>
            rw [hfo] at hr
            simp only [Option.map_some, Option.some.injEq] at hr
            subst hr
            have := (follow_length cl' (fun j hj => ((c1.cl_iff j).1 hj).1) c1.parC c2 fuel s c3
              path hfo).1
            show routeLength path ≤ _
            rw [this]
            exact c5 p hp

/-- Non-vacuity of C59: on an open 3×2 map a search from (0,0) to (2,1) succeeds. -/
example : ∃ r, planPath realArith (GridMap.mk' 3 2 (1 : ℚ)) 7
    (OL.create 3 2 fun _ => ⟨(0, 0), 0, 0, none, true, true⟩) (0, 0) (2, 1) = .ok (some r) ∧
    r.found = true := by
  have ok : MapOk (GridMap.mk' 3 2 (1 : ℚ)) :=
    ⟨⟨by decide, by decide, by decide, by decide⟩, by decide⟩
  obtain ⟨r, h1, h2⟩ := planPath_complete (A := realArith)
    (AStarObj.create (GridMap.mk' 3 2 (1 : ℚ)) (fun _ => ⟨(0, 0), 0, 0, none, true, true⟩) ok)
    (0, 0) (2, 1) (fuel := 7) (by decide)
  refine ⟨r, h1, h2.2 ⟨by unfold Cell; decide, by unfold Cell; decide, [(0, 0), (1, 0), (2, 1)], ?_⟩⟩
  refine ⟨rfl, rfl, ?_, ?_⟩
  · simp [EightAdjacent]
  · intro c hc
    simp only [List.dropLast_cons_cons, List.dropLast_singleton, List.mem_cons, List.not_mem_nil,
      or_false] at hc
    rcases hc with rfl | rfl <;> exact ⟨by unfold Cell; decide, by decide⟩

end PathPlanning.Legacy
