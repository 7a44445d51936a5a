import Verif.Lemmas.SearchTest
import Verif.Props.OpenLists
import Mathlib.Algebra.Order.Group.Defs
import Mathlib.Algebra.Order.Monoid.Unbundled.WithTop

/-!
# Properties of the generic search (C25-C34)
-/

namespace PathPlanning
set_option linter.unusedSectionVars false

variable {N C : Type} [DecidableEq N] [LinearOrder C] [Fintype N]
variable {A : Algo N C} {P : OpenList N C}

/-- **C25, C29, C34 (termination, validity, no undefined behaviour).**  On a freshly
initialised map every search ends, whatever the open-list policy (lawful), heuristic, costs
(non-negative), clock (`cfg.abort`), oversearch distance, candidate callback and analytic
expansion (not succeeding at a start node): it returns normally, and the result is empty or a
valid path. -/
theorem search_terminates_valid (ok : CostOk A) (L : Lawful P) (cfg : SCfg N C)
    (ht : TopOk cfg.top) (hx : ExpansionOk cfg) :
    ∃ fuel p st', findPathNodes A P cfg (freshLabels A) fuel = some (.ok p, st') ∧
      (p = [] ∨ ValidPath A cfg p) := by
  obtain ⟨fuel, r, st', h1, h2, _⟩ :=
    searchLoop_spec (L := L) ok ht (poseTest_ok (A := A) (P := P) hx)
      (initSearch A P cfg (freshLabels A)) init_inv (by
        have := (init_facts (A := A) (L := L) (cfg := cfg)).2.2.2.2
        intro x hx; rw [this] at hx; cases hx)
  obtain ⟨p, hp, hcase⟩ := h2.res
  refine ⟨fuel, p, st', by rw [findPathNodes, h1, hp], ?_⟩
  rcases hcase with ⟨h, _⟩ | ⟨_, h⟩ | ⟨x, l, d, hx1, _, hb, rfl⟩
  · exact .inl h
  · exact .inr h
  · right
    obtain ⟨g, hg, hg2, _⟩ := h2.good x hx1
    exact ⟨x.1, p, d, hb.walk, .inl ⟨rfl, g, hg, hg2⟩⟩

/-- Every fuel that gives a result gives this one. -/
theorem search_result_unique {cfg : SCfg N C} {lab : Labels N C} {f g : Nat} {x y}
    (h1 : findPathNodes A P cfg lab f = some x) (h2 : findPathNodes A P cfg lab g = some y) :
    x = y :=
  searchLoop_fuel f g _ x y h1 h2

/-! ### Costs -/

/-- **C26.**  The distance stored at the last node of a returned path is at least the cost of
that path, and every finite stored distance is the cost of an actual walk of free nodes from a
start node. -/
theorem path_cost_le_stored (ok : CostOk A) (L : Lawful P) (cfg : SCfg N C)
    (ht : TopOk cfg.top) (hx : ∀ k n g, cfg.canExpand k n g = none) {fuel : Nat} {p : List N}
    {st' : SSt N C P} (hrun : findPathNodes A P cfg (freshLabels A) fuel = some (.ok p, st'))
    (hp : p ≠ []) :
    ∃ t d, WalkTo A cfg.start t p d ∧ InGoalRegion A cfg.goal t ∧
      (d : WithTop C) ≤ (st'.lab t).dist ∧
      ∀ n (e : C), (st'.lab n).dist = (e : WithTop C) → Reach A cfg.start n e := by
  have hxo : ExpansionOk cfg := ⟨fun k s g _ => hx k s g, fun k n g e h => by rw [hx] at h; cases h⟩
  have hpres : ∀ st st2, (SInv A L cfg.start st ∧ ∀ x ∈ st.cands, GoodCand A cfg x.1 x.2) →
      iterate A cfg (poseTest A cfg) st = .more st2 →
      (SInv A L cfg.start st2 ∧ ∀ x ∈ st2.cands, GoodCand A cfg x.1 x.2) := by
    intro st st2 h hi
    have := iterate_spec ok ht (poseTest_ok (A := A) (P := P) hxo) h.1 h.2
    rw [hi] at this
    exact ⟨this.1, this.2.1⟩
  obtain ⟨st1, hI, hi⟩ := run_last hpres fuel _ st' _ hrun
    ⟨init_inv (L := L), by
      have := (init_facts (A := A) (L := L) (cfg := cfg)).2.2.2.2
      intro x hx; rw [this] at hx; cases hx⟩
  have hfin : ∀ st : SSt N C P, Core A cfg.start st.lab →
      (∀ x ∈ st.cands, (st.lab x.1).closed = true) →
      (∀ x ∈ st.cands, GoodCand A cfg x.1 x.2) → finish cfg st = .ok p →
      ∃ t d, WalkTo A cfg.start t p d ∧ InGoalRegion A cfg.goal t ∧
        (d : WithTop C) ≤ (st.lab t).dist ∧
        ∀ n (e : C), (st.lab n).dist = (e : WithTop C) → Reach A cfg.start n e := by
    intro st hc hcl hg hf
    rcases finish_spec ht hc hcl with ⟨_, h2⟩ | ⟨x, l, d, h1, _, h3, h4⟩
    · rw [h2] at hf; cases hf; exact absurd rfl hp
    · rw [h4] at hf; cases hf
      obtain ⟨g, hg1, hg2, _⟩ := hg x h1
      exact ⟨x.1, d, h3.walk, ⟨g, hg1, hg2⟩, h3.cost_le ok hc.s0, hc.walk⟩
  rcases iterate_done hi with ⟨_, rfl, h⟩ | ⟨_, rfl, h⟩ | ⟨cur, o, hn, h⟩
  · exact hfin _ hI.1.core hI.1.cands hI.2 h.symm
  · exact hfin _ hI.1.core hI.1.cands hI.2 h.symm
  · obtain ⟨hX, _, _, hcs, _⟩ := pop_spec hI.1 hn
    obtain ⟨t, g1, g2, _, _, _, g6, _, _, g9, _⟩ :=
      poseTest_spec (A := A) hxo _ cur hX.core hX.curOk.1
    rw [g1] at h
    have hcore : Core A cfg.start t.st.lab := by rw [g2]; exact hX.core
    have hcl : ∀ x ∈ t.st.cands, (t.st.lab x.1).closed = true := by
      intro x hx1
      rw [g2]
      rcases g6 x hx1 with h1 | h1
      · exact hX.cands x h1
      · rw [h1.1]; exact hX.curOk.1
    have hgood : ∀ x ∈ t.st.cands, GoodCand A cfg x.1 x.2 := by
      intro x hx1
      rcases g6 x hx1 with h1 | h1
      · exact hI.2 x (hcs ▸ h1)
      · rw [h1.1]; exact h1.2
    rcases h with ⟨h, _⟩ | ⟨e, h, _⟩ | ⟨t', h, rfl, h3⟩
    · cases h
    · cases h
    · cases h
      rcases h3 with ⟨h4, h5, h6⟩ | ⟨_, _, h6⟩ | ⟨_, _, _, _, h6⟩
      · cases h6
        obtain ⟨d, hb, hreg⟩ := g9 h4 hx
        refine ⟨cur, d, hb.walk, hreg, ?_, hcore.walk⟩
        rw [g2]
        exact hb.cost_le ok hX.core.s0
      · exact hfin _ hcore hcl hgood h6.symm
      · exact hfin _ hcore hcl hgood h6.symm

/-- **C26, monotonicity.**  Continuing a search never increases a stored distance: between any
two points of the main loop distances are non-increasing. -/
theorem dist_never_increases (ok : CostOk A) (L : Lawful P) (cfg : SCfg N C)
    (ht : TopOk cfg.top) (hx : ExpansionOk cfg) {st st' : SSt N C P}
    (h : SInv A L cfg.start st) (hg : ∀ x ∈ st.cands, GoodCand A cfg x.1 x.2)
    (hi : iterate A cfg (poseTest A cfg) st = .more st') :
    ∀ n, (st'.lab n).dist ≤ (st.lab n).dist := by
  have := iterate_spec ok ht (poseTest_ok (A := A) (P := P) hx) h hg
  rw [hi] at this
  exact this.2.2.1

/-! ### Completeness -/

/-- If the open list is exhausted every reachable node has been closed. -/
theorem all_closed (ok : CostOk A) {L : Lawful P} {start : List N} {st : SSt N C P}
    (h : SInv A L start st) (hn : P.next st.opn = none) {n : N} {d : C}
    (hr : Reach A start n d) : (st.lab n).closed = true ∧ (st.lab n).dist ≤ (d : WithTop C) := by
  have hop : ∀ n, (st.lab n).opn = false := by
    intro n
    by_contra hne
    exact (L.next_none _).1 hn n (h.openMem n (by simpa using hne))
  induction hr with
  | start hs =>
    have hd := h.core.s0 _ hs
    refine ⟨?_, hd.le⟩
    have := (h.core.reach _).1 (by rw [hd]; simp)
    rw [hop] at this; simpa using this
  | @step u v d c _ he ih =>
    have hle := h.relaxed u ih.1 (hop u) v c he
    have hle2 : (st.lab v).dist ≤ ((A.add d c : C) : WithTop C) := by
      refine hle.trans ?_
      rw [← addW_coe]
      exact addW_mono ok ih.2 c
    refine ⟨?_, hle2⟩
    have := (h.core.reach v).1 (ne_top_of_le_ne_top (by simp) hle2)
    rw [hop] at this; simpa using this

/-- Invariant for completeness: closed nodes of the goal region are candidates. -/
def CandInv (A : Algo N C) (L : Lawful P) (cfg : SCfg N C) (st : SSt N C P) : Prop :=
  SInv A L cfg.start st ∧ (∀ x ∈ st.cands, GoodCand A cfg x.1 x.2) ∧
    ∀ n, (st.lab n).closed = true → ∀ g ∈ cfg.goal, A.isGoal g n = true →
      cfg.useCands = true ∧ (n, A.distTo g n) ∈ st.cands

/-- Decomposition of a continuing iteration of the pose search. -/
theorem pose_more {L : Lawful P} {cfg : SCfg N C} (hx : ExpansionOk cfg)
    {st st' : SSt N C P} (h : SInv A L cfg.start st)
    (hi : iterate A cfg (poseTest A cfg) st = .more st') :
    ∃ cur o t, P.next st.opn = some (cur, o) ∧
      XInv A L cfg.start cur [] (popNode A cfg st cur o) ∧
      poseTest A cfg (popNode A cfg st cur o) cur = .ok t ∧
      t.st.lab = (popNode A cfg st cur o).lab ∧ t.st.opn = o ∧
      XInv A L cfg.start cur [] t.st ∧ t.term = false ∧
      (cfg.useCands && !t.st.cands.isEmpty &&
        decide (A.addW t.st.firstW cfg.oversearch < A.total (t.st.lab cur))) = false ∧
      st' = expandNode A cfg.goal t.st cur := by
  obtain ⟨cur, o, t, hn, _, ht1, hterm, hov, rfl⟩ := iterate_more hi
  obtain ⟨hX, _, _, hcs, _⟩ := pop_spec h hn
  obtain ⟨t', g1, g2, g3, _, _, g6, _⟩ := poseTest_spec (A := A) hx _ cur hX.core hX.curOk.1
  rw [ht1] at g1; cases g1
  refine ⟨cur, o, t, hn, hX, ht1, g2, g3, ⟨?_, ?_, ?_, ?_, ?_, ?_, ?_⟩, hterm, hov, rfl⟩
  · rw [g2]; exact hX.core
  · rw [g2, g3]; exact hX.openMem
  · rw [g2, g3]; exact hX.memReach
  · rw [g2]; exact hX.curOk
  · rw [g2]; exact hX.relaxed
  · intro v c hv; cases hv
  · intro x hx1
    rw [g2]
    rcases g6 x hx1 with h1 | h1
    · exact hX.cands x h1
    · rw [h1.1]; exact hX.curOk.1

theorem CandInv.pres (ok : CostOk A) {L : Lawful P} {cfg : SCfg N C} (ht : TopOk cfg.top)
    (hx : ExpansionOk cfg) {st st' : SSt N C P} (h : CandInv A L cfg st)
    (hi : iterate A cfg (poseTest A cfg) st = .more st') : CandInv A L cfg st' := by
  have hs := iterate_spec ok ht (poseTest_ok (A := A) (P := P) hx) h.1 h.2.1
  rw [hi] at hs
  refine ⟨hs.1, hs.2.1, ?_⟩
  obtain ⟨cur, o, t, hn, hX, ht1, hlab, _, hXt, hterm, _, rfl⟩ := pose_more hx h.1 hi
  obtain ⟨_, _, hoth, hcs, _⟩ := pop_spec h.1 hn
  obtain ⟨t', g1, _, _, _, g5, _, _, _, _, g10, _⟩ :=
    poseTest_spec (A := A) hx _ cur hX.core hX.curOk.1
  rw [ht1] at g1; cases g1
  obtain ⟨_, _, e3, e4, _⟩ := expand_spec (goal := cfg.goal) ok hXt
  intro n hcl g hg hgg
  rw [e3 n] at hcl
  rw [e4]
  by_cases e : n = cur
  · subst e; exact g10 hterm g hg hgg
  · rw [hlab, hoth n e] at hcl
    obtain ⟨h1, h2⟩ := h.2.2 n hcl g hg hgg
    exact ⟨h1, g5 _ (by rw [hcs]; exact h2)⟩

theorem CandInv.init {L : Lawful P} {cfg : SCfg N C} :
    CandInv A L cfg (initSearch A P cfg (freshLabels A)) := by
  obtain ⟨k1, k2, _, _, k5⟩ := init_facts (A := A) (L := L) (cfg := cfg)
  refine ⟨init_inv, (by intro x hx; rw [k5] at hx; cases hx), ?_⟩
  intro n hn
  by_cases h : n ∈ cfg.start
  · simp [k1 n h] at hn
  · simp [k2 n h] at hn

theorem finish_ne_nil {cfg : SCfg N C} (ht : TopOk cfg.top) {st : SSt N C P}
    (hc : Core A cfg.start st.lab) (hcl : ∀ x ∈ st.cands, (st.lab x.1).closed = true)
    (h : finish cfg st = .ok []) : st.cands = [] := by
  rcases finish_spec ht hc hcl with ⟨h1, _⟩ | ⟨x, l, d, _, _, h3, h4⟩
  · exact h1
  · rw [h4] at h; cases h; exact absurd rfl h3.ne_nil

/-- **C30 (completeness).**  Without a time limit a search that returns the empty path proves
that no walk of free nodes leads from a start node into the goal region, for every open-list
policy, heuristic, oversearch distance, candidate callback and analytic expansion. -/
theorem search_complete (ok : CostOk A) (L : Lawful P) (cfg : SCfg N C)
    (ht : TopOk cfg.top) (hx : ExpansionOk cfg) (hab : ∀ k, cfg.abort k = false) {fuel : Nat}
    {st' : SSt N C P} (hrun : findPathNodes A P cfg (freshLabels A) fuel = some (.ok [], st')) :
    ¬ ∃ n d, Reach A cfg.start n d ∧ InGoalRegion A cfg.goal n := by
  rintro ⟨n, d, hr, g, hg, hgg⟩
  obtain ⟨st1, hI, hi⟩ := run_last (I := CandInv A L cfg)
    (fun st st2 h hi => CandInv.pres ok ht hx h hi) fuel _ st' _ hrun CandInv.init
  rcases iterate_done hi with ⟨hn, rfl, h⟩ | ⟨h, _⟩ | ⟨cur, o, hn, h⟩
  · have hc := finish_ne_nil ht hI.1.core hI.1.cands h.symm
    have hcl := (all_closed ok hI.1 hn hr).1
    have := (hI.2.2 n hcl g hg hgg).2
    rw [hc] at this; cases this
  · rw [hab] at h; cases h
  · obtain ⟨hX, _, _, hcs, _⟩ := pop_spec hI.1 hn
    obtain ⟨t, g1, g2, _, _, _, g6, _, g8, _⟩ :=
      poseTest_spec (A := A) hx _ cur hX.core hX.curOk.1
    rw [g1] at h
    rcases h with ⟨h, _⟩ | ⟨e, h, _⟩ | ⟨t', h, rfl, h3⟩
    · cases h
    · cases h
    · cases h
      rcases h3 with ⟨_, h5, h6⟩ | ⟨h4, h5, _⟩ | ⟨_, _, h5, _, h6⟩
      · exact h5 (by injection h6 with h6; exact h6.symm)
      · exact (g8 h4).1 h5
      · refine h5 (finish_ne_nil (A := A) ht (by rw [g2]; exact hX.core) ?_ h6.symm)
        intro x hx1
        rw [g2]
        rcases g6 x hx1 with h1 | h1
        · exact hX.cands x h1
        · rw [h1.1]; exact hX.curOk.1

theorem WalkTo.reach {start : List N} {n : N} {l : List N} {d : C}
    (h : WalkTo A start n l d) : Reach A start n d := by
  induction h with
  | start hs => exact .start hs
  | step _ he ih => exact .step ih he

theorem WalkTo.ne_nil {start : List N} {n : N} {l : List N} {d : C}
    (h : WalkTo A start n l d) : l ≠ [] := by
  cases h <;> simp

/-- **C30, exact form.**  Without time limit and analytic expansion: the path is empty exactly
if the goal region is not reachable. -/
theorem search_empty_iff (ok : CostOk A) (L : Lawful P) (cfg : SCfg N C)
    (ht : TopOk cfg.top) (hx : ∀ k n g, cfg.canExpand k n g = none)
    (hab : ∀ k, cfg.abort k = false) :
    ∃ fuel p st', findPathNodes A P cfg (freshLabels A) fuel = some (.ok p, st') ∧
      (p = [] ↔ ¬ ∃ n d, Reach A cfg.start n d ∧ InGoalRegion A cfg.goal n) := by
  have hxo : ExpansionOk cfg := ⟨fun k s g _ => hx k s g, fun k n g e h => by rw [hx] at h; cases h⟩
  obtain ⟨fuel, p, st', h1, h2⟩ := search_terminates_valid ok L cfg ht hxo
  refine ⟨fuel, p, st', h1, fun hp => ?_, fun hno => ?_⟩
  · subst hp; exact search_complete ok L cfg ht hxo hab h1
  · rcases h2 with h2 | ⟨t, l, d, hw, h2⟩
    · exact h2
    · exfalso
      rcases h2 with ⟨_, hreg⟩ | ⟨g, _, k, e, he, _⟩
      · exact hno ⟨t, d, hw.reach, hreg⟩
      · rw [hx] at he; cases he

end PathPlanning
