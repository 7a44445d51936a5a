import Verif.Lemmas.SearchTest
import Verif.Props.Search
import Verif.Spec.SearchCustom

/-!
# Searches with a user supplied goal test (C75-C77)
-/

namespace PathPlanning
set_option linter.unusedSectionVars false

variable {N C : Type} [DecidableEq N] [LinearOrder C] [Fintype N]
variable {A : Algo N C} {P : OpenList N C}

/-- The settings under which a search with a goal test runs: no goal nodes, the test's own heuristic goal. -/
def customCfg (cfg : SCfg N C) (T : GoalTest N C P) : SCfg N C := { cfg with goal := [], heurGoal := T.heurGoal }

theorem customTest_spec (T : GoalTest N C P) (st : SSt N C P) (cur : N) :
    ∃ t, customTest A T st cur = .ok t ∧ t.st.lab = st.lab ∧ t.st.opn = st.opn ∧ t.st.expansions = st.expansions ∧
      t.result = [] ∧ t.term = (T.terminate st cur).2 ∧
      (∀ x ∈ st.cands, x ∈ t.st.cands) ∧
      (∀ x ∈ t.st.cands, x ∈ st.cands ∨ (x.1 = cur ∧ (T.terminate st cur).1 = some x.2)) ∧
      (∀ w, (T.terminate st cur).1 = some w → (cur, w) ∈ t.st.cands) := by
  refine ⟨_, rfl, ?_⟩
  cases h : (T.terminate st cur).1 with
  | none => exact ⟨rfl, rfl, rfl, rfl, rfl, fun x hx => hx, fun x hx => .inl hx, by simp⟩
  | some w =>
    refine ⟨rfl, rfl, rfl, rfl, rfl, fun x hx => by simp [addCandidate, hx], ?_, ?_⟩
    · intro x hx
      simp only [addCandidate, List.mem_append, List.mem_singleton] at hx
      rcases hx with hx | rfl
      · exact .inl hx
      · exact .inr ⟨rfl, rfl⟩
    · intro w' hw'
      cases hw'
      simp [addCandidate]

theorem customTest_ok (T : GoalTest N C P) (start : List N) :
    TestOk A P start (Accepts T) (fun _ => False) (customTest A T) where
  out st cur _ _ := by
    obtain ⟨t, h1, h2, h3, h4, h5, h6, h7, h8, _⟩ := customTest_spec (A := A) T st cur
    refine ⟨t, h1, h2, h3, h4, h7, ?_, fun _ h => absurd h5 h⟩
    intro x hx
    rcases h8 x hx with h | ⟨h, h'⟩
    · exact .inl h
    · exact .inr ⟨h, st, h'⟩

theorem custom_init_cands (L : Lawful P) (cfg : SCfg N C) : (initSearch A P cfg (freshLabels A)).cands = [] :=
  (init_facts (A := A) (L := L) (cfg := cfg)).2.2.2.2

/-- **C75 (end, validity, best candidate).**  A search with any goal test, any heuristic goal, on a freshly
initialised map ends without undefined behaviour.  Its result is empty, and then no node has been accepted; or it is a walk of free nodes from
a start node to an accepted node whose weight is the smallest of all accepted nodes. -/
theorem custom_search_valid (ok : CostOk A) (L : Lawful P) (cfg : SCfg N C) (ht : TopOk cfg.top)
    (T : GoalTest N C P) :
    ∃ fuel p st', findPathCustom A P cfg T (freshLabels A) fuel = some (.ok p, st') ∧
      (∀ x ∈ st'.cands, Accepts T x.1 x.2) ∧
      ((p = [] ∧ st'.cands = []) ∨
        ∃ t w d, WalkTo A cfg.start t p d ∧ (t, w) ∈ st'.cands ∧ ∀ y ∈ st'.cands, w ≤ y.2) := by
  obtain ⟨fuel, r, st', h1, h2, _⟩ :=
    searchLoop_spec (L := L) (cfg := customCfg cfg T) ok ht (customTest_ok (A := A) T cfg.start)
      (initSearch A P (customCfg cfg T) (freshLabels A)) init_inv (by
        intro x hx; rw [custom_init_cands L] at hx; cases hx)
  obtain ⟨p, hp, hcase⟩ := h2.res
  refine ⟨fuel, p, st', by rw [← hp]; exact h1, h2.good, ?_⟩
  rcases hcase with h | ⟨_, h⟩ | ⟨x, l, d, hx1, hx2, hb, rfl⟩
  · exact .inl h
  · exact h.elim
  · exact .inr ⟨x.1, x.2, d, hb.walk, hx1, hx2⟩

/-- Every fuel that gives a result gives the same one. -/
theorem custom_result_unique {cfg : SCfg N C} {T : GoalTest N C P} {lab : Labels N C} {f g : Nat} {x y}
    (h1 : findPathCustom A P cfg T lab f = some x) (h2 : findPathCustom A P cfg T lab g = some y) : x = y :=
  searchLoop_fuel f g _ x y h1 h2

/-- Invariant: nodes that are always accepted leave a candidate behind. -/
def SeenInv (A : Algo N C) (L : Lawful P) (start : List N) (T : GoalTest N C P) (st : SSt N C P) : Prop :=
  SInv A L start st ∧ (∀ x ∈ st.cands, Accepts T x.1 x.2) ∧
    ∀ n, (st.lab n).closed = true → AlwaysAccepts T n → st.cands ≠ []

/-- Decomposition of an iteration of a custom search that goes on. -/
theorem custom_more {L : Lawful P} {cfg : SCfg N C} {T : GoalTest N C P} {st st' : SSt N C P}
    (h : SInv A L cfg.start st) (hi : iterate A cfg (customTest A T) st = .more st') :
    ∃ cur o t, P.next st.opn = some (cur, o) ∧ XInv A L cfg.start cur [] (popNode A cfg st cur o) ∧
      customTest A T (popNode A cfg st cur o) cur = .ok t ∧ t.st.lab = (popNode A cfg st cur o).lab ∧
      t.st.opn = o ∧ XInv A L cfg.start cur [] t.st ∧ t.term = false ∧
      st' = expandNode A cfg.goal t.st cur := by
  obtain ⟨cur, o, t, hn, _, ht1, hterm, _, rfl⟩ := iterate_more hi
  obtain ⟨hX, _, _, hcs, _⟩ := pop_spec h hn
  obtain ⟨t', g1, g2, g3, _, _, _, _, g8, _⟩ := customTest_spec (A := A) T (popNode A cfg st cur o) cur
  rw [ht1] at g1; cases g1
  refine ⟨cur, o, t, hn, hX, ht1, g2, g3, ⟨?_, ?_, ?_, ?_, ?_, ?_, ?_⟩, hterm, rfl⟩
  · rw [g2]; exact hX.core
  · rw [g2, g3]; exact hX.openMem
  · rw [g2, g3]; exact hX.memReach
  · rw [g2]; exact hX.curOk
  · rw [g2]; exact hX.relaxed
  · intro v c hv; cases hv
  · intro x hx1
    rw [g2]
    rcases g8 x hx1 with h1 | h1
    · exact hX.cands x h1
    · rw [h1.1]; exact hX.curOk.1

theorem SeenInv.pres (ok : CostOk A) {L : Lawful P} {cfg : SCfg N C} (ht : TopOk cfg.top)
    {T : GoalTest N C P} {st st' : SSt N C P} (h : SeenInv A L cfg.start T st)
    (hi : iterate A cfg (customTest A T) st = .more st') : SeenInv A L cfg.start T st' := by
  have hs := iterate_spec ok ht (customTest_ok (A := A) T cfg.start) h.1 h.2.1
  rw [hi] at hs
  refine ⟨hs.1, hs.2.1, ?_⟩
  obtain ⟨cur, o, t, hn, hX, ht1, hlab, _, hXt, _, rfl⟩ := custom_more h.1 hi
  obtain ⟨_, _, hoth, hcs, _⟩ := pop_spec h.1 hn
  obtain ⟨t', g1, _, _, _, _, _, g7, _, g9⟩ := customTest_spec (A := A) T (popNode A cfg st cur o) cur
  rw [ht1] at g1; cases g1
  obtain ⟨_, _, e3, e4, _⟩ := expand_spec (goal := cfg.goal) ok hXt
  intro n hcl ha
  rw [e3 n] at hcl
  rw [e4]
  by_cases e : n = cur
  · subst e
    obtain ⟨w, hw⟩ := Option.ne_none_iff_exists'.1 (ha (popNode A cfg st n o))
    exact List.ne_nil_of_mem (g9 w hw)
  · rw [hlab, hoth n e] at hcl
    have := h.2.2 n hcl ha
    obtain ⟨x, hx⟩ := List.exists_mem_of_ne_nil _ this
    exact List.ne_nil_of_mem (g7 x (by rw [hcs]; exact hx))

/-- **C75 (completeness).**  Without a time limit, and if the goal test stops the search only at nodes it accepts, an empty
result means that no node the test would accept can be reached. -/
theorem custom_search_complete (ok : CostOk A) (L : Lawful P) (cfg : SCfg N C) (ht : TopOk cfg.top)
    (hab : ∀ k, cfg.abort k = false) (T : GoalTest N C P) (hT : StopsOnlyAtCandidates T) {fuel : Nat} {st' : SSt N C P}
    (hrun : findPathCustom A P cfg T (freshLabels A) fuel = some (.ok [], st')) :
    ¬ ∃ n d, Reach A cfg.start n d ∧ AlwaysAccepts T n := by
  rintro ⟨n, d, hr, ha⟩
  have hinit : SeenInv A L (customCfg cfg T).start T (initSearch A P (customCfg cfg T) (freshLabels A)) := by
    obtain ⟨k1, k2, _, _, k5⟩ := init_facts (A := A) (L := L) (cfg := customCfg cfg T)
    refine ⟨init_inv, (by intro x hx; rw [k5] at hx; cases hx), ?_⟩
    intro n hn
    by_cases h : n ∈ cfg.start
    · simp [k1 n h] at hn
    · simp [k2 n h] at hn
  obtain ⟨st1, hI, hi⟩ := run_last (I := SeenInv A L (customCfg cfg T).start T)
    (fun st st2 h hi => SeenInv.pres ok (cfg := customCfg cfg T) ht h hi) fuel _ st' _ hrun hinit
  rcases iterate_done hi with ⟨hn, rfl, h⟩ | ⟨h, _⟩ | ⟨cur, o, hn, h⟩
  · have hc := finish_ne_nil (cfg := customCfg cfg T) ht hI.1.core hI.1.cands h.symm
    exact hI.2.2 n (all_closed ok hI.1 hn hr).1 ha hc
  · rw [show (customCfg cfg T).abort = cfg.abort from rfl, hab] at h; cases h
  · obtain ⟨hX, _, _, hcs, _⟩ := pop_spec (cfg := customCfg cfg T) hI.1 hn
    obtain ⟨t, g1, g2, _, _, g5, g6, _, g8, g9⟩ :=
      customTest_spec (A := A) T (popNode A (customCfg cfg T) st1 cur o) cur
    rw [g1] at h
    have hcl : ∀ x ∈ t.st.cands, (t.st.lab x.1).closed = true := by
      intro x hx1
      rw [g2]
      rcases g8 x hx1 with h1 | h1
      · exact hX.cands x h1
      · rw [h1.1]; exact hX.curOk.1
    have hfin : .ok [] = finish (customCfg cfg T) t.st → t.st.cands = [] := fun h6 =>
      finish_ne_nil (A := A) (cfg := customCfg cfg T) ht (by rw [g2]; exact hX.core) hcl h6.symm
    rcases h with ⟨h, _⟩ | ⟨e, h, _⟩ | ⟨t', h, rfl, h3⟩
    · cases h
    · cases h
    · cases h
      rcases h3 with ⟨_, h5, _⟩ | ⟨h4, _, h6⟩ | ⟨_, _, h5, _, h6⟩
      · exact h5 g5
      · rw [g6] at h4
        obtain ⟨w, hw⟩ := Option.ne_none_iff_exists'.1 (hT _ _ h4)
        have := g9 w hw
        rw [hfin h6] at this
        cases this
      · exact h5 (hfin h6)

end PathPlanning
