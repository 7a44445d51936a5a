import Verif.Model.CustomDuring
import Verif.Lemmas.DuringSearch
import Verif.Props.DuringSearch
import Verif.Props.SearchCustom

/-!
# Searches with a goal test on a map that changes: lemmas
-/

namespace PathPlanning.CDur
open PathPlanning During
set_option linter.unusedSectionVars false

variable {N C : Type} [DecidableEq N] [LinearOrder C] [Fintype N]
variable {A : Algo N C} {P : OpenList N C} {I : N → List (N × C)} {maps : Nat → N → List (N × C)}

theorem customTest_withSucc (s : N → List (N × C)) (T : GoalTest N C P) : customTest (A.withSucc s) T = customTest A T := rfl

/-- Invariant of the loop. -/
structure CLoop (A : Algo N C) (I : N → List (N × C)) (L : Lawful P) (cfg : SCfg N C) (T : GoalTest N C P) (st : SSt N C P) : Prop where
  inv : VInv A I L cfg.start st
  good : ∀ x ∈ st.cands, Accepts T x.1 x.2
  seen : ∀ n, (st.lab n).closed = true → AlwaysAccepts T n → ∃ x ∈ st.cands, x.1 = n

theorem CLoop.init {L : Lawful P} {cfg : SCfg N C} {T : GoalTest N C P} : CLoop A I L cfg T (initSearch A P cfg (freshLabels A)) := by
  have h := VLoop.init (A := A) (I := I) (P := P) (L := L) (cfg := cfg)
  obtain ⟨k1, k2, _, _, k5⟩ := init_facts (A := A) (L := L) (cfg := cfg)
  refine ⟨h.inv, (by intro x hx; rw [k5] at hx; cases hx), ?_⟩
  intro n hn
  by_cases e : n ∈ cfg.start
  · rw [k1 n e] at hn; cases hn
  · rw [k2 n e] at hn; cases hn

/-- What an iteration that takes a node from the queue does before expanding. -/
theorem CLoop.tested {L : Lawful P} {cfg : SCfg N C} {T : GoalTest N C P} {st : SSt N C P} (h : CLoop A I L cfg T st)
    {cur : N} {o : P.O} (hn : P.next st.opn = some (cur, o)) :
    ∃ t, customTest A T (popNode A cfg st cur o) cur = .ok t ∧ t.result = [] ∧
      t.term = (T.terminate (popNode A cfg st cur o) cur).2 ∧ t.st.expansions = st.expansions + 1 ∧
      t.st.lab = (popNode A cfg st cur o).lab ∧ t.st.opn = o ∧
      VXInv A I L cfg.start cur [] t.st ∧ (∀ x ∈ t.st.cands, Accepts T x.1 x.2) ∧
      (∀ n, (t.st.lab n).closed = true → AlwaysAccepts T n → ∃ x ∈ t.st.cands, x.1 = n) ∧
      (∀ n, (t.st.lab n).dist = (st.lab n).dist) ∧
      (∀ x ∈ t.st.cands, x ∈ st.cands ∨ (x.1 = cur ∧ (T.terminate (popNode A cfg st cur o) cur).1 = some x.2)) ∧
      (∀ w, (T.terminate (popNode A cfg st cur o) cur).1 = some w → (cur, w) ∈ t.st.cands) := by
  obtain ⟨hX, hd, hoth, hcs, hf, he⟩ := h.inv.pop hn
  obtain ⟨t, g1, g2, g3, g4, g5, g6, g7, g8, g9⟩ := customTest_spec (A := A) T (popNode A cfg st cur o) cur
  have hacc : ∀ x ∈ t.st.cands, Accepts T x.1 x.2 := by
    intro x hx
    rcases g8 x hx with h1 | ⟨h1, h2⟩
    · exact h.good x (hcs ▸ h1)
    · exact ⟨_, h1 ▸ h2⟩
  have hclosed : ∀ x ∈ t.st.cands, (t.st.lab x.1).closed = true := by
    intro x hx1
    rw [g2]
    rcases g8 x hx1 with h1 | h1
    · exact hX.cands x h1
    · rw [h1.1]; exact hX.curOk.1
  refine ⟨t, g1, g5, g6, g4.trans he, g2, g3, ⟨?_, ?_, ?_, ?_, ?_, ?_, hclosed⟩, hacc, ?_, ?_, ?_, g9⟩
  · rw [g2]; exact hX.core
  · rw [g2, g3]; exact hX.openMem
  · rw [g2, g3]; exact hX.memReach
  · rw [g2]; exact hX.curOk
  · rw [g2]; exact hX.relaxed
  · intro v c hv; cases hv
  · intro n hcl ha
    rw [g2] at hcl
    by_cases e : n = cur
    · subst e
      obtain ⟨w, hw⟩ := Option.ne_none_iff_exists'.1 (ha (popNode A cfg st n o))
      exact ⟨_, g9 w hw, rfl⟩
    · rw [hoth n e] at hcl
      obtain ⟨x, hx, e2⟩ := h.seen n hcl ha
      exact ⟨x, g7 x (by rw [hcs]; exact hx), e2⟩
  · intro n; rw [g2]; exact hd n
  · intro x hx
    rcases g8 x hx with h1 | h1
    · exact .inl (hcs ▸ h1)
    · exact .inr h1

/-- An iteration that goes on. -/
theorem CLoop.more (ok : CostOk A) {L : Lawful P} {cfg : SCfg N C} {T : GoalTest N C P}
    {s : N → List (N × C)} (hU : ∀ u, ∀ e ∈ s u, e ∈ A.succ u) (hI : ∀ u, ∀ e ∈ I u, e ∈ s u) {st st' : SSt N C P}
    (h : CLoop A I L cfg T st) (hi : iterate (A.withSucc s) cfg (customTest A T) st = .more st') :
    CLoop A I L cfg T st' ∧ st'.expansions = st.expansions + 1 ∧
      (potential A st'.lab < potential A st.lab ∨
        (potential A st'.lab = potential A st.lab ∧ L.size st'.opn < L.size st.opn)) := by
  obtain ⟨cur, o, t, hn, _, ht1, hterm, hov, rfl⟩ := iterate_more hi
  obtain ⟨t', g1, g2, g3, g4, g5, g6, g7, g8, g9, g10, g11, g12⟩ := h.tested hn
  change customTest A T (popNode A cfg st cur o) cur = .ok t at ht1
  rw [ht1] at g1; cases g1
  obtain ⟨e1, e3, e4, e5, e6, e7, e8⟩ := g7.expand (goal := cfg.goal) ok hU hI
  have hpot : potential A t.st.lab = potential A st.lab := by
    unfold potential; simp only [g10]
  refine ⟨⟨e1, fun x hx => g8 x (by rw [← e4]; exact hx), fun n hcl ha => ?_⟩, by rw [e6]; exact g4, ?_⟩
  · rw [e3 n] at hcl
    obtain ⟨x, hx, e⟩ := g9 n hcl ha
    exact ⟨x, by rw [e4]; exact hx, e⟩
  · rcases lt_or_eq_of_le e7 with h7 | h7
    · left; omega
    · right
      refine ⟨by omega, ?_⟩
      rw [e8 h7, g6]
      exact L.next_size _ _ _ hn

/-- What is known of the end of a run: the result is the way back from the best candidate. -/
def CDone (A : Algo N C) (I : N → List (N × C)) (L : Lawful P) (cfg : SCfg N C) (T : GoalTest N C P) (r : CRes (List N))
    (st st' : SSt N C P) : Prop :=
  r = finish cfg st' ∧ st.expansions ≤ st'.expansions ∧ Core A cfg.start st'.lab ∧
    (∀ x ∈ st'.cands, (st'.lab x.1).closed = true) ∧ (∀ x ∈ st'.cands, Accepts T x.1 x.2) ∧
    (∀ n, (st'.lab n).prev = (st.lab n).prev) ∧
    (st'.cands = [] → (∀ k, cfg.abort k = false) → StopsOnlyAtCandidates T → st' = st ∧ P.next st.opn = none)

/-- The last iteration. -/
theorem CLoop.done {L : Lawful P} {cfg : SCfg N C} {T : GoalTest N C P}
    {s : N → List (N × C)} {st st' : SSt N C P} {r : CRes (List N)}
    (h : CLoop A I L cfg T st) (hi : iterate (A.withSucc s) cfg (customTest A T) st = .done r st') : CDone A I L cfg T r st st' := by
  rcases iterate_done hi with ⟨hn, rfl, rfl⟩ | ⟨hab, rfl, rfl⟩ | ⟨cur, o, hn, hh⟩
  · exact ⟨rfl, le_refl _, h.inv.core, h.inv.cands, h.good, fun _ => rfl, fun _ _ _ => ⟨rfl, hn⟩⟩
  · exact ⟨rfl, le_refl _, h.inv.core, h.inv.cands, h.good, fun _ => rfl, fun _ hab' => by rw [hab'] at hab; cases hab⟩
  · obtain ⟨t, g1, g2, g3, g4, g5, g6, g7, g8, g9, g10, g11, g12⟩ := h.tested hn
    change (customTest A T (popNode A cfg st cur o) cur = .ub ∧ _) ∨
      (∃ e, customTest A T (popNode A cfg st cur o) cur = .throw e ∧ _) ∨
      ∃ t, customTest A T (popNode A cfg st cur o) cur = .ok t ∧ _ at hh
    rw [g1] at hh
    have hprev : ∀ n, (t.st.lab n).prev = (st.lab n).prev := by
      intro n
      rw [g5]
      unfold popNode
      simp only
      by_cases e : n = cur
      · subst e; rw [setLab_self]
      · rw [setLab_ne _ _ e]
    rcases hh with ⟨hh, _⟩ | ⟨e, hh, _⟩ | ⟨t', hh, rfl, h3⟩
    · cases hh
    · cases hh
    · cases hh
      rcases h3 with ⟨_, h5, _⟩ | ⟨h4, _, h6⟩ | ⟨_, _, h5, _, h6⟩
      · exact absurd g2 h5
      · refine ⟨h6, by omega, g7.core, g7.cands, g8, hprev, fun hc _ hT => ?_⟩
        rw [g3] at h4
        obtain ⟨w, hw⟩ := Option.ne_none_iff_exists'.1 (hT _ _ h4)
        have := g12 w hw
        rw [hc] at this; cases this
      · exact ⟨h6, by omega, g7.core, g7.cands, g8, hprev, fun hc => absurd hc h5⟩

end PathPlanning.CDur
