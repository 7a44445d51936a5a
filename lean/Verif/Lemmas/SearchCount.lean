import Verif.Spec.Counters
import Verif.Lemmas.SearchTest
import Verif.Model.OpenLists

/-!
# Counting expansions, insertions and updates
-/

namespace PathPlanning
set_option linter.unusedSectionVars false

variable {N C : Type} [DecidableEq N] [LinearOrder C]
variable {A : Algo N C} {P : OpenList N C}

/-- What `processNeighbor` does to the counters, the open list and the marks, in any state. -/
theorem process_count (goal : List N) (st : SSt N C P) (cur nb : N) (c : C) :
    let st' := processNeighbor A goal st cur nb c
    st'.expansions = st.expansions ∧ st'.multi = st.multi ∧ (∀ m, (st'.lab m).expanded = (st.lab m).expanded) ∧
    ((st'.opn = st.opn ∧ st'.touched = st.touched ∧ st'.updates = st.updates) ∨
     (∃ k, st'.opn = P.add st.opn nb k ∧ st'.touched = st.touched + 1 ∧
       st'.updates = if (st.lab nb).opn then st.updates + 1 else st.updates)) := by
  intro st'
  have hst : st' = processNeighbor A goal st cur nb c := rfl
  have hw : ∀ m, (setLab st.lab nb { st.lab nb with watched := true } m).expanded = (st.lab m).expanded := by
    intro m
    by_cases e : m = nb
    · subst e; simp [setLab]
    · simp [setLab, e]
  unfold processNeighbor at hst
  simp only at hst
  split at hst
  · rw [hst]
    exact ⟨rfl, rfl, hw, .inl ⟨rfl, rfl, rfl⟩⟩
  · split at hst
    · rw [hst]
      refine ⟨rfl, rfl, ?_, .inr ⟨_, rfl, rfl, rfl⟩⟩
      intro m
      by_cases e : m = nb
      · subst e; simp [setLab]
      · simp [setLab, e]
    · rw [hst]
      exact ⟨rfl, rfl, hw, .inl ⟨rfl, rfl, rfl⟩⟩

/-- A goal test that leaves everything but the candidates alone. -/
def Quiet (test : SSt N C P → N → CRes (TestOut N C P)) : Prop :=
  ∀ st cur t, test st cur = .ok t → t.st.lab = st.lab ∧ t.st.opn = st.opn ∧ t.st.expansions = st.expansions ∧
    t.st.multi = st.multi ∧ t.st.touched = st.touched ∧ t.st.updates = st.updates

theorem goalLoop_quiet [Fintype N] (cfg : SCfg N C) (cur : N) : ∀ (gs : List N) (st : SSt N C P) (t : TestOut N C P),
    goalLoop A cfg cur gs st = .ok t → t.st.lab = st.lab ∧ t.st.opn = st.opn ∧ t.st.expansions = st.expansions ∧
    t.st.multi = st.multi ∧ t.st.touched = st.touched ∧ t.st.updates = st.updates := by
  intro gs
  induction gs with
  | nil => intro st t h; simp only [goalLoop] at h; cases h; exact ⟨rfl, rfl, rfl, rfl, rfl, rfl⟩
  | cons g gs ih =>
    intro st t h
    unfold goalLoop at h
    by_cases hg : A.isGoal g cur = true
    · rw [if_pos hg] at h
      by_cases hu : cfg.useCands = true
      · rw [if_pos hu] at h
        simp only at h
        cases hf : cfg.accept with
        | none =>
          rw [hf] at h
          exact ih (addCandidate A st cur (A.distTo g cur)) _ h
        | some f =>
          rw [hf] at h
          simp only at h
          obtain ⟨p, _, h⟩ := CRes.bind_eq_ok.1 h
          by_cases hp : f p = true
          · rw [if_pos hp] at h
            cases h
            exact ⟨rfl, rfl, rfl, rfl, rfl, rfl⟩
          · rw [if_neg hp] at h
            exact ih (addCandidate A st cur (A.distTo g cur)) _ h
      · rw [if_neg hu] at h
        obtain ⟨p, _, h⟩ := CRes.bind_eq_ok.1 h
        cases h
        exact ⟨rfl, rfl, rfl, rfl, rfl, rfl⟩
    · rw [if_neg hg] at h
      exact ih _ _ h

theorem poseTest_quiet [Fintype N] (cfg : SCfg N C) : Quiet (P := P) (poseTest A cfg) := by
  intro st cur t h
  unfold poseTest at h
  obtain ⟨e, _, h⟩ := CRes.bind_eq_ok.1 h
  cases e with
  | none => exact goalLoop_quiet cfg cur _ _ _ h
  | some r => cases h; exact ⟨rfl, rfl, rfl, rfl, rfl, rfl⟩

theorem customTest_quiet (T : GoalTest N C P) : Quiet (customTest A T) := by
  intro st cur t h
  unfold customTest at h
  cases h
  cases (T.terminate st cur).1 <;> exact ⟨rfl, rfl, rfl, rfl, rfl, rfl⟩

variable [Fintype N]

/-- Balance of the counters: `s0` start nodes, `e0` nodes marked as expanded at the beginning. -/
structure Balance (Q : Counts P) (s0 e0 : Nat) (st : SSt N C P) : Prop where
  size : Q.size st.opn + st.expansions = s0 + st.touched
  upd : st.updates ≤ st.touched
  exp : (expandedNodes st.lab).card + st.multi = e0 + st.expansions

theorem Balance.congr {Q : Counts P} {s0 e0 : Nat} {st st' : SSt N C P} (h : Balance Q s0 e0 st) (h1 : st'.lab = st.lab)
    (h2 : st'.opn = st.opn) (h3 : st'.expansions = st.expansions) (h4 : st'.multi = st.multi) (h5 : st'.touched = st.touched)
    (h6 : st'.updates = st.updates) : Balance Q s0 e0 st' := by
  constructor
  · rw [h2, h3, h5]; exact h.size
  · rw [h5, h6]; exact h.upd
  · rw [h1, h3, h4]; exact h.exp

theorem Balance.process {Q : Counts P} {s0 e0 : Nat} {st : SSt N C P} (h : Balance Q s0 e0 st) (goal : List N) (cur nb : N) (c : C) :
    Balance Q s0 e0 (processNeighbor A goal st cur nb c) := by
  obtain ⟨h1, h2, h3, h4⟩ := process_count (A := A) goal st cur nb c
  generalize processNeighbor A goal st cur nb c = st' at *
  have he : expandedNodes st'.lab = expandedNodes st.lab := by
    unfold expandedNodes
    simp only [h3]
  have hs := h.size
  have hu := h.upd
  have hx := h.exp
  rcases h4 with ⟨h4, h5, h6⟩ | ⟨k, h4, h5, h6⟩
  · exact ⟨by rw [h4, h1, h5]; exact hs, by rw [h5, h6]; exact hu, by rw [he, h1, h2]; exact hx⟩
  · refine ⟨by rw [h4, h1, h5, Q.add]; omega, ?_, by rw [he, h1, h2]; exact hx⟩
    rw [h5, h6]
    split <;> omega

theorem Balance.fold {Q : Counts P} {s0 e0 : Nat} (goal : List N) (cur : N) : ∀ (es : List (N × C)) (st : SSt N C P),
    Balance Q s0 e0 st → Balance Q s0 e0 (es.foldl (fun s e => processNeighbor A goal s cur e.1 e.2) st)
  | [], _, h => h
  | e :: es, _, h => Balance.fold goal cur es _ (h.process goal cur e.1 e.2)

theorem Balance.pop {Q : Counts P} {s0 e0 : Nat} {st : SSt N C P} (h : Balance Q s0 e0 st) (cfg : SCfg N C) {cur : N} {o : P.O}
    (hn : P.next st.opn = some (cur, o)) : Balance Q s0 e0 (popNode A cfg st cur o) := by
  have hs := h.size
  have hx := h.exp
  have hq := Q.next _ _ _ hn
  refine ⟨?_, h.upd, ?_⟩
  · show Q.size o + (st.expansions + 1) = s0 + st.touched
    omega
  · show (expandedNodes (popNode A cfg st cur o).lab).card + (if (st.lab cur).expanded then st.multi + 1 else st.multi) =
      e0 + (st.expansions + 1)
    have hmem : ∀ n, n ∈ expandedNodes (popNode A cfg st cur o).lab ↔ n = cur ∨ n ∈ expandedNodes st.lab := by
      intro n
      simp only [expandedNodes, Finset.mem_filter, Finset.mem_univ, true_and]
      by_cases e : n = cur
      · subst e; simp [popNode, setLab]
      · simp [popNode, setLab, e]
    by_cases hc : (st.lab cur).expanded = true
    · have : expandedNodes (popNode A cfg st cur o).lab = expandedNodes st.lab := by
        ext n
        rw [hmem]
        constructor
        · rintro (rfl | h)
          · simp [expandedNodes, hc]
          · exact h
        · exact .inr
      rw [this, if_pos hc]
      omega
    · have : expandedNodes (popNode A cfg st cur o).lab = insert cur (expandedNodes st.lab) := by
        ext n
        rw [hmem, Finset.mem_insert]
      rw [this, if_neg hc, Finset.card_insert_of_notMem (by simp [expandedNodes, hc])]
      omega

theorem Balance.more {Q : Counts P} {s0 e0 : Nat} {cfg : SCfg N C} {test : SSt N C P → N → CRes (TestOut N C P)} (hq : Quiet test)
    {st st' : SSt N C P} (h : Balance Q s0 e0 st) (hi : iterate A cfg test st = .more st') : Balance Q s0 e0 st' := by
  obtain ⟨cur, o, t, hn, _, ht, _, _, rfl⟩ := iterate_more hi
  obtain ⟨h1, h2, h3, h4, h5, h6⟩ := hq _ _ _ ht
  exact Balance.fold _ _ _ _ ((h.pop (A := A) cfg hn).congr h1 h2 h3 h4 h5 h6)

/-- The state in which a search ends with an answer: the open list is empty or the clock has run out, or one more node has been
taken and tested. -/
theorem done_state {cfg : SCfg N C} {test : SSt N C P → N → CRes (TestOut N C P)} (hq : Quiet test) {I : SSt N C P → Prop}
    (hpop : ∀ st cur o, I st → P.next st.opn = some (cur, o) → I (popNode A cfg st cur o))
    (hcongr : ∀ st st' : SSt N C P, I st → st'.lab = st.lab → st'.opn = st.opn → st'.expansions = st.expansions →
      st'.multi = st.multi → st'.touched = st.touched → st'.updates = st.updates → I st')
    {st st' : SSt N C P} {p : List N} (h : I st) (hi : iterate A cfg test st = .done (.ok p) st') : I st' := by
  rcases iterate_done hi with ⟨_, rfl, _⟩ | ⟨_, rfl, _⟩ | ⟨cur, o, hn, hc⟩
  · exact h
  · exact h
  · rcases hc with ⟨_, hc⟩ | ⟨e, _, hc⟩ | ⟨t, ht, rfl, _⟩
    · cases hc
    · cases hc
    · obtain ⟨h1, h2, h3, h4, h5, h6⟩ := hq _ _ _ ht
      exact hcongr _ _ (hpop _ _ _ h hn) h1 h2 h3 h4 h5 h6

/-- The counters at the beginning of a search. -/
theorem init_count (Q : Counts P) (cfg : SCfg N C) (lab : Labels N C) :
    let st := initSearch A P cfg lab
    Q.size st.opn = cfg.start.length ∧ st.expansions = 0 ∧ st.multi = 0 ∧ st.touched = 0 ∧ st.updates = 0 ∧
      ∀ m, (st.lab m).expanded = (lab m).expanded := by
  have key : ∀ (ss : List N) (st : SSt N C P), let st' := ss.foldl (addStart A) st
      Q.size st'.opn = Q.size st.opn + ss.length ∧ st'.expansions = st.expansions ∧ st'.multi = st.multi ∧
        st'.touched = st.touched ∧ st'.updates = st.updates ∧ ∀ m, (st'.lab m).expanded = (st.lab m).expanded := by
    intro ss
    induction ss with
    | nil => intro st; exact ⟨rfl, rfl, rfl, rfl, rfl, fun _ => rfl⟩
    | cons s ss ih =>
      intro st
      obtain ⟨h1, h2, h3, h4, h5, h6⟩ := ih (addStart A st s)
      refine ⟨?_, h2, h3, h4, h5, ?_⟩
      · rw [List.foldl_cons, h1]
        show Q.size (P.add st.opn s _) + ss.length = _
        rw [Q.add, List.length_cons]
        omega
      · intro m
        rw [List.foldl_cons, h6]
        by_cases e : m = s
        · subst e; simp [addStart, setLab]
        · simp [addStart, setLab, e]
  obtain ⟨h1, h2, h3, h4, h5, h6⟩ := key cfg.start
    { lab := lab, opn := P.empty, cands := [], firstW := (A.zero : WithTop C), expansions := 0,
      multi := 0, touched := 0, updates := 0 }
  refine ⟨?_, h2, h3, h4, h5, h6⟩
  exact h1.trans (by simp [Q.empty])

theorem Balance.init (Q : Counts P) (cfg : SCfg N C) (lab : Labels N C) :
    Balance Q cfg.start.length (expandedNodes lab).card (initSearch A P cfg lab) := by
  obtain ⟨h1, h2, h3, h4, h5, h6⟩ := init_count (A := A) Q cfg lab
  refine ⟨by omega, by omega, ?_⟩
  have : expandedNodes (initSearch A P cfg lab).lab = expandedNodes lab := by
    unfold expandedNodes
    simp only [h6]
  rw [this, h2, h3]

end PathPlanning
