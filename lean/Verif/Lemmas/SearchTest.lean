import Verif.Lemmas.SearchRun

/-!
# Goal tests of the generic search and decomposition of iterations
-/

namespace PathPlanning
set_option linter.unusedSectionVars false

variable {N C : Type} [DecidableEq N] [LinearOrder C] [Fintype N]
variable {A : Algo N C} {P : OpenList N C}

section tests

theorem goalLoop_spec {cfg : SCfg N C} {cur : N} :
    ∀ (gs : List N) (st : SSt N C P), (∀ g ∈ gs, g ∈ cfg.goal) → Core A cfg.start st.lab →
      (st.lab cur).closed = true →
    ∃ t, goalLoop A cfg cur gs st = .ok t ∧ t.st.lab = st.lab ∧ t.st.opn = st.opn ∧
      t.st.expansions = st.expansions ∧ (∀ x ∈ st.cands, x ∈ t.st.cands) ∧
      (∀ x ∈ t.st.cands, x ∈ st.cands ∨
        (x.1 = cur ∧ ∃ g ∈ gs, A.isGoal g cur = true ∧ x.2 = A.distTo g cur)) ∧
      (cfg.useCands = false → t.st.cands = st.cands) ∧
      (t.term = true → ∃ d, Back A cfg.start st.lab cur t.result d ∧
        ∃ g ∈ gs, A.isGoal g cur = true) ∧
      (t.term = false → ∀ g ∈ gs, A.isGoal g cur = true →
        cfg.useCands = true ∧ (cur, A.distTo g cur) ∈ t.st.cands) ∧
      (t.st.cands ≠ [] → st.cands = [] → t.st.firstW = A.total (st.lab cur)) ∧
      (st.cands ≠ [] → t.st.firstW = st.firstW) := by
  intro gs
  induction gs with
  | nil =>
    intro st _ _ _
    refine ⟨⟨false, [], st⟩, rfl, rfl, rfl, rfl, fun x hx => hx, fun x hx => .inl hx,
      fun _ => rfl, by simp, by simp, fun h1 h2 => absurd h2 h1, fun _ => rfl⟩
  | cons g gs ih =>
    intro st hsub hc hcl
    have hsub' : ∀ g ∈ gs, g ∈ cfg.goal := fun x hx => hsub x (List.mem_cons_of_mem _ hx)
    obtain ⟨l, d, hb⟩ := hc.back cur ((hc.reach cur).2 (.inr hcl))
    have hbt : backtrack st.lab cfg.start cur = .ok l := backtrack_ok hc.sp hb
    rw [goalLoop]
    by_cases hg : A.isGoal g cur = true
    · simp only [hg, if_true]
      by_cases huse : cfg.useCands = true
      · simp only [huse, if_true]
        obtain ⟨t, h1, h2, h3, h4, h5, h6, h7, h8, h9, _, h11⟩ :=
          ih (addCandidate A st cur (A.distTo g cur)) hsub' hc hcl
        have hw1 : t.st.cands ≠ [] → st.cands = [] → t.st.firstW = A.total (st.lab cur) := by
          intro _ he
          rw [h11 (by simp [addCandidate])]; simp [addCandidate, he]
        have hw2 : st.cands ≠ [] → t.st.firstW = st.firstW := by
          intro he
          rw [h11 (by simp [addCandidate])]; simp [addCandidate, he]
        have hmem : (cur, A.distTo g cur) ∈ t.st.cands := h5 _ (by simp [addCandidate])
        have hcand : ∀ x ∈ t.st.cands, x ∈ st.cands ∨
            (x.1 = cur ∧ ∃ g' ∈ g :: gs, A.isGoal g' cur = true ∧ x.2 = A.distTo g' cur) := by
          intro x hx
          rcases h6 x hx with h | ⟨e, g', hg', h⟩
          · simp only [addCandidate, List.mem_append, List.mem_singleton] at h
            rcases h with h | h
            · exact .inl h
            · right; rw [h]; exact ⟨rfl, g, by simp, hg, rfl⟩
          · exact .inr ⟨e, g', List.mem_cons_of_mem _ hg', h⟩
        have hrec : ∃ t', goalLoop A cfg cur gs (addCandidate A st cur (A.distTo g cur)) = .ok t' ∧
            t' = t := ⟨t, h1, rfl⟩
        have hfin : ∀ x, x = t → x.st.lab = st.lab ∧ x.st.opn = st.opn ∧
            x.st.expansions = st.expansions ∧ (∀ y ∈ st.cands, y ∈ x.st.cands) ∧
            (∀ y ∈ x.st.cands, y ∈ st.cands ∨
              (y.1 = cur ∧ ∃ g' ∈ g :: gs, A.isGoal g' cur = true ∧ y.2 = A.distTo g' cur)) ∧
            (x.term = true → ∃ d, Back A cfg.start st.lab cur x.result d ∧
              ∃ g' ∈ g :: gs, A.isGoal g' cur = true) ∧
            (x.term = false → ∀ g' ∈ g :: gs, A.isGoal g' cur = true →
              (cur, A.distTo g' cur) ∈ x.st.cands) := by
          rintro x rfl
          refine ⟨h2, h3, h4, fun y hy => h5 y (by simp [addCandidate, hy]), hcand, ?_,
            ?_⟩
          · intro ht
            obtain ⟨d', hb', g', hg', hgg⟩ := h8 ht
            exact ⟨d', hb', g', List.mem_cons_of_mem _ hg', hgg⟩
          · intro ht g' hg' hgg
            rcases List.mem_cons.1 hg' with e | hg'
            · rw [e]; exact hmem
            · exact (h9 ht g' hg' hgg).2
        obtain ⟨f1, f2, f3, f4, f5, f6, f7⟩ := hfin t rfl
        cases hacc : cfg.accept with
        | none =>
          exact ⟨t, h1, f1, f2, f3, f4, f5, fun h => by simp at h, f6,
            fun ht g' hg' hgg => ⟨trivial, f7 ht g' hg' hgg⟩, hw1, hw2⟩
        | some f =>
          have hlab : (addCandidate A st cur (A.distTo g cur)).lab = st.lab := rfl
          simp only [hlab, hbt, CRes.ok_bind]
          by_cases hf : f l = true
          · simp only [hf, if_true]
            refine ⟨_, rfl, rfl, rfl, rfl, fun x hx => by simp [addCandidate, hx], ?_,
              fun h => by simp at h, fun _ => ⟨d, hb, g, by simp, hg⟩, fun h => by simp at h,
              fun _ he => by simp [addCandidate, he], fun he => by simp [addCandidate, he]⟩
            intro x hx
            simp only [addCandidate, List.mem_append, List.mem_singleton] at hx
            rcases hx with h | h
            · exact .inl h
            · right; rw [h]; exact ⟨rfl, g, by simp, hg, rfl⟩
          · simp only [hf, if_false, Bool.false_eq_true]
            exact ⟨t, h1, f1, f2, f3, f4, f5, fun h => by simp at h, f6,
              fun ht g' hg' hgg => ⟨trivial, f7 ht g' hg' hgg⟩, hw1, hw2⟩
      · simp only [huse, if_false, Bool.false_eq_true, hbt, CRes.ok_bind]
        exact ⟨_, rfl, rfl, rfl, rfl, fun x hx => hx, fun x hx => .inl hx, fun _ => rfl,
          fun _ => ⟨d, hb, g, by simp, hg⟩, fun h => by simp at h, fun h1 h2 => absurd h2 h1,
          fun _ => rfl⟩
    · simp only [hg, if_false, Bool.false_eq_true]
      obtain ⟨t, h1, h2, h3, h4, h5, h6, h7, h8, h9, h10, h11⟩ := ih st hsub' hc hcl
      refine ⟨t, h1, h2, h3, h4, h5, ?_, h7, ?_, ?_, h10, h11⟩
      · intro x hx
        rcases h6 x hx with h | ⟨e, g', hg', h⟩
        · exact .inl h
        · exact .inr ⟨e, g', List.mem_cons_of_mem _ hg', h⟩
      · intro ht
        obtain ⟨d', hb', g', hg', hgg⟩ := h8 ht
        exact ⟨d', hb', g', List.mem_cons_of_mem _ hg', hgg⟩
      · intro ht g' hg' hgg
        rcases List.mem_cons.1 hg' with e | hg'
        · rw [e] at hgg; exact absurd hgg hg
        · exact h9 ht g' hg' hgg

theorem expansionLoop_spec {cfg : SCfg N C} (hx : ExpansionOk cfg) {cur : N} {st : SSt N C P}
    (hc : Core A cfg.start st.lab) (hcl : (st.lab cur).closed = true) :
    ∀ gs : List N, (expansionLoop cfg cur st gs = .ok none ∧
        ∀ g ∈ gs, cfg.canExpand st.expansions cur g = none) ∨
      ∃ g ∈ gs, ∃ l d e, cfg.canExpand st.expansions cur g = some e ∧
        Back A cfg.start st.lab cur l d ∧ expansionLoop cfg cur st gs = .ok (some (l ++ e)) := by
  intro gs
  induction gs with
  | nil => left; exact ⟨rfl, by simp⟩
  | cons g gs ih =>
    rw [expansionLoop]
    cases he : cfg.canExpand st.expansions cur g with
    | some e =>
      right
      obtain ⟨l, d, hb⟩ := hc.back cur ((hc.reach cur).2 (.inr hcl))
      have hns : cur ∉ cfg.start := fun hs => by rw [hx.start _ _ _ hs] at he; cases he
      have hne := hx.nonempty _ _ _ _ he
      refine ⟨g, by simp, l, d, e, he, hb, ?_⟩
      cases e with
      | nil => exact absurd rfl hne
      | cons a e => simp [backtrackCopy_ok hc.sp hb hns]
    | none =>
      rcases ih with ⟨h1, h2⟩ | ⟨g', hg', l, d, e, h1, h2, h3⟩
      · left
        refine ⟨h1, ?_⟩
        intro g' hg'
        rcases List.mem_cons.1 hg' with h | h
        · rw [h]; exact he
        · exact h2 g' h
      · right; exact ⟨g', List.mem_cons_of_mem _ hg', l, d, e, h1, h2, h3⟩

/-- Candidates are expanded nodes of the goal region, weighted by their distance to the goal. -/
def GoodCand (A : Algo N C) (cfg : SCfg N C) (n : N) (w : C) : Prop :=
  ∃ g ∈ cfg.goal, A.isGoal g n = true ∧ w = A.distTo g n

theorem poseTest_spec {cfg : SCfg N C} (hx : ExpansionOk cfg) (st : SSt N C P) (cur : N)
    (hc : Core A cfg.start st.lab) (hcl : (st.lab cur).closed = true) :
    ∃ t, poseTest A cfg st cur = .ok t ∧ t.st.lab = st.lab ∧ t.st.opn = st.opn ∧
      t.st.expansions = st.expansions ∧ (∀ x ∈ st.cands, x ∈ t.st.cands) ∧
      (∀ x ∈ t.st.cands, x ∈ st.cands ∨ (x.1 = cur ∧ GoodCand A cfg cur x.2)) ∧
      (cfg.useCands = false → t.st.cands = st.cands) ∧
      (t.term = true → t.result ≠ [] ∧ ValidPath A cfg t.result) ∧
      (t.term = true → (∀ k n g, cfg.canExpand k n g = none) →
        ∃ d, Back A cfg.start st.lab cur t.result d ∧ InGoalRegion A cfg.goal cur) ∧
      (t.term = false → ∀ g ∈ cfg.goal, A.isGoal g cur = true →
        cfg.useCands = true ∧ (cur, A.distTo g cur) ∈ t.st.cands) ∧
      (t.st.cands ≠ [] → st.cands = [] → t.st.firstW = A.total (st.lab cur)) ∧
      (st.cands ≠ [] → t.st.firstW = st.firstW) := by
  unfold poseTest
  rcases expansionLoop_spec hx hc hcl cfg.goal with ⟨h1, h2⟩ | ⟨g, hg, l, d, e, h1, h2, h3⟩
  · rw [h1]
    simp only [CRes.ok_bind]
    obtain ⟨t, g1, g2, g3, g4, g5, g6, g7, g8, g9, g10, g11⟩ :=
      goalLoop_spec (A := A) (P := P) (cur := cur) cfg.goal st (fun g hg => hg)
        hc hcl
    refine ⟨t, g1, g2, g3, g4, g5, g6, g7, ?_, ?_, g9, g10, g11⟩
    · intro ht
      obtain ⟨d, hb, hreg⟩ := g8 ht
      exact ⟨hb.ne_nil, cur, _, d, hb.walk, .inl ⟨rfl, hreg⟩⟩
    · intro ht _; exact g8 ht
  · rw [h3]
    simp only [CRes.ok_bind, CRes.pure_eq]
    refine ⟨_, rfl, rfl, rfl, rfl, fun x hx => hx, fun x hx => .inl hx, fun _ => rfl, ?_, ?_, ?_,
      fun h1 h2 => absurd h2 h1, fun _ => rfl⟩
    · intro _
      exact ⟨by simp [h2.ne_nil], cur, l, d, h2.walk, .inr ⟨g, hg, _, e, h1, rfl⟩⟩
    · intro _ hnone; rw [hnone] at h1; cases h1
    · intro h; simp at h

theorem poseTest_ok {cfg : SCfg N C} (hx : ExpansionOk cfg) :
    TestOk A P cfg.start (GoodCand A cfg) (ValidPath A cfg) (poseTest A cfg) where
  out st cur hc hcl := by
    obtain ⟨t, h1, h2, h3, h4, h5, h6, _, h8, _⟩ := poseTest_spec (A := A) hx st cur hc hcl
    exact ⟨t, h1, h2, h3, h4, h5, h6, fun a _ => (h8 a).2⟩

end tests


/-- Decomposition of an iteration that goes on. -/
theorem iterate_more {cfg : SCfg N C} {test : SSt N C P → N → CRes (TestOut N C P)}
    {st st' : SSt N C P} (h : iterate A cfg test st = .more st') :
    ∃ cur o t, P.next st.opn = some (cur, o) ∧ cfg.abort st.expansions = false ∧
      test (popNode A cfg st cur o) cur = .ok t ∧ t.term = false ∧
      (cfg.useCands && !t.st.cands.isEmpty &&
        decide (A.addW t.st.firstW cfg.oversearch < A.total (t.st.lab cur))) = false ∧
      st' = expandNode A cfg.goal t.st cur := by
  unfold iterate at h
  cases hn : P.next st.opn with
  | none => simp [hn] at h
  | some co =>
    obtain ⟨cur, o⟩ := co
    simp only [hn] at h
    by_cases hab : cfg.abort st.expansions
    · simp [hab] at h
    · simp only [hab, Bool.false_eq_true, if_false] at h
      cases ht : test (popNode A cfg st cur o) cur with
      | throw e => simp [ht] at h
      | ub => simp [ht] at h
      | ok t =>
        simp only [ht] at h
        by_cases hterm : t.term = true
        · simp only [hterm, if_true] at h
          split at h <;> cases h
        · simp only [hterm, Bool.false_eq_true, if_false] at h
          by_cases hov : (cfg.useCands && !t.st.cands.isEmpty &&
            decide (A.addW t.st.firstW cfg.oversearch < A.total (t.st.lab cur))) = true
          · simp only [hov, if_true] at h; cases h
          · simp only [hov, if_false, Bool.false_eq_true] at h
            refine ⟨cur, o, t, rfl, by simpa using hab, ht, by simpa using hterm,
              by simpa using hov, ?_⟩
            cases h; rfl

/-- Decomposition of a last iteration. -/
theorem iterate_done {cfg : SCfg N C} {test : SSt N C P → N → CRes (TestOut N C P)}
    {st st' : SSt N C P} {r : CRes (List N)} (h : iterate A cfg test st = .done r st') :
    (P.next st.opn = none ∧ st' = st ∧ r = finish cfg st) ∨
    (cfg.abort st.expansions = true ∧ st' = st ∧ r = finish cfg st) ∨
    ∃ cur o, P.next st.opn = some (cur, o) ∧
      ((test (popNode A cfg st cur o) cur = .ub ∧ r = .ub) ∨
       (∃ e, test (popNode A cfg st cur o) cur = .throw e ∧ r = .throw e) ∨
       ∃ t, test (popNode A cfg st cur o) cur = .ok t ∧ st' = t.st ∧
        ((t.term = true ∧ t.result ≠ [] ∧ r = .ok t.result) ∨
         (t.term = true ∧ t.result = [] ∧ r = finish cfg t.st) ∨
         (t.term = false ∧ cfg.useCands = true ∧ t.st.cands ≠ [] ∧
          A.addW t.st.firstW cfg.oversearch < A.total (t.st.lab cur) ∧ r = finish cfg t.st))) := by
  unfold iterate at h
  cases hn : P.next st.opn with
  | none => simp only [hn] at h; cases h; exact .inl ⟨rfl, rfl, rfl⟩
  | some co =>
    obtain ⟨cur, o⟩ := co
    simp only [hn] at h
    by_cases hab : cfg.abort st.expansions
    · simp only [hab, if_true] at h; cases h; exact .inr (.inl ⟨hab, rfl, rfl⟩)
    · simp only [hab, Bool.false_eq_true, if_false] at h
      refine .inr (.inr ⟨cur, o, rfl, ?_⟩)
      cases ht : test (popNode A cfg st cur o) cur with
      | throw e => simp only [ht] at h; cases h; exact .inr (.inl ⟨e, rfl, rfl⟩)
      | ub => simp only [ht] at h; cases h; exact .inl ⟨rfl, rfl⟩
      | ok t =>
        simp only [ht] at h
        refine .inr (.inr ⟨t, rfl, ?_⟩)
        by_cases hterm : t.term = true
        · simp only [hterm, if_true] at h
          by_cases hr : t.result = []
          · simp only [hr, ne_eq, not_true, if_false] at h
            cases h
            exact ⟨rfl, .inr (.inl ⟨hterm, hr, rfl⟩)⟩
          · simp only [hr, ne_eq, not_false_eq_true, if_true] at h
            cases h
            exact ⟨rfl, .inl ⟨hterm, hr, rfl⟩⟩
        · simp only [hterm, Bool.false_eq_true, if_false] at h
          by_cases hov : (cfg.useCands && !t.st.cands.isEmpty &&
            decide (A.addW t.st.firstW cfg.oversearch < A.total (t.st.lab cur))) = true
          · simp only [hov, if_true] at h
            cases h
            simp only [Bool.and_eq_true, Bool.not_eq_true', List.isEmpty_eq_false_iff,
              decide_eq_true_eq] at hov
            exact ⟨rfl, .inr (.inr ⟨by simpa using hterm, hov.1.1, hov.1.2, hov.2, rfl⟩)⟩
          · simp only [hov, if_false, Bool.false_eq_true] at h; cases h

/-- An invariant holds at the beginning of the last iteration. -/
theorem run_last {cfg : SCfg N C} {test : SSt N C P → N → CRes (TestOut N C P)}
    {I : SSt N C P → Prop}
    (pres : ∀ st st', I st → iterate A cfg test st = .more st' → I st') :
    ∀ (f : Nat) (st st' : SSt N C P) (r), searchLoop A cfg test f st = some (r, st') → I st →
      ∃ st1, I st1 ∧ iterate A cfg test st1 = .done r st' := by
  intro f
  induction f with
  | zero => intro st st' r h; simp [searchLoop] at h
  | succ f ih =>
    intro st st' r h hI
    rw [searchLoop] at h
    cases hi : iterate A cfg test st with
    | done r1 st1 =>
      rw [hi] at h
      simp only [Option.some.injEq, Prod.mk.injEq] at h
      obtain ⟨rfl, rfl⟩ := h
      exact ⟨st, hI, hi⟩
    | more st1 =>
      rw [hi] at h
      exact ih st1 st' r h (pres st st1 hI hi)

end PathPlanning
