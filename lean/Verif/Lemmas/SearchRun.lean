import Verif.Lemmas.Search

/-!
# Invariants of the generic search: steps and runs
-/

namespace PathPlanning
set_option linter.unusedSectionVars false

variable {N C : Type} [DecidableEq N] [LinearOrder C] [Fintype N]
variable {A : Algo N C} {P : OpenList N C}

theorem setLab_self (lab : Labels N C) (n : N) (l : Label N C) : setLab lab n l n = l := by
  simp [setLab]

theorem setLab_ne (lab : Labels N C) {n m : N} (l : Label N C) (h : m ≠ n) :
    setLab lab n l m = lab m := by
  simp [setLab, h]

/-- The two labels agree except for `h`, `watched` and `expanded`. -/
def SameLab (l l' : Label N C) : Prop :=
  l'.dist = l.dist ∧ l'.prev = l.prev ∧ l'.opn = l.opn ∧ l'.closed = l.closed

/-- What `processNeighbor` does, given the invariant: nothing relevant, or a relaxation. -/
theorem process_cases_of {goal : List N} {st : SSt N C P}
    (h : ∀ n, (st.lab n).dist ≠ ⊤ ↔ ((st.lab n).opn = true ∨ (st.lab n).closed = true))
    {cur nb : N} {c : C} (hu : (st.lab cur).dist ≠ ⊤) :
    let st' := processNeighbor A goal st cur nb c
    st'.cands = st.cands ∧ st'.firstW = st.firstW ∧ st'.expansions = st.expansions ∧
    ((¬ A.addW (st.lab cur).dist c < (st.lab nb).dist ∧ st'.opn = st.opn ∧
        ∀ m, SameLab (st.lab m) (st'.lab m) ∧ (st'.lab m).h = (st.lab m).h) ∨
     (A.addW (st.lab cur).dist c < (st.lab nb).dist ∧
        st'.opn = P.add st.opn nb (A.total (st'.lab nb)) ∧
        ((st'.lab nb).dist = A.addW (st.lab cur).dist c ∧ (st'.lab nb).prev = some cur ∧
          (st'.lab nb).opn = true) ∧
        (st'.lab nb).closed = (st.lab nb).closed ∧
        (∀ g gs, goal = g :: gs → (st'.lab nb).h = A.heur nb g) ∧
        ∀ m, m ≠ nb → st'.lab m = st.lab m)) := by
  intro st'
  have hlab0 : (setLab st.lab nb { st.lab nb with watched := true } cur).dist =
      (st.lab cur).dist := by
    by_cases e : cur = nb
    · subst e; simp [setLab]
    · simp [setLab, e]
  have hsame : ∀ m, SameLab (st.lab m)
      (setLab st.lab nb { st.lab nb with watched := true } m) ∧
      (setLab st.lab nb { st.lab nb with watched := true } m).h = (st.lab m).h := by
    intro m
    by_cases e : m = nb
    · subst e; simp [setLab, SameLab]
    · simp [setLab, SameLab, e]
  by_cases hcl : A.addW (st.lab cur).dist c < (st.lab nb).dist
  · have hst : st' = processNeighbor A goal st cur nb c := rfl
    unfold processNeighbor at hst
    simp only [hlab0, hcl, decide_true, Bool.not_true, Bool.and_false, Bool.or_true,
      if_true, Bool.false_eq_true, if_false] at hst
    rw [hst]
    refine ⟨rfl, rfl, rfl, .inr ⟨hcl, ?_, ⟨?_, ?_, ?_⟩, ?_, ?_, ?_⟩⟩
    · simp [setLab]
    · simp [setLab]
    · simp [setLab]
    · simp [setLab]
    · simp [setLab]
    · intro g gs hg; simp [setLab, hg]
    · intro m hm; simp [setLab, hm]
  · have hst : st' = processNeighbor A goal st cur nb c := rfl
    unfold processNeighbor at hst
    simp only [hlab0, hcl, decide_false, Bool.not_false, Bool.and_true, Bool.or_false] at hst
    have hreach : (st.lab nb).opn = true ∨ (st.lab nb).closed = true := by
      rw [← h nb]
      intro htop
      rw [htop] at hcl
      exact hcl (lt_top_iff_ne_top.2 (by rw [Ne, addW_eq_top]; exact hu))
    have hlab : st' = { st with lab := setLab st.lab nb { st.lab nb with watched := true } } := by
      rw [hst]
      rcases hreach with h1 | h1
      · simp [h1]
      · simp [h1]
    rw [hlab]
    exact ⟨rfl, rfl, rfl, .inl ⟨hcl, rfl, hsame⟩⟩

theorem process_cases {start goal : List N} {st : SSt N C P} (h : Core A start st.lab)
    {cur nb : N} {c : C} (hu : (st.lab cur).dist ≠ ⊤) :
    let st' := processNeighbor A goal st cur nb c
    st'.cands = st.cands ∧ st'.firstW = st.firstW ∧ st'.expansions = st.expansions ∧
    ((¬ A.addW (st.lab cur).dist c < (st.lab nb).dist ∧ st'.opn = st.opn ∧
        ∀ m, SameLab (st.lab m) (st'.lab m) ∧ (st'.lab m).h = (st.lab m).h) ∨
     (A.addW (st.lab cur).dist c < (st.lab nb).dist ∧
        st'.opn = P.add st.opn nb (A.total (st'.lab nb)) ∧
        ((st'.lab nb).dist = A.addW (st.lab cur).dist c ∧ (st'.lab nb).prev = some cur ∧
          (st'.lab nb).opn = true) ∧
        (st'.lab nb).closed = (st.lab nb).closed ∧
        (∀ g gs, goal = g :: gs → (st'.lab nb).h = A.heur nb g) ∧
        ∀ m, m ≠ nb → st'.lab m = st.lab m)) := process_cases_of h.reach hu

/-- State invariant between iterations of the search loop. -/
structure SInv (A : Algo N C) (L : Lawful P) (start : List N) (st : SSt N C P) : Prop where
  core : Core A start st.lab
  openMem : ∀ n, (st.lab n).opn = true → L.mem st.opn n
  memReach : ∀ n, L.mem st.opn n → (st.lab n).dist ≠ ⊤
  relaxed : ∀ u, (st.lab u).closed = true → (st.lab u).opn = false →
    ∀ v c, (v, c) ∈ A.succ u → (st.lab v).dist ≤ A.addW (st.lab u).dist c
  cands : ∀ x ∈ st.cands, (st.lab x.1).closed = true

/-- The same while the neighbours of `cur` are being processed. -/
structure XInv (A : Algo N C) (L : Lawful P) (start : List N) (cur : N) (done : List (N × C))
    (st : SSt N C P) : Prop where
  core : Core A start st.lab
  openMem : ∀ n, (st.lab n).opn = true → L.mem st.opn n
  memReach : ∀ n, L.mem st.opn n → (st.lab n).dist ≠ ⊤
  curOk : (st.lab cur).closed = true ∧ (st.lab cur).opn = false
  relaxed : ∀ u, u ≠ cur → (st.lab u).closed = true → (st.lab u).opn = false →
    ∀ v c, (v, c) ∈ A.succ u → (st.lab v).dist ≤ A.addW (st.lab u).dist c
  done : ∀ v c, (v, c) ∈ done → (st.lab v).dist ≤ A.addW (st.lab cur).dist c
  cands : ∀ x ∈ st.cands, (st.lab x.1).closed = true

/-- Number of possible further improvements of labels. -/
def potential (A : Algo N C) (lab : Labels N C) : Nat :=
  ∑ n : N, ((walkCosts A (Fintype.card N)).filter (fun d : C => (d : WithTop C) < (lab n).dist)).card

theorem XInv.process (ok : CostOk A) {L : Lawful P} {start goal : List N} {cur nb : N} {c : C}
    {done : List (N × C)} {st : SSt N C P} (h : XInv A L start cur done st)
    (he : (nb, c) ∈ A.succ cur) :
    let st' := processNeighbor A goal st cur nb c
    XInv A L start cur (done ++ [(nb, c)]) st' ∧
      (∀ n, (st'.lab n).dist ≤ (st.lab n).dist) ∧
      (∀ n, (st'.lab n).closed = (st.lab n).closed) ∧
      st'.cands = st.cands ∧ st'.firstW = st.firstW ∧ st'.expansions = st.expansions ∧
      (st'.lab cur).dist = (st.lab cur).dist ∧
      potential A st'.lab ≤ potential A st.lab ∧
      (potential A st'.lab = potential A st.lab → st'.opn = st.opn) := by
  intro st'
  have hu : (st.lab cur).dist ≠ ⊤ := (h.core.reach cur).2 (.inr h.curOk.1)
  obtain ⟨hc1, hc2, hc3, hcase⟩ := process_cases (goal := goal) h.core (nb := nb) (c := c) hu
  rcases hcase with ⟨hncl, hop, hsame⟩ | ⟨hcl, hop, hv, hvc, hvh, hother⟩
  · -- nothing changes
    have hd : ∀ m, (st'.lab m).dist = (st.lab m).dist := fun m => (hsame m).1.1
    have ho : ∀ m, (st'.lab m).opn = (st.lab m).opn := fun m => (hsame m).1.2.2.1
    have hcm : ∀ m, (st'.lab m).closed = (st.lab m).closed := fun m => (hsame m).1.2.2.2
    have hop' : st'.opn = st.opn := hop
    refine ⟨⟨?_, ?_, ?_, ?_, ?_, ?_, ?_⟩, fun n => (hd n).le, hcm, hc1, hc2, hc3, hd cur, ?_,
      fun _ => hop⟩
    · exact h.core.congr (fun m => ⟨hd m, (hsame m).1.2.1⟩) (fun m => by rw [ho m, hcm m])
    · intro n hn; rw [ho n] at hn; rw [hop']; exact h.openMem n hn
    · intro n hn; rw [hop'] at hn; rw [hd n]; exact h.memReach n hn
    · rw [ho cur, hcm cur]; exact h.curOk
    · intro u hu1 hu2 hu3 v c' hvc'
      rw [hcm u] at hu2; rw [ho u] at hu3; rw [hd v, hd u]; exact h.relaxed u hu1 hu2 hu3 v c' hvc'
    · intro v c' hvc'
      rw [hd v, hd cur]
      rcases List.mem_append.1 hvc' with h1 | h1
      · exact h.done v c' h1
      · simp only [List.mem_singleton, Prod.mk.injEq] at h1
        rw [h1.1, h1.2]; exact not_lt.1 hncl
    · intro x hx; rw [hcm]; rw [hc1] at hx; exact h.cands x hx
    · unfold potential; simp only [hd]; exact le_refl _
  · -- relaxation
    have hne : cur ≠ nb := by
      rintro rfl
      exact absurd (le_addW ok he _) (not_le.2 hcl)
    have hle : ∀ n, (st'.lab n).dist ≤ (st.lab n).dist := by
      intro n
      by_cases e : n = nb
      · subst e; exact (le_of_eq hv.1).trans hcl.le
      · exact (le_of_eq (by rw [hother n e]))
    have hcm : ∀ m, (st'.lab m).closed = (st.lab m).closed := by
      intro m
      by_cases e : m = nb
      · subst e; exact hvc
      · rw [hother m e]
    have hcore : Core A start st'.lab := by
      refine h.core.relax ok hu he hcl hv (fun m hm => ?_)
      rw [hother m hm]; exact ⟨rfl, rfl, rfl, rfl⟩
    have hcurlab : st'.lab cur = st.lab cur := hother cur hne
    have hop' : st'.opn = P.add st.opn nb (A.total (st'.lab nb)) := hop
    refine ⟨⟨hcore, ?_, ?_, ?_, ?_, ?_, ?_⟩, hle, hcm, hc1, hc2, hc3, by rw [hcurlab], ?_, ?_⟩
    · intro n hn
      rw [hop']
      by_cases e : n = nb
      · subst e; exact (L.add_mem _ _ _ _).2 (.inl rfl)
      · rw [hother n e] at hn
        exact (L.add_mem _ _ _ _).2 (.inr (h.openMem n hn))
    · intro n hk
      rw [hop'] at hk
      rcases (L.add_mem _ _ _ _).1 hk with e | h1
      · rw [e, hcore.reach]; exact .inl hv.2.2
      · exact ne_top_of_le_ne_top (h.memReach n h1) (hle n)
    · rw [hcurlab]; exact h.curOk
    · intro u hu1 hu2 hu3 v c' hvc'
      by_cases e : u = nb
      · subst e; rw [hv.2.2] at hu3; cases hu3
      · rw [hother u e] at hu2 hu3 ⊢
        exact (hle v).trans (h.relaxed u hu1 hu2 hu3 v c' hvc')
    · intro v c' hvc'
      rw [hcurlab]
      rcases List.mem_append.1 hvc' with h1 | h1
      · exact (hle v).trans (h.done v c' h1)
      · simp only [List.mem_singleton, Prod.mk.injEq] at h1
        rw [h1.1, h1.2]; exact le_of_eq hv.1
    · intro x hx; rw [hcm]; rw [hc1] at hx; exact h.cands x hx
    · unfold potential
      refine Finset.sum_le_sum fun n _ => Finset.card_le_card ?_
      intro d hd
      simp only [Finset.mem_filter] at hd ⊢
      exact ⟨hd.1, lt_of_lt_of_le hd.2 (hle n)⟩
    · intro heq
      exfalso
      have : potential A st'.lab < potential A st.lab := by
        unfold potential
        refine Finset.sum_lt_sum (fun n _ => Finset.card_le_card ?_) ⟨nb, Finset.mem_univ _, ?_⟩
        · intro d hd
          simp only [Finset.mem_filter] at hd ⊢
          exact ⟨hd.1, lt_of_lt_of_le hd.2 (hle n)⟩
        · apply Finset.card_lt_card
          obtain ⟨S, k, d, h1, h2, h3, h4, h5⟩ :=
            hcore.small nb ((hcore.reach nb).2 (.inl hv.2.2))
          have hdW : d ∈ walkCosts A (Fintype.card N) :=
            walkCosts_mono (by have := Finset.card_le_univ S; omega) h4
          refine ⟨fun x hx => ?_, fun hs => ?_⟩
          · simp only [Finset.mem_filter] at hx ⊢
            exact ⟨hx.1, lt_of_lt_of_le hx.2 (hle nb)⟩
          · have hmem : d ∈ (walkCosts A (Fintype.card N)).filter
                (fun x : C => (x : WithTop C) < (st.lab nb).dist) := by
              refine Finset.mem_filter.2 ⟨hdW, ?_⟩
              rw [← h5, hv.1]; exact hcl
            have := (Finset.mem_filter.1 (hs hmem)).2
            rw [h5] at this
            exact lt_irrefl _ this
      omega

/-- Facts about processing a whole list of neighbours. -/
theorem XInv.fold (ok : CostOk A) {L : Lawful P} {start goal : List N} {cur : N} :
    ∀ (es done : List (N × C)) (st : SSt N C P), XInv A L start cur done st →
      (∀ e ∈ es, e ∈ A.succ cur) →
      let st' := es.foldl (fun s e => processNeighbor A goal s cur e.1 e.2) st
      XInv A L start cur (done ++ es) st' ∧
        (∀ n, (st'.lab n).dist ≤ (st.lab n).dist) ∧
        (∀ n, (st'.lab n).closed = (st.lab n).closed) ∧
        st'.cands = st.cands ∧ st'.firstW = st.firstW ∧ st'.expansions = st.expansions ∧
        (st'.lab cur).dist = (st.lab cur).dist ∧
        potential A st'.lab ≤ potential A st.lab ∧
        (potential A st'.lab = potential A st.lab → st'.opn = st.opn) := by
  intro es
  induction es with
  | nil =>
    intro done st h _
    simpa using h
  | cons e es ih =>
    intro done st h hes
    obtain ⟨h1, h2, h3, h4, h5, h6, h7, h8, h9⟩ :=
      h.process (goal := goal) ok (nb := e.1) (c := e.2) (hes e (List.mem_cons_self))
    obtain ⟨g1, g2, g3, g4, g5, g6, g7, g8, g9⟩ :=
      ih (done ++ [(e.1, e.2)]) _ h1 (fun x hx => hes x (List.mem_cons_of_mem _ hx))
    intro st'
    refine ⟨?_, fun n => (g2 n).trans (h2 n), fun n => (g3 n).trans (h3 n), g4.trans h4,
      g5.trans h5, g6.trans h6, g7.trans h7, g8.trans h8, fun heq => ?_⟩
    · have : done ++ e :: es = done ++ [(e.1, e.2)] ++ es := by simp
      rw [this]; exact g1
    · have e1 : potential A st'.lab ≤ _ := g8
      have : potential A (processNeighbor A goal st cur e.1 e.2).lab = potential A st.lab := by
        have e2 := h8; have : potential A st'.lab = potential A st.lab := heq; omega
      exact (g9 (by rw [this]; exact heq)).trans (h9 this)

theorem expand_spec (ok : CostOk A) {L : Lawful P} {start goal : List N} {cur : N}
    {st : SSt N C P} (h : XInv A L start cur [] st) :
    let st' := expandNode A goal st cur
    SInv A L start st' ∧
      (∀ n, (st'.lab n).dist ≤ (st.lab n).dist) ∧
      (∀ n, (st'.lab n).closed = (st.lab n).closed) ∧
      st'.cands = st.cands ∧ st'.firstW = st.firstW ∧ st'.expansions = st.expansions ∧
      potential A st'.lab ≤ potential A st.lab ∧
      (potential A st'.lab = potential A st.lab → st'.opn = st.opn) := by
  obtain ⟨g1, g2, g3, g4, g5, g6, g7, g8, g9⟩ :=
    XInv.fold (goal := goal) ok (A.succ cur) [] st h (fun e he => he)
  intro st'
  refine ⟨⟨g1.core, g1.openMem, g1.memReach, ?_, g1.cands⟩, g2, g3, g4, g5, g6, g8, g9⟩
  intro u h1 h2 v c hvc
  by_cases e : u = cur
  · subst e; exact g1.done v c (by simpa using hvc)
  · exact g1.relaxed u e h1 h2 v c hvc

/-- Popping a node. -/
theorem pop_spec {L : Lawful P} {cfg : SCfg N C} {st : SSt N C P}
    (h : SInv A L cfg.start st) {cur : N} {o : P.O} (hn : P.next st.opn = some (cur, o)) :
    let st1 := popNode A cfg st cur o
    XInv A L cfg.start cur [] st1 ∧ (∀ n, (st1.lab n).dist = (st.lab n).dist) ∧
      (∀ n, n ≠ cur → st1.lab n = st.lab n) ∧ st1.cands = st.cands ∧ st1.firstW = st.firstW ∧
      st1.expansions = st.expansions + 1 := by
  obtain ⟨hk, hsub, hsup⟩ := L.next_some _ _ _ hn
  have hcur : (st.lab cur).dist ≠ ⊤ := h.memReach cur hk
  intro st1
  have hself : st1.lab cur = { st.lab cur with
      opn := false, closed := true, expanded := true
      h := match cfg.goal with
        | [] => match cfg.heurGoal with
          | none => (st.lab cur).h
          | some H => H cur
        | g :: _ => A.heur cur g } := by
    exact setLab_self _ _ _
  have hoth : ∀ n, n ≠ cur → st1.lab n = st.lab n := fun n hne => setLab_ne _ _ hne
  have hd : ∀ n, (st1.lab n).dist = (st.lab n).dist := by
    intro n
    by_cases e : n = cur
    · subst e; rw [hself]
    · rw [hoth n e]
  refine ⟨⟨?_, ?_, ?_, ?_, ?_, ?_, ?_⟩, hd, hoth, rfl, rfl, rfl⟩
  · refine h.core.congr (fun m => ⟨hd m, ?_⟩) (fun m => ?_)
    · by_cases e : m = cur
      · subst e; rw [hself]
      · rw [hoth m e]
    · by_cases e : m = cur
      · subst e
        rw [hself]
        have := (h.core.reach m).1 hcur
        simp [this]
      · rw [hoth m e]
  · intro n hop
    by_cases e : n = cur
    · subst e; rw [hself] at hop; cases hop
    · rw [hoth n e] at hop
      rcases hsup n (h.openMem n hop) with e' | h1
      · exact absurd e' e
      · exact h1
  · intro n hk'
    rw [hd n]; exact h.memReach n (hsub n hk')
  · rw [hself]; exact ⟨rfl, rfl⟩
  · intro u hu1 hu2 hu3 v c hvc
    rw [hoth u hu1] at hu2 hu3
    rw [hd v, hd u]
    exact h.relaxed u hu2 hu3 v c hvc
  · intro v c hvc; simp at hvc
  · intro x hx
    by_cases e : x.1 = cur
    · rw [e, hself]
    · rw [hoth _ e]; exact h.cands x hx

/-- Label of a start node at the beginning of a search on fresh labels. -/
def startLabel (A : Algo N C) : Label N C :=
  { dist := (A.zero : WithTop C), h := A.zero, opn := true, closed := false, watched := false,
    expanded := false, prev := none }

@[simp] theorem startLabel_dist (A : Algo N C) : (startLabel A).dist = (A.zero : WithTop C) := rfl
@[simp] theorem startLabel_opn (A : Algo N C) : (startLabel A).opn = true := rfl
@[simp] theorem startLabel_closed (A : Algo N C) : (startLabel A).closed = false := rfl
@[simp] theorem startLabel_prev (A : Algo N C) : (startLabel A).prev = none := rfl
@[simp] theorem fresh_dist (z : C) : (Label.fresh z : Label N C).dist = ⊤ := rfl
@[simp] theorem fresh_opn (z : C) : (Label.fresh z : Label N C).opn = false := rfl
@[simp] theorem fresh_closed (z : C) : (Label.fresh z : Label N C).closed = false := rfl

/-- What the state looks like after `init` and `initStartPose` on fresh labels. -/
theorem init_facts {L : Lawful P} {cfg : SCfg N C} :
    let st := initSearch A P cfg (freshLabels A)
    (∀ n, n ∈ cfg.start → st.lab n = startLabel A) ∧
    (∀ n, n ∉ cfg.start → st.lab n = Label.fresh A.zero) ∧
    (∀ n, L.mem st.opn n → n ∈ cfg.start) ∧
    (∀ n ∈ cfg.start, L.mem st.opn n) ∧ st.cands = [] := by
  have key : ∀ (ss done : List N) (st : SSt N C P),
      (∀ n, n ∈ done → st.lab n = startLabel A) →
      (∀ n, n ∉ done → st.lab n = Label.fresh A.zero) →
      (∀ n, L.mem st.opn n → n ∈ done) →
      (∀ n ∈ done, L.mem st.opn n) →
      st.cands = [] →
      let st' := ss.foldl (addStart A) st
      (∀ n, n ∈ done ++ ss → st'.lab n = startLabel A) ∧
      (∀ n, n ∉ done ++ ss → st'.lab n = Label.fresh A.zero) ∧
      (∀ n, L.mem st'.opn n → n ∈ done ++ ss) ∧
      (∀ n ∈ done ++ ss, L.mem st'.opn n) ∧
      st'.cands = [] := by
    intro ss
    induction ss with
    | nil => intro done st h1 h2 h3 h4 h5; simpa using ⟨h1, h2, h3, h4, h5⟩
    | cons s ss ih =>
      intro done st h1 h2 h3 h4 h5
      have hs : (addStart A st s).lab s = startLabel A := by
        refine (setLab_self _ _ _).trans ?_
        by_cases hd : s ∈ done
        · rw [h1 s hd]; rfl
        · rw [h2 s hd]; rfl
      have ho : ∀ n, n ≠ s → (addStart A st s).lab n = st.lab n := fun n hn => setLab_ne _ _ hn
      have hop : (addStart A st s).opn = P.add st.opn s (A.total ((addStart A st s).lab s)) := by
        rw [show (addStart A st s).lab s = _ from setLab_self _ _ _]; rfl
      have := ih (done ++ [s]) (addStart A st s) ?_ ?_ ?_ ?_ h5
      · simpa using this
      · intro n hn
        by_cases e : n = s
        · rw [e]; exact hs
        · rw [ho n e]; simp [e] at hn; exact h1 n hn
      · intro n hn
        simp only [List.mem_append, List.mem_singleton, not_or] at hn
        rw [ho n hn.2]; exact h2 n hn.1
      · intro n hk
        rw [hop, hs] at hk
        rcases (L.add_mem _ _ _ _).1 hk with e | h6
        · simp [e]
        · simp [h3 n h6]
      · intro n hn
        rw [hop]
        rcases List.mem_append.1 hn with h6 | h6
        · exact (L.add_mem _ _ _ _).2 (.inr (h4 n h6))
        · simp only [List.mem_singleton] at h6
          subst h6
          exact (L.add_mem _ _ _ _).2 (.inl rfl)
  have := key cfg.start []
    { lab := freshLabels A, opn := P.empty, cands := [], firstW := (A.zero : WithTop C),
      expansions := 0, multi := 0, touched := 0, updates := 0 } (by simp) (by intro n _; rfl)
    (by intro n hk; exact absurd hk (L.empty_mem n)) (by simp) rfl
  simpa [initSearch] using this

/-- Initial state. -/
theorem init_inv {L : Lawful P} {cfg : SCfg N C} :
    SInv A L cfg.start (initSearch A P cfg (freshLabels A)) := by
  obtain ⟨k1, k2, k3, k4, k5⟩ := init_facts (A := A) (L := L) (cfg := cfg)
  generalize initSearch A P cfg (freshLabels A) = st at *
  have hd : ∀ n, (st.lab n).dist ≠ ⊤ ↔ n ∈ cfg.start := by
    intro n
    by_cases h : n ∈ cfg.start
    · simp [k1 n h, h]
    · simp [k2 n h, h]
  refine ⟨⟨?_, ?_, ?_, ?_, ?_, ?_, ?_⟩, ?_, ?_, ?_, ?_⟩
  · intro s hs; simp [k1 s hs]
  · intro s hs; simp [k1 s hs]
  · intro n
    by_cases hn : n ∈ cfg.start
    · simp [k1 n hn]
    · simp [k2 n hn]
  · intro n hn
    exact ⟨_, _, .start ((hd n).1 hn)⟩
  · intro n
    by_cases hn : n ∈ cfg.start
    · simp [k1 n hn]
    · simp [k2 n hn]
  · intro n hn
    have hn := (hd n).1 hn
    refine ⟨{n}, 0, A.zero, by simp, ?_, by simp, by simp [walkCosts], ?_⟩
    · intro m hm; simp only [Finset.mem_singleton] at hm; rw [hm]
    · simp [k1 n hn]
  · intro n d hn
    by_cases h : n ∈ cfg.start
    · rw [k1 n h] at hn
      simp only [startLabel_dist, WithTop.coe_eq_coe] at hn
      rw [← hn]; exact .start h
    · rw [k2 n h] at hn; simp at hn
  · intro n hn
    by_cases h : n ∈ cfg.start
    · exact k4 n h
    · simp [k2 n h] at hn
  · intro n hk
    exact (hd n).2 (k3 n hk)
  · intro u hu
    by_cases h : u ∈ cfg.start
    · simp [k1 u h] at hu
    · simp [k2 u h] at hu
  · intro x hx
    rw [k5] at hx; cases hx


/-- A goal test only touches the candidates; the results and candidates it produces satisfy
`Res` and `Good`. -/
structure TestOk (A : Algo N C) (P : OpenList N C) (start : List N) (Good : N → C → Prop)
    (Res : List N → Prop) (test : SSt N C P → N → CRes (TestOut N C P)) : Prop where
  out : ∀ st cur, Core A start st.lab → (st.lab cur).closed = true →
    ∃ t, test st cur = .ok t ∧ t.st.lab = st.lab ∧ t.st.opn = st.opn ∧
      t.st.expansions = st.expansions ∧
      (∀ x ∈ st.cands, x ∈ t.st.cands) ∧
      (∀ x ∈ t.st.cands, x ∈ st.cands ∨ (x.1 = cur ∧ Good cur x.2)) ∧
      (t.term = true → t.result ≠ [] → Res t.result)

theorem Back.ne_nil {start : List N} {lab : Labels N C} {n l d} (h : Back A start lab n l d) :
    l ≠ [] := by
  intro e; have := h.mem; rw [e] at this; cases this

/-- Result of `finish`. -/
theorem finish_spec {cfg : SCfg N C} (ht : TopOk cfg.top)
    {st : SSt N C P} (hc : Core A cfg.start st.lab)
    (hcl : ∀ x ∈ st.cands, (st.lab x.1).closed = true) :
    (st.cands = [] ∧ finish cfg st = .ok []) ∨
    (∃ x l d, x ∈ st.cands ∧ (∀ y ∈ st.cands, x.2 ≤ y.2) ∧ Back A cfg.start st.lab x.1 l d ∧
      finish cfg st = .ok l) := by
  unfold finish
  cases h : cfg.top st.cands with
  | none => exact .inl ⟨(ht.none_iff _).1 h, rfl⟩
  | some x =>
    right
    have hx := ht.mem _ _ h
    obtain ⟨l, d, hb⟩ := hc.back x.1 ((hc.reach x.1).2 (.inr (hcl x hx)))
    exact ⟨x, l, d, hx, ht.min _ _ h, hb, backtrack_ok hc.sp hb⟩

/-- What is known when the search loop ends with result `p`. -/
structure DoneOk (A : Algo N C) (cfg : SCfg N C) (Good : N → C → Prop) (Res : List N → Prop)
    (r : CRes (List N)) (st : SSt N C P) : Prop where
  core : Core A cfg.start st.lab
  closed : ∀ x ∈ st.cands, (st.lab x.1).closed = true
  good : ∀ x ∈ st.cands, Good x.1 x.2
  res : ∃ p, r = .ok p ∧ ((p = [] ∧ st.cands = []) ∨ (p ≠ [] ∧ Res p) ∨
    (∃ x l d, x ∈ st.cands ∧ (∀ y ∈ st.cands, x.2 ≤ y.2) ∧ Back A cfg.start st.lab x.1 l d ∧
      p = l))

theorem doneOk_finish {cfg : SCfg N C} (ht : TopOk cfg.top) {Good : N → C → Prop}
    {Res : List N → Prop} {st : SSt N C P} (hc : Core A cfg.start st.lab)
    (hcl : ∀ x ∈ st.cands, (st.lab x.1).closed = true) (hg : ∀ x ∈ st.cands, Good x.1 x.2) :
    DoneOk A cfg Good Res (finish cfg st) st := by
  refine ⟨hc, hcl, hg, ?_⟩
  rcases finish_spec ht hc hcl with ⟨h1, h2⟩ | ⟨x, l, d, h1, h2, h3, h4⟩
  · exact ⟨[], h2, .inl ⟨rfl, h1⟩⟩
  · exact ⟨l, h4, .inr (.inr ⟨x, l, d, h1, h2, h3, rfl⟩)⟩

/-- One iteration keeps the invariant, makes progress, or ends correctly. -/
theorem iterate_spec (ok : CostOk A) {L : Lawful P} {cfg : SCfg N C} (ht : TopOk cfg.top)
    {Good : N → C → Prop} {Res : List N → Prop}
    {test : SSt N C P → N → CRes (TestOut N C P)}
    (hok : TestOk A P cfg.start Good Res test) {st : SSt N C P}
    (h : SInv A L cfg.start st) (hg : ∀ x ∈ st.cands, Good x.1 x.2) :
    match iterate A cfg test st with
    | .more st' => SInv A L cfg.start st' ∧ (∀ x ∈ st'.cands, Good x.1 x.2) ∧
        (∀ n, (st'.lab n).dist ≤ (st.lab n).dist) ∧
        (potential A st'.lab < potential A st.lab ∨
          (potential A st'.lab = potential A st.lab ∧ L.size st'.opn < L.size st.opn))
    | .done r st' => DoneOk A cfg Good Res r st' ∧
        (∀ n, (st'.lab n).dist = (st.lab n).dist) := by
  unfold iterate
  cases hn : P.next st.opn with
  | none => exact ⟨doneOk_finish ht h.core h.cands hg, fun _ => rfl⟩
  | some co =>
    obtain ⟨cur, o⟩ := co
    simp only
    by_cases hab : cfg.abort st.expansions
    · simp only [hab, if_true]
      exact ⟨doneOk_finish ht h.core h.cands hg, fun _ => trivial⟩
    · simp only [hab, if_false, Bool.false_eq_true]
      obtain ⟨hx, hd, hoth, hcs, hf, he⟩ := pop_spec h hn
      obtain ⟨t, ht1, hlab, hopn, hexp, hmono, hcand, hres⟩ := hok.out _ cur hx.core hx.curOk.1
      simp only [ht1]
      have hcore : Core A cfg.start t.st.lab := by rw [hlab]; exact hx.core
      have hclosed : ∀ x ∈ t.st.cands, (t.st.lab x.1).closed = true := by
        intro x hx1
        rw [hlab]
        rcases hcand x hx1 with h1 | h1
        · exact hx.cands x h1
        · rw [h1.1]; exact hx.curOk.1
      have hgood : ∀ x ∈ t.st.cands, Good x.1 x.2 := by
        intro x hx1
        rcases hcand x hx1 with h1 | h1
        · exact hg x (hcs ▸ h1)
        · rw [h1.1]; exact h1.2
      have hdist : ∀ n, (t.st.lab n).dist = (st.lab n).dist := fun n => by rw [hlab]; exact hd n
      by_cases hterm : t.term = true
      · simp only [hterm, if_true]
        by_cases hr : t.result ≠ []
        · rw [if_pos hr]
          exact ⟨⟨hcore, hclosed, hgood, t.result, rfl, .inr (.inl ⟨hr, hres hterm hr⟩)⟩, hdist⟩
        · rw [if_neg hr]
          exact ⟨doneOk_finish ht hcore hclosed hgood, hdist⟩
      · simp only [hterm, if_false, Bool.false_eq_true]
        by_cases hov : (cfg.useCands && !t.st.cands.isEmpty &&
            decide (A.addW t.st.firstW cfg.oversearch < A.total (t.st.lab cur))) = true
        · simp only [hov, if_true]
          exact ⟨doneOk_finish ht hcore hclosed hgood, hdist⟩
        · simp only [hov, if_false, Bool.false_eq_true]
          have hX : XInv A L cfg.start cur [] t.st := by
            refine ⟨hcore, ?_, ?_, ?_, ?_, ?_, hclosed⟩
            · rw [hlab, hopn]; exact hx.openMem
            · rw [hlab, hopn]; exact hx.memReach
            · rw [hlab]; exact hx.curOk
            · rw [hlab]; exact hx.relaxed
            · intro v c hv; cases hv
          obtain ⟨g1, g2, g3, g4, g5, g6, g7, g8⟩ := expand_spec (goal := cfg.goal) ok hX
          have hpot : potential A t.st.lab = potential A st.lab := by
            unfold potential; simp only [hdist]
          refine ⟨g1, by rw [g4]; exact hgood, fun n => (g2 n).trans (hdist n).le, ?_⟩
          rcases lt_or_eq_of_le g7 with h7 | h7
          · left; omega
          · right
            refine ⟨by omega, ?_⟩
            rw [g8 h7, hopn]
            exact L.next_size _ _ _ hn

/-- Every run ends, correctly. -/
theorem searchLoop_spec (ok : CostOk A) {L : Lawful P} {cfg : SCfg N C} (ht : TopOk cfg.top)
    {Good : N → C → Prop} {Res : List N → Prop}
    {test : SSt N C P → N → CRes (TestOut N C P)}
    (hok : TestOk A P cfg.start Good Res test) (st : SSt N C P)
    (h : SInv A L cfg.start st) (hg : ∀ x ∈ st.cands, Good x.1 x.2) :
    ∃ fuel r st', searchLoop A cfg test fuel st = some (r, st') ∧ DoneOk A cfg Good Res r st' ∧
      (∀ n, (st'.lab n).dist ≤ (st.lab n).dist) := by
  have hs := iterate_spec ok ht hok h hg
  cases hi : iterate A cfg test st with
  | done r st' =>
    rw [hi] at hs
    exact ⟨1, r, st', by rw [searchLoop, hi], hs.1, fun n => (hs.2 n).le⟩
  | more st' =>
    rw [hi] at hs
    obtain ⟨h1, h2, h3, h4⟩ := hs
    obtain ⟨fuel, r, st2, h5, h6, h7⟩ := searchLoop_spec ok ht hok st' h1 h2
    exact ⟨fuel + 1, r, st2, by rw [searchLoop, hi]; exact h5, h6,
      fun n => (h7 n).trans (h3 n)⟩
termination_by (potential A st.lab, L.size st.opn)
decreasing_by
  rcases h4 with h4 | ⟨h4, h5⟩
  · exact Prod.Lex.left _ _ h4
  · rw [h4]; exact Prod.Lex.right _ h5

/-- More fuel does not change a result. -/
theorem searchLoop_fuel {cfg : SCfg N C} {test : SSt N C P → N → CRes (TestOut N C P)} :
    ∀ (f g : Nat) (st : SSt N C P) (x y), searchLoop A cfg test f st = some x →
      searchLoop A cfg test g st = some y → x = y := by
  intro f
  induction f with
  | zero => intro g st x y h; simp [searchLoop] at h
  | succ f ih =>
    intro g st x y h1 h2
    cases g with
    | zero => simp [searchLoop] at h2
    | succ g =>
      rw [searchLoop] at h1 h2
      cases hi : iterate A cfg test st with
      | done r st' => rw [hi] at h1 h2; simp only [Option.some.injEq] at h1 h2; rw [← h1, ← h2]
      | more st' => rw [hi] at h1 h2; exact ih g st' x y h1 h2

end PathPlanning
