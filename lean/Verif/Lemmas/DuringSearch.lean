import Verif.Model.DuringSearch
import Verif.Lemmas.SearchTest

/-!
# Invariant of a search on a changing map

`A` has the neighbours that are free at some time, `I` those that are free all the time.
-/

namespace PathPlanning
set_option linter.unusedSectionVars false

variable {N C : Type} [DecidableEq N] [LinearOrder C] [Fintype N]
variable {A : Algo N C} {P : OpenList N C} {I : N → List (N × C)}

/-- As `SInv`; closed nodes are relaxed along `I` only. -/
structure VInv (A : Algo N C) (I : N → List (N × C)) (L : Lawful P) (start : List N) (st : SSt N C P) : Prop where
  core : Core A start st.lab
  openMem : ∀ n, (st.lab n).opn = true → L.mem st.opn n
  memReach : ∀ n, L.mem st.opn n → (st.lab n).dist ≠ ⊤
  relaxed : ∀ u, (st.lab u).closed = true → (st.lab u).opn = false →
    ∀ v c, (v, c) ∈ I u → (st.lab v).dist ≤ A.addW (st.lab u).dist c
  cands : ∀ x ∈ st.cands, (st.lab x.1).closed = true

/-- As `XInv`. -/
structure VXInv (A : Algo N C) (I : N → List (N × C)) (L : Lawful P) (start : List N) (cur : N) (done : List (N × C))
    (st : SSt N C P) : Prop where
  core : Core A start st.lab
  openMem : ∀ n, (st.lab n).opn = true → L.mem st.opn n
  memReach : ∀ n, L.mem st.opn n → (st.lab n).dist ≠ ⊤
  curOk : (st.lab cur).closed = true ∧ (st.lab cur).opn = false
  relaxed : ∀ u, u ≠ cur → (st.lab u).closed = true → (st.lab u).opn = false →
    ∀ v c, (v, c) ∈ I u → (st.lab v).dist ≤ A.addW (st.lab u).dist c
  done : ∀ v c, (v, c) ∈ done → (st.lab v).dist ≤ A.addW (st.lab cur).dist c
  cands : ∀ x ∈ st.cands, (st.lab x.1).closed = true

theorem VXInv.process (ok : CostOk A) {L : Lawful P} {start goal : List N} {cur nb : N} {c : C}
    {done : List (N × C)} {st : SSt N C P} (h : VXInv A I L start cur done st)
    (he : (nb, c) ∈ A.succ cur) :
    let st' := processNeighbor A goal st cur nb c
    VXInv A I L start cur (done ++ [(nb, c)]) st' ∧
      (∀ n, (st'.lab n).closed = (st.lab n).closed) ∧
      st'.cands = st.cands ∧ st'.firstW = st.firstW ∧ st'.expansions = st.expansions ∧
      potential A st'.lab ≤ potential A st.lab ∧
      (potential A st'.lab = potential A st.lab → st'.opn = st.opn) := by
  intro st'
  have hu : (st.lab cur).dist ≠ ⊤ := (h.core.reach cur).2 (.inr h.curOk.1)
  obtain ⟨hc1, hc2, hc3, hcase⟩ := process_cases (goal := goal) h.core (nb := nb) (c := c) hu
  rcases hcase with ⟨hncl, hop, hsame⟩ | ⟨hcl, hop, hv, hvc, hvh, hother⟩
  · have hd : ∀ m, (st'.lab m).dist = (st.lab m).dist := fun m => (hsame m).1.1
    have ho : ∀ m, (st'.lab m).opn = (st.lab m).opn := fun m => (hsame m).1.2.2.1
    have hcm : ∀ m, (st'.lab m).closed = (st.lab m).closed := fun m => (hsame m).1.2.2.2
    have hop' : st'.opn = st.opn := hop
    refine ⟨⟨?_, ?_, ?_, ?_, ?_, ?_, ?_⟩, hcm, hc1, hc2, hc3, ?_, fun _ => hop⟩
    · exact h.core.congr (fun m => ⟨hd m, (hsame m).1.2.1⟩) (fun m => by rw [ho m, hcm m])
    · intro n hn; rw [ho n] at hn; rw [hop']; exact h.openMem n hn
    · intro n hn; rw [hop'] at hn; rw [hd n]; exact h.memReach n hn
    · rw [ho cur, hcm cur]; exact h.curOk
    · intro u hu1 hu2 hu3 v c' hvc'
      rw [hcm u] at hu2; rw [ho u] at hu3; rw [hd v, hd u]; exact h.relaxed u hu1 hu2 hu3 v c' hvc'
    · intro v c' hvc'
      rw [hd v, hd cur]
      rcases List.mem_append.1 hvc' with h1 | h1
      · exact h.done v c' h1
      · simp only [List.mem_singleton, Prod.mk.injEq] at h1
        rw [h1.1, h1.2]; exact not_lt.1 hncl
    · intro x hx; rw [hcm]; rw [hc1] at hx; exact h.cands x hx
    · unfold potential; simp only [hd]; exact le_refl _
  · have hne : cur ≠ nb := by
      rintro rfl
      exact absurd (le_addW ok he _) (not_le.2 hcl)
    have hle : ∀ n, (st'.lab n).dist ≤ (st.lab n).dist := by
      intro n
      by_cases e : n = nb
      · subst e; exact (le_of_eq hv.1).trans hcl.le
      · exact (le_of_eq (by rw [hother n e]))
    have hcm : ∀ m, (st'.lab m).closed = (st.lab m).closed := by
      intro m
      by_cases e : m = nb
      · subst e; exact hvc
      · rw [hother m e]
    have hcore : Core A start st'.lab := by
      refine h.core.relax ok hu he hcl hv (fun m hm => ?_)
      rw [hother m hm]; exact ⟨rfl, rfl, rfl, rfl⟩
    have hcurlab : st'.lab cur = st.lab cur := hother cur hne
    have hop' : st'.opn = P.add st.opn nb (A.total (st'.lab nb)) := hop
    refine ⟨⟨hcore, ?_, ?_, ?_, ?_, ?_, ?_⟩, hcm, hc1, hc2, hc3, ?_, ?_⟩
    · intro n hn
      rw [hop']
      by_cases e : n = nb
      · subst e; exact (L.add_mem _ _ _ _).2 (.inl rfl)
      · rw [hother n e] at hn
        exact (L.add_mem _ _ _ _).2 (.inr (h.openMem n hn))
    · intro n hk
      rw [hop'] at hk
      rcases (L.add_mem _ _ _ _).1 hk with e | h1
      · rw [e, hcore.reach]; exact .inl hv.2.2
      · exact ne_top_of_le_ne_top (h.memReach n h1) (hle n)
    · rw [hcurlab]; exact h.curOk
    · intro u hu1 hu2 hu3 v c' hvc'
      by_cases e : u = nb
      · subst e; rw [hv.2.2] at hu3; cases hu3
      · rw [hother u e] at hu2 hu3 ⊢
        exact (hle v).trans (h.relaxed u hu1 hu2 hu3 v c' hvc')
    · intro v c' hvc'
      rw [hcurlab]
      rcases List.mem_append.1 hvc' with h1 | h1
      · exact (hle v).trans (h.done v c' h1)
      · simp only [List.mem_singleton, Prod.mk.injEq] at h1
        rw [h1.1, h1.2]; exact le_of_eq hv.1
    · intro x hx; rw [hcm]; rw [hc1] at hx; exact h.cands x hx
    · unfold potential
      refine Finset.sum_le_sum fun n _ => Finset.card_le_card ?_
      intro d hd
      simp only [Finset.mem_filter] at hd ⊢
      exact ⟨hd.1, lt_of_lt_of_le hd.2 (hle n)⟩
    · intro heq
      exfalso
      have : potential A st'.lab < potential A st.lab := by
        unfold potential
        refine Finset.sum_lt_sum (fun n _ => Finset.card_le_card ?_) ⟨nb, Finset.mem_univ _, ?_⟩
        · intro d hd
          simp only [Finset.mem_filter] at hd ⊢
          exact ⟨hd.1, lt_of_lt_of_le hd.2 (hle n)⟩
        · apply Finset.card_lt_card
          obtain ⟨S, k, d, h1, h2, h3, h4, h5⟩ :=
            hcore.small nb ((hcore.reach nb).2 (.inl hv.2.2))
          have hdW : d ∈ walkCosts A (Fintype.card N) :=
            walkCosts_mono (by have := Finset.card_le_univ S; omega) h4
          refine ⟨fun x hx => ?_, fun hs => ?_⟩
          · simp only [Finset.mem_filter] at hx ⊢
            exact ⟨hx.1, lt_of_lt_of_le hx.2 (hle nb)⟩
          · have hmem : d ∈ (walkCosts A (Fintype.card N)).filter
                (fun x : C => (x : WithTop C) < (st.lab nb).dist) := by
              refine Finset.mem_filter.2 ⟨hdW, ?_⟩
              rw [← h5, hv.1]; exact hcl
            have := (Finset.mem_filter.1 (hs hmem)).2
            rw [h5] at this
            exact lt_irrefl _ this
      omega

theorem VXInv.fold (ok : CostOk A) {L : Lawful P} {start goal : List N} {cur : N} :
    ∀ (es done : List (N × C)) (st : SSt N C P), VXInv A I L start cur done st →
      (∀ e ∈ es, e ∈ A.succ cur) →
      let st' := es.foldl (fun s e => processNeighbor A goal s cur e.1 e.2) st
      VXInv A I L start cur (done ++ es) st' ∧
        (∀ n, (st'.lab n).closed = (st.lab n).closed) ∧
        st'.cands = st.cands ∧ st'.firstW = st.firstW ∧ st'.expansions = st.expansions ∧
        potential A st'.lab ≤ potential A st.lab ∧
        (potential A st'.lab = potential A st.lab → st'.opn = st.opn) := by
  intro es
  induction es with
  | nil =>
    intro done st h _
    simpa using h
  | cons e es ih =>
    intro done st h hes
    obtain ⟨h1, h3, h4, h5, h6, h8, h9⟩ :=
      h.process (goal := goal) ok (nb := e.1) (c := e.2) (hes e (List.mem_cons_self))
    obtain ⟨g1, g3, g4, g5, g6, g8, g9⟩ :=
      ih (done ++ [(e.1, e.2)]) _ h1 (fun x hx => hes x (List.mem_cons_of_mem _ hx))
    intro st'
    refine ⟨?_, fun n => (g3 n).trans (h3 n), g4.trans h4,
      g5.trans h5, g6.trans h6, g8.trans h8, fun heq => ?_⟩
    · have : done ++ e :: es = done ++ [(e.1, e.2)] ++ es := by simp
      rw [this]; exact g1
    · have e1 : potential A st'.lab ≤ _ := g8
      have : potential A (processNeighbor A goal st cur e.1 e.2).lab = potential A st.lab := by
        have e2 := h8; have : potential A st'.lab = potential A st.lab := heq; omega
      exact (g9 (by rw [this]; exact heq)).trans (h9 this)

/-- Expanding with the neighbours of one moment. -/
theorem VXInv.expand (ok : CostOk A) {L : Lawful P} {start goal : List N} {cur : N} {s : N → List (N × C)}
    (hU : ∀ u, ∀ e ∈ s u, e ∈ A.succ u) (hI : ∀ u, ∀ e ∈ I u, e ∈ s u)
    {st : SSt N C P} (h : VXInv A I L start cur [] st) :
    let st' := expandNode (A.withSucc s) goal st cur
    VInv A I L start st' ∧
      (∀ n, (st'.lab n).closed = (st.lab n).closed) ∧
      st'.cands = st.cands ∧ st'.firstW = st.firstW ∧ st'.expansions = st.expansions ∧
      potential A st'.lab ≤ potential A st.lab ∧
      (potential A st'.lab = potential A st.lab → st'.opn = st.opn) := by
  obtain ⟨g1, g3, g4, g5, g6, g8, g9⟩ :=
    VXInv.fold (goal := goal) ok (s cur) [] st h (hU cur)
  intro st'
  refine ⟨⟨g1.core, g1.openMem, g1.memReach, ?_, g1.cands⟩, g3, g4, g5, g6, g8, g9⟩
  intro u h1 h2 v c hvc
  by_cases e : u = cur
  · subst e; exact g1.done v c (by simpa using hI u _ hvc)
  · exact g1.relaxed u e h1 h2 v c hvc

theorem VInv.pop {L : Lawful P} {cfg : SCfg N C} {st : SSt N C P}
    (h : VInv A I L cfg.start st) {cur : N} {o : P.O} (hn : P.next st.opn = some (cur, o)) :
    let st1 := popNode A cfg st cur o
    VXInv A I L cfg.start cur [] st1 ∧ (∀ n, (st1.lab n).dist = (st.lab n).dist) ∧
      (∀ n, n ≠ cur → st1.lab n = st.lab n) ∧ st1.cands = st.cands ∧ st1.firstW = st.firstW ∧
      st1.expansions = st.expansions + 1 := by
  obtain ⟨hk, hsub, hsup⟩ := L.next_some _ _ _ hn
  have hcur : (st.lab cur).dist ≠ ⊤ := h.memReach cur hk
  intro st1
  have hself : st1.lab cur = { st.lab cur with
      opn := false, closed := true, expanded := true
      h := match cfg.goal with
        | [] => match cfg.heurGoal with
          | none => (st.lab cur).h
          | some H => H cur
        | g :: _ => A.heur cur g } := by
    exact setLab_self _ _ _
  have hoth : ∀ n, n ≠ cur → st1.lab n = st.lab n := fun n hne => setLab_ne _ _ hne
  have hd : ∀ n, (st1.lab n).dist = (st.lab n).dist := by
    intro n
    by_cases e : n = cur
    · subst e; rw [hself]
    · rw [hoth n e]
  refine ⟨⟨?_, ?_, ?_, ?_, ?_, ?_, ?_⟩, hd, hoth, rfl, rfl, rfl⟩
  · refine h.core.congr (fun m => ⟨hd m, ?_⟩) (fun m => ?_)
    · by_cases e : m = cur
      · subst e; rw [hself]
      · rw [hoth m e]
    · by_cases e : m = cur
      · subst e
        rw [hself]
        have := (h.core.reach m).1 hcur
        simp [this]
      · rw [hoth m e]
  · intro n hop
    by_cases e : n = cur
    · subst e; rw [hself] at hop; cases hop
    · rw [hoth n e] at hop
      rcases hsup n (h.openMem n hop) with e' | h1
      · exact absurd e' e
      · exact h1
  · intro n hk'
    rw [hd n]; exact h.memReach n (hsub n hk')
  · rw [hself]; exact ⟨rfl, rfl⟩
  · intro u hu1 hu2 hu3 v c hvc
    rw [hoth u hu1] at hu2 hu3
    rw [hd v, hd u]
    exact h.relaxed u hu2 hu3 v c hvc
  · intro v c hvc; simp at hvc
  · intro x hx
    by_cases e : x.1 = cur
    · rw [e, hself]
    · rw [hoth _ e]; exact h.cands x hx

/-! ### The goal test does not read the map -/

theorem goalLoop_withSucc (s : N → List (N × C)) {cfg : SCfg N C} {cur : N} :
    ∀ (gs : List N) (st : SSt N C P), goalLoop (A.withSucc s) cfg cur gs st = goalLoop A cfg cur gs st := by
  intro gs
  induction gs with
  | nil => intro st; rfl
  | cons g gs ih =>
    intro st
    simp only [goalLoop, ih]
    rfl

theorem poseTest_withSucc (s : N → List (N × C)) {cfg : SCfg N C} :
    poseTest (P := P) (A.withSucc s) cfg = poseTest A cfg := by
  funext st cur
  simp only [poseTest, goalLoop_withSucc]

/-- Invariant of the loop: `VInv`, and the candidates are the closed nodes of the goal region. -/
structure VLoop (A : Algo N C) (I : N → List (N × C)) (L : Lawful P) (cfg : SCfg N C) (st : SSt N C P) : Prop where
  inv : VInv A I L cfg.start st
  good : ∀ x ∈ st.cands, GoodCand A cfg x.1 x.2
  goal : ∀ n, (st.lab n).closed = true → ∀ g ∈ cfg.goal, A.isGoal g n = true →
      cfg.useCands = true ∧ (n, A.distTo g n) ∈ st.cands

theorem VLoop.init {L : Lawful P} {cfg : SCfg N C} : VLoop A I L cfg (initSearch A P cfg (freshLabels A)) := by
  obtain ⟨k1, k2, _, _, k5⟩ := init_facts (A := A) (L := L) (cfg := cfg)
  have hi := init_inv (A := A) (L := L) (cfg := cfg)
  have hcl : ∀ n, ((initSearch A P cfg (freshLabels A)).lab n).closed = false := by
    intro n
    by_cases h : n ∈ cfg.start
    · rw [k1 n h]; rfl
    · rw [k2 n h]; rfl
  refine ⟨⟨hi.core, hi.openMem, hi.memReach, ?_, hi.cands⟩, (by intro x hx; rw [k5] at hx; cases hx), ?_⟩
  · intro u hu; rw [hcl] at hu; cases hu
  · intro n hn; rw [hcl] at hn; cases hn

/-- What is known of the end of a run. -/
def VDone (A : Algo N C) (I : N → List (N × C)) (L : Lawful P) (cfg : SCfg N C) (r : CRes (List N)) (_st' : SSt N C P) : Prop :=
  ∃ p, r = .ok p ∧ (p = [] ∨ ValidPath A cfg p) ∧
    (p = [] → (∀ k, cfg.abort k = false) →
      ∃ st : SSt N C P, VLoop A I L cfg st ∧ P.next st.opn = none ∧ st.cands = [])

theorem vdone_finish {L : Lawful P} {cfg : SCfg N C} (ht : TopOk cfg.top) {st : SSt N C P} (hc : Core A cfg.start st.lab)
    (hcl : ∀ x ∈ st.cands, (st.lab x.1).closed = true) (hg : ∀ x ∈ st.cands, GoodCand A cfg x.1 x.2)
    (hemp : st.cands = [] → (∀ k, cfg.abort k = false) →
      ∃ st : SSt N C P, VLoop A I L cfg st ∧ P.next st.opn = none ∧ st.cands = []) (st' : SSt N C P) :
    VDone A I L cfg (finish cfg st) st' := by
  rcases finish_spec ht hc hcl with ⟨h1, h2⟩ | ⟨x, l, d, h1, _, h3, h4⟩
  · exact ⟨[], h2, .inl rfl, fun _ hab => hemp h1 hab⟩
  · obtain ⟨g, hg1, hg2, _⟩ := hg x h1
    exact ⟨l, h4, .inr ⟨x.1, l, d, h3.walk, .inl ⟨rfl, g, hg1, hg2⟩⟩, fun h => absurd h h3.ne_nil⟩

/-- An iteration that goes on. -/
theorem VLoop.more (ok : CostOk A) {L : Lawful P} {cfg : SCfg N C} (hx : ExpansionOk cfg)
    {s : N → List (N × C)} (hU : ∀ u, ∀ e ∈ s u, e ∈ A.succ u) (hI : ∀ u, ∀ e ∈ I u, e ∈ s u) {st st' : SSt N C P}
    (h : VLoop A I L cfg st) (hi : iterate (A.withSucc s) cfg (poseTest A cfg) st = .more st') :
    VLoop A I L cfg st' ∧
      (potential A st'.lab < potential A st.lab ∨
        (potential A st'.lab = potential A st.lab ∧ L.size st'.opn < L.size st.opn)) := by
  obtain ⟨cur, o, t, hn, _, ht1, hterm, hov, rfl⟩ := iterate_more hi
  obtain ⟨hX, hd, hoth, hcs, hf, he⟩ := h.inv.pop hn
  change poseTest A cfg (popNode A cfg st cur o) cur = .ok t at ht1
  obtain ⟨t', g1, g2, g3, g4, g5, g6, g7, g8, g9, g10, g11⟩ :=
    poseTest_spec (A := A) hx _ cur hX.core hX.curOk.1
  rw [ht1] at g1; cases g1
  have hclosed : ∀ x ∈ t.st.cands, (t.st.lab x.1).closed = true := by
    intro x hx1
    rw [g2]
    rcases g6 x hx1 with h1 | h1
    · exact hX.cands x h1
    · rw [h1.1]; exact hX.curOk.1
  have hXt : VXInv A I L cfg.start cur [] t.st := by
    refine ⟨?_, ?_, ?_, ?_, ?_, ?_, hclosed⟩
    · rw [g2]; exact hX.core
    · rw [g2, g3]; exact hX.openMem
    · rw [g2, g3]; exact hX.memReach
    · rw [g2]; exact hX.curOk
    · rw [g2]; exact hX.relaxed
    · intro v c hv; cases hv
  obtain ⟨e1, e3, e4, e5, e6, e7, e8⟩ := hXt.expand (goal := cfg.goal) ok hU hI
  have hdist : ∀ n, (t.st.lab n).dist = (st.lab n).dist := fun n => by rw [g2]; exact hd n
  have hpot : potential A t.st.lab = potential A st.lab := by
    unfold potential; simp only [hdist]
  refine ⟨⟨e1, ?_, ?_⟩, ?_⟩
  · intro x hx1
    rw [e4] at hx1
    rcases g6 x hx1 with h1 | h1
    · exact h.good x (hcs ▸ h1)
    · rw [h1.1]; exact h1.2
  · intro n hcl g hg hgg
    rw [e3 n] at hcl
    rw [e4]
    by_cases e : n = cur
    · subst e; exact g10 hterm g hg hgg
    · rw [g2, hoth n e] at hcl
      obtain ⟨h1, h2⟩ := h.goal n hcl g hg hgg
      exact ⟨h1, g5 _ (by rw [hcs]; exact h2)⟩
  · rcases lt_or_eq_of_le e7 with h7 | h7
    · left; omega
    · right
      refine ⟨by omega, ?_⟩
      rw [e8 h7, g3]
      exact L.next_size _ _ _ hn

/-- The last iteration; it does not depend on the map. -/
theorem VLoop.done {L : Lawful P} {cfg : SCfg N C} (ht : TopOk cfg.top) (hx : ExpansionOk cfg)
    {s : N → List (N × C)} {st st' : SSt N C P} {r : CRes (List N)}
    (h : VLoop A I L cfg st) (hi : iterate (A.withSucc s) cfg (poseTest A cfg) st = .done r st') : VDone A I L cfg r st' := by
  rcases iterate_done hi with ⟨hn, rfl, rfl⟩ | ⟨hab, rfl, rfl⟩ | ⟨cur, o, hn, hh⟩
  · exact vdone_finish ht h.inv.core h.inv.cands h.good (fun hc _ => ⟨_, h, hn, hc⟩) _
  · exact vdone_finish ht h.inv.core h.inv.cands h.good (fun _ hab' => by rw [hab'] at hab; cases hab) _
  · obtain ⟨hX, hd, hoth, hcs, hf, he⟩ := h.inv.pop hn
    change (poseTest A cfg (popNode A cfg st cur o) cur = .ub ∧ _) ∨
      (∃ e, poseTest A cfg (popNode A cfg st cur o) cur = .throw e ∧ _) ∨
      ∃ t, poseTest A cfg (popNode A cfg st cur o) cur = .ok t ∧ _ at hh
    obtain ⟨t, g1, g2, g3, g4, g5, g6, g7, g8, g9, g10, g11⟩ :=
      poseTest_spec (A := A) hx _ cur hX.core hX.curOk.1
    have hcore : Core A cfg.start t.st.lab := by rw [g2]; exact hX.core
    have hclosed : ∀ x ∈ t.st.cands, (t.st.lab x.1).closed = true := by
      intro x hx1
      rw [g2]
      rcases g6 x hx1 with h1 | h1
      · exact hX.cands x h1
      · rw [h1.1]; exact hX.curOk.1
    have hgood : ∀ x ∈ t.st.cands, GoodCand A cfg x.1 x.2 := by
      intro x hx1
      rcases g6 x hx1 with h1 | h1
      · exact h.good x (hcs ▸ h1)
      · rw [h1.1]; exact h1.2
    rw [g1] at hh
    rcases hh with ⟨hh, _⟩ | ⟨e, hh, _⟩ | ⟨t', hh, rfl, h3⟩
    · cases hh
    · cases hh
    · cases hh
      rcases h3 with ⟨h4, h5, h6⟩ | ⟨h4, h5, _⟩ | ⟨_, _, h5, _, h6⟩
      · exact ⟨_, h6, .inr (g8 h4).2, fun e => absurd e h5⟩
      · exact absurd h5 (g8 h4).1
      · rw [h6]
        exact vdone_finish ht hcore hclosed hgood (fun e => absurd e h5) _

namespace During

/-! ### Counting expansions -/

theorem goalLoop_expansions {cfg : SCfg N C} {cur : N} :
    ∀ (gs : List N) (st : SSt N C P) (t : TestOut N C P), goalLoop A cfg cur gs st = .ok t → t.st.expansions = st.expansions := by
  intro gs
  induction gs with
  | nil => intro st t h; rw [goalLoop] at h; cases h; rfl
  | cons g gs ih =>
    intro st t h
    rw [goalLoop] at h
    by_cases hg : A.isGoal g cur = true
    · rw [if_pos hg] at h
      by_cases hu : cfg.useCands = true
      · rw [if_pos hu] at h
        cases hacc : cfg.accept with
        | none => rw [hacc] at h; exact (ih _ _ h).trans rfl
        | some f =>
          rw [hacc] at h
          obtain ⟨p, _, h2⟩ := CRes.bind_eq_ok.1 h
          by_cases hf : f p = true
          · rw [if_pos hf] at h2; cases h2; rfl
          · rw [if_neg hf] at h2; exact (ih _ _ h2).trans rfl
      · rw [if_neg hu] at h
        obtain ⟨p, _, h2⟩ := CRes.bind_eq_ok.1 h
        cases h2; rfl
    · rw [if_neg hg] at h; exact ih _ _ h

theorem poseTest_expansions {cfg : SCfg N C} {st : SSt N C P} {cur : N} {t : TestOut N C P}
    (h : poseTest A cfg st cur = .ok t) : t.st.expansions = st.expansions := by
  unfold poseTest at h
  obtain ⟨o, _, h2⟩ := CRes.bind_eq_ok.1 h
  cases o with
  | none => exact goalLoop_expansions _ _ _ h2
  | some r => cases h2; rfl

theorem processNeighbor_expansions {goal : List N} {st : SSt N C P} {cur nb : N} {c : C} :
    (processNeighbor A goal st cur nb c).expansions = st.expansions := by
  unfold processNeighbor
  simp only
  split_ifs <;> rfl

theorem expandNode_expansions {goal : List N} {st : SSt N C P} {cur : N} :
    (expandNode A goal st cur).expansions = st.expansions := by
  unfold expandNode
  generalize A.succ cur = es
  induction es generalizing st with
  | nil => rfl
  | cons e es ih => rw [List.foldl_cons, ih, processNeighbor_expansions]

theorem more_expansions {cfg : SCfg N C} {st st' : SSt N C P} (h : iterate A cfg (poseTest A cfg) st = .more st') :
    st'.expansions = st.expansions + 1 := by
  obtain ⟨cur, o, t, _, _, ht, _, _, rfl⟩ := iterate_more h
  rw [expandNode_expansions, poseTest_expansions ht]
  rfl

theorem done_expansions {cfg : SCfg N C} {st st' : SSt N C P} {p : List N}
    (h : iterate A cfg (poseTest A cfg) st = .done (.ok p) st') : st.expansions ≤ st'.expansions := by
  rcases iterate_done h with ⟨_, rfl, _⟩ | ⟨_, rfl, _⟩ | ⟨cur, o, hn, h | h | ⟨t, ht, rfl, _⟩⟩
  · exact le_refl _
  · exact le_refl _
  · cases h.2
  · obtain ⟨e, _, h⟩ := h; cases h
  · rw [poseTest_expansions ht]
    exact Nat.le_succ _

end During

end PathPlanning
