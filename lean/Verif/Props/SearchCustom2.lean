import Verif.Props.SearchCustom

/-!
# Searches with a user supplied goal test: order of the expansions (C76)

With an empty member `goal` the estimate of a node is still `0` when the node is queued; the heuristic goal is consulted only after
the node has been taken from the queue.  With a priority queue such a search is therefore Dijkstra's algorithm, whatever the heuristic
goal.
-/

namespace PathPlanning
set_option linter.unusedSectionVars false

variable {N C : Type} [DecidableEq N] [LinearOrder C] [Fintype N]
variable {A : Algo N C} {P : OpenList N C}

/-- Nodes leave the queue in the order of their distances. -/
structure DijInv (A : Algo N C) (M : MinFirst P) (st : SSt N C P) : Prop where
  hz : ∀ n, (st.lab n).closed = false → (st.lab n).h = A.zero
  low : ∀ n k, M.ent st.opn n k → (st.lab n).dist ≤ k
  upp : ∀ n, (st.lab n).opn = true → M.ent st.opn n (st.lab n).dist
  settled : ∀ n, (st.lab n).closed = true → ∀ m k, M.ent st.opn m k → (st.lab n).dist ≤ k
  nocl : ∀ n, (st.lab n).closed = true → (st.lab n).opn = false

/-- While `cur` is expanded: an improvement found at `cur` is not smaller than any settled distance. -/
def Mono (A : Algo N C) (cur : N) (st : SSt N C P) : Prop :=
  ∀ v c, (v, c) ∈ A.succ cur → A.addW (st.lab cur).dist c < (st.lab v).dist →
    ∀ n, (st.lab n).closed = true → (st.lab n).dist ≤ A.addW (st.lab cur).dist c

theorem DijInv.congr {M : MinFirst P} {st st' : SSt N C P} (h : DijInv A M st) (ho : st'.opn = st.opn)
    (hl : ∀ m, SameLab (st.lab m) (st'.lab m) ∧ (st'.lab m).h = (st.lab m).h) : DijInv A M st' := by
  refine ⟨fun n => ?_, fun n k => ?_, fun n => ?_, fun n hn m k => ?_, fun n => ?_⟩
  · rw [(hl n).2, (hl n).1.2.2.2]; exact h.hz n
  · rw [(hl n).1.1, ho]; exact h.low n k
  · rw [(hl n).1.1, (hl n).1.2.2.1, ho]; exact h.upp n
  · rw [(hl n).1.2.2.2] at hn
    rw [(hl n).1.1, ho]; exact h.settled n hn m k
  · rw [(hl n).1.2.2.1, (hl n).1.2.2.2]; exact h.nocl n

theorem addW_zero' (hz : ∀ a, A.add a A.zero = a) (d : WithTop C) : A.addW d A.zero = d := by
  cases d with
  | top => rfl
  | coe d => simp [hz]

/-- With an empty goal list the estimate of a neighbour is not touched. -/
theorem process_h_nil (st : SSt N C P) (cur nb m : N) (c : C) :
    ((processNeighbor A [] st cur nb c).lab m).h = (st.lab m).h := by
  unfold processNeighbor
  simp only
  split_ifs <;> by_cases e : m = nb <;> simp [setLab, e]

theorem DijInv.process (hz : ∀ a, A.add a A.zero = a) {M : MinFirst P} {start : List N} {st : SSt N C P}
    (h : DijInv A M st) (hc : Core A start st.lab) {cur nb : N} {c : C} (hu : (st.lab cur).dist ≠ ⊤)
    (hcur : (st.lab cur).closed = true) (hm : Mono A cur st) (he : (nb, c) ∈ A.succ cur) :
    DijInv A M (processNeighbor A [] st cur nb c) ∧ Mono A cur (processNeighbor A [] st cur nb c) := by
  obtain ⟨_, _, _, hcase⟩ := process_cases (goal := []) hc (nb := nb) (c := c) hu
  have hh := fun m => process_h_nil (A := A) st cur nb m c
  rcases hcase with ⟨_, hop, hsame⟩ | ⟨hcl, hop, ⟨hv1, _, hv3⟩, hvc, _, hother⟩
  · generalize processNeighbor A [] st cur nb c = st' at *
    refine ⟨h.congr hop hsame, ?_⟩
    intro v c' hv hlt n hn
    rw [(hsame n).1.2.2.2] at hn
    rw [(hsame cur).1.1] at hlt ⊢
    rw [(hsame v).1.1] at hlt
    rw [(hsame n).1.1]
    exact hm v c' hv hlt n hn
  · generalize processNeighbor A [] st cur nb c = st' at *
    have hncl : (st.lab nb).closed = false := by
      by_contra hne
      exact absurd (hm nb c he hcl nb (by simpa using hne)) (not_le.2 hcl)
    have hne : cur ≠ nb := fun e => by rw [e] at hcur; rw [hcur] at hncl; cases hncl
    have htot : A.total (st'.lab nb) = (st'.lab nb).dist := by
      rw [Algo.total, hh nb, h.hz nb hncl, addW_zero' hz]
    rw [htot] at hop
    have hclosed : ∀ n, (st'.lab n).closed = (st.lab n).closed := by
      intro n
      by_cases e : n = nb
      · rw [e, hvc]
      · rw [hother n e]
    have hdle : ∀ n, (st'.lab n).dist ≤ (st.lab n).dist := by
      intro n
      by_cases e : n = nb
      · rw [e, hv1]; exact hcl.le
      · rw [hother n e]
    have hdcl : ∀ n, (st'.lab n).closed = true → (st'.lab n).dist = (st.lab n).dist := by
      intro n hn
      by_cases e : n = nb
      · rw [e, hvc, hncl] at hn; cases hn
      · rw [hother n e]
    refine ⟨⟨?_, ?_, ?_, ?_, ?_⟩, ?_⟩
    · intro n hn
      rw [hclosed] at hn
      rw [hh]; exact h.hz n hn
    · intro n k hk
      rw [hop] at hk
      rcases (M.add_ent _ _ _ _ _).1 hk with ⟨rfl, rfl⟩ | hk
      · exact le_rfl
      · exact (hdle n).trans (h.low n k hk)
    · intro n hn
      rw [hop]
      by_cases e : n = nb
      · subst e; exact (M.add_ent _ _ _ _ _).2 (.inl ⟨rfl, rfl⟩)
      · rw [hother n e] at hn ⊢
        exact (M.add_ent _ _ _ _ _).2 (.inr (h.upp n hn))
    · intro n hn m k hk
      rw [hdcl n hn]
      rw [hclosed] at hn
      rw [hop] at hk
      rcases (M.add_ent _ _ _ _ _).1 hk with ⟨rfl, rfl⟩ | hk
      · rw [hv1]; exact hm m c he hcl n hn
      · exact h.settled n hn m k hk
    · intro n hn
      rw [hclosed] at hn
      by_cases e : n = nb
      · rw [e, hncl] at hn; cases hn
      · rw [hother n e]; exact h.nocl n hn
    · intro v c' hv hlt n hn
      rw [hother cur hne] at hlt ⊢
      rw [hdcl n hn]
      rw [hclosed] at hn
      exact hm v c' hv (hlt.trans_le (hdle v)) n hn

theorem DijInv.fold (ok : CostOk A) (hz : ∀ a, A.add a A.zero = a) {L : Lawful P} {M : MinFirst P}
    {start : List N} {cur : N} :
    ∀ (es done : List (N × C)) (st : SSt N C P), XInv A L start cur done st →
      (∀ e ∈ es, e ∈ A.succ cur) → DijInv A M st → Mono A cur st →
      DijInv A M (es.foldl (fun s e => processNeighbor A [] s cur e.1 e.2) st) := by
  intro es
  induction es with
  | nil => intro done st _ _ h _; exact h
  | cons e es ih =>
    intro done st hX hes h hm
    have hu : (st.lab cur).dist ≠ ⊤ := (hX.core.reach cur).2 (.inr hX.curOk.1)
    have h1 := hX.process (goal := []) ok (nb := e.1) (c := e.2) (hes e (by simp))
    obtain ⟨h2, h3⟩ := h.process hz hX.core hu hX.curOk.1 hm (hes e (by simp))
    exact ih _ _ h1.1 (fun x hx => hes x (List.mem_cons_of_mem _ hx)) h2 h3

/-- Taking a node from the queue. -/
theorem DijInv.pop (ok : CostOk A) {L : Lawful P} {M : MinFirst P} {cfg : SCfg N C} {st : SSt N C P}
    (h : DijInv A M st) (hI : SInv A L cfg.start st) {cur : N} {o : P.O} (hn : P.next st.opn = some (cur, o)) :
    DijInv A M (popNode A cfg st cur o) ∧ Mono A cur (popNode A cfg st cur o) ∧
      ((st.lab cur).closed = false → ∀ m, (st.lab m).opn = true → (st.lab cur).dist ≤ (st.lab m).dist) := by
  obtain ⟨hmem, _, _⟩ := L.next_some _ _ _ hn
  obtain ⟨k, hk, hmin, hsub, hsup⟩ := M.next_some _ _ _ hn
  have hoth : ∀ n, n ≠ cur → (popNode A cfg st cur o).lab n = st.lab n :=
    fun n hne => setLab_ne _ _ hne
  have hself : ((popNode A cfg st cur o).lab cur).dist = (st.lab cur).dist ∧
      ((popNode A cfg st cur o).lab cur).opn = false ∧ ((popNode A cfg st cur o).lab cur).closed = true := by
    simp [popNode, setLab]
  have hopn : (popNode A cfg st cur o).opn = o := rfl
  generalize popNode A cfg st cur o = st1 at *
  have hd : ∀ n, (st1.lab n).dist = (st.lab n).dist := by
    intro n
    by_cases e : n = cur
    · rw [e]; exact hself.1
    · rw [hoth n e]
  have hlow := h.low cur k hk
  refine ⟨⟨?_, ?_, ?_, ?_, ?_⟩, ?_, ?_⟩
  · intro n hcl
    by_cases e : n = cur
    · rw [e, hself.2.2] at hcl; cases hcl
    · rw [hoth n e] at hcl ⊢; exact h.hz n hcl
  · intro n k' hk'
    rw [hd]; rw [hopn] at hk'; exact h.low n k' (hsub n k' hk')
  · intro n hop
    by_cases e : n = cur
    · rw [e, hself.2.1] at hop; cases hop
    · rw [hoth n e] at hop ⊢
      rw [hopn]
      rcases hsup n _ (h.upp n hop) with ⟨e', _⟩ | h3
      · exact absurd e' e
      · exact h3
  · intro n hcl m k' hk'
    rw [hopn] at hk'
    rw [hd]
    by_cases e : n = cur
    · rw [e]; exact hlow.trans (hmin m k' (hsub m k' hk'))
    · rw [hoth n e] at hcl; exact h.settled n hcl m k' (hsub m k' hk')
  · intro n hcl
    by_cases e : n = cur
    · rw [e]; exact hself.2.1
    · rw [hoth n e] at hcl ⊢; exact h.nocl n hcl
  · intro v c hv hlt n hcl
    rw [hd, hd] at hlt
    rw [hd, hd]
    by_cases hc : (st.lab cur).closed = true
    · exact absurd (hI.relaxed cur hc (h.nocl cur hc) v c hv) (not_le.2 hlt)
    · have hop : (st.lab cur).opn = true := by
        rcases (hI.core.reach cur).1 (hI.memReach cur hmem) with h1 | h1
        · exact h1
        · exact absurd h1 hc
      have hkle : k ≤ (st.lab cur).dist := hmin cur _ (h.upp cur hop)
      refine le_trans ?_ (le_addW ok hv _)
      by_cases e : n = cur
      · rw [e]
      · rw [hoth n e] at hcl
        exact (h.settled n hcl cur k hk).trans hkle
  · intro _ m hm
    exact hlow.trans (hmin m _ (h.upp m hm))

theorem DijInv.init (hz : ∀ a, A.add a A.zero = a) {M : MinFirst P} {cfg : SCfg N C} (L : Lawful P) :
    DijInv A M (initSearch A P cfg (freshLabels A)) := by
  have key : ∀ (ss done : List N) (st : SSt N C P),
      (∀ n, (st.lab n).h = A.zero) →
      (∀ n k, M.ent st.opn n k → n ∈ done ∧ k = (A.zero : WithTop C)) →
      (∀ n ∈ done, M.ent st.opn n (A.zero : WithTop C)) →
      (∀ n, ((ss.foldl (addStart A) st).lab n).h = A.zero) ∧
      (∀ n k, M.ent (ss.foldl (addStart A) st).opn n k → n ∈ done ++ ss ∧ k = (A.zero : WithTop C)) ∧
      (∀ n ∈ done ++ ss, M.ent (ss.foldl (addStart A) st).opn n (A.zero : WithTop C)) := by
    intro ss
    induction ss with
    | nil => intro done st h1 h2 h3; simpa using ⟨h1, h2, h3⟩
    | cons s ss ih =>
      intro done st h1 h2 h3
      have hop : (addStart A st s).opn = P.add st.opn s (A.zero : WithTop C) := by
        show P.add st.opn s _ = _
        rw [Algo.total]
        simp only [h1 s, addW_coe, hz]
      have := ih (done ++ [s]) (addStart A st s) ?_ ?_ ?_
      · simpa using this
      · intro n
        by_cases e : n = s
        · subst e; simp [addStart, setLab, h1]
        · simp [addStart, setLab, h1, e]
      · intro n k hk
        rw [hop] at hk
        rcases (M.add_ent _ _ _ _ _).1 hk with ⟨e, e2⟩ | hk
        · simp [e, e2]
        · simp [h2 n k hk]
      · intro n hn
        rw [hop]
        rcases List.mem_append.1 hn with h4 | h4
        · exact (M.add_ent _ _ _ _ _).2 (.inr (h3 n h4))
        · simp only [List.mem_singleton] at h4
          exact (M.add_ent _ _ _ _ _).2 (.inl ⟨h4, rfl⟩)
  have hk := key cfg.start []
    { lab := freshLabels A, opn := P.empty, cands := [], firstW := (A.zero : WithTop C),
      expansions := 0, multi := 0, touched := 0, updates := 0 } (fun n => rfl)
    (fun n k h => absurd h (M.empty_ent n k)) (by simp)
  simp only [List.nil_append] at hk
  obtain ⟨k1, k2, _, _, _⟩ := init_facts (A := A) (L := L) (cfg := cfg)
  have hncl : ∀ n, ((initSearch A P cfg (freshLabels A)).lab n).closed = false := by
    intro n
    by_cases hs : n ∈ cfg.start
    · simp [k1 n hs]
    · simp [k2 n hs]
  refine ⟨fun n _ => hk.1 n, ?_, ?_, ?_, ?_⟩
  · intro n k hent
    obtain ⟨h1, rfl⟩ := hk.2.1 n k hent
    rw [k1 n h1, startLabel_dist]
  · intro n hop
    by_cases hs : n ∈ cfg.start
    · rw [k1 n hs, startLabel_dist]; exact hk.2.2 n hs
    · rw [k2 n hs] at hop; cases hop
  · intro n hn; rw [hncl] at hn; cases hn
  · intro n hn; rw [hncl] at hn; cases hn

/-- Every walk is covered by settled nodes or its cost is at least the distance of an open node. -/
theorem frontier_le (ok : CostOk A) {L : Lawful P} {start : List N} {st : SSt N C P}
    (h : SInv A L start st) {n : N} {d : C} (hr : Reach A start n d) :
    ((st.lab n).closed = true ∧ (st.lab n).opn = false ∧ (st.lab n).dist ≤ (d : WithTop C)) ∨
    ∃ m, (st.lab m).opn = true ∧ (st.lab m).dist ≤ (d : WithTop C) := by
  induction hr with
  | @start s hs =>
    have hd := h.core.s0 _ hs
    by_cases ho : (st.lab s).opn = true
    · exact .inr ⟨s, ho, hd.le⟩
    · left
      have := (h.core.reach _).1 (by rw [hd]; simp)
      simp only [ho] at this
      exact ⟨by simpa using this, by simpa using ho, hd.le⟩
  | @step u v d c _ he ih =>
    rcases ih with ⟨h1, h2, h3⟩ | ⟨m, h1, h2⟩
    · have hle2 : (st.lab v).dist ≤ ((A.add d c : C) : WithTop C) := by
        refine (h.relaxed u h1 h2 v c he).trans ?_
        rw [← addW_coe]
        exact addW_mono ok h3 c
      by_cases ho : (st.lab v).opn = true
      · exact .inr ⟨v, ho, hle2⟩
      · left
        have := (h.core.reach v).1 (ne_top_of_le_ne_top (by simp) hle2)
        simp only [ho] at this
        exact ⟨by simpa using this, by simpa using ho, hle2⟩
    · exact .inr ⟨m, h1, h2.trans (WithTop.coe_le_coe.2 (ok.infl u v c he d))⟩

/-- Invariant of a search for a region: the region has not been entered. -/
def RegionInv (A : Algo N C) (L : Lawful P) (M : MinFirst P) (start : List N) (R : N → Prop) (st : SSt N C P) : Prop :=
  SInv A L start st ∧ DijInv A M st ∧ st.cands = [] ∧ ∀ n, (st.lab n).closed = true → ¬ R n

theorem customDij_pres (ok : CostOk A) (hz : ∀ a, A.add a A.zero = a) {L : Lawful P} {M : MinFirst P}
    {cfg : SCfg N C} {T : GoalTest N C P} {st st' : SSt N C P}
    (hI : SInv A L cfg.start st) (hD : DijInv A M st) (hg : cfg.goal = [])
    (hi : iterate A cfg (customTest A T) st = .more st') : DijInv A M st' := by
  obtain ⟨cur, o, t, hn, hX, ht1, hlab, hopn, hXt, _, rfl⟩ := custom_more hI hi
  obtain ⟨h1, h2, _⟩ := hD.pop ok (cfg := cfg) hI hn
  rw [hg]
  refine DijInv.fold (L := L) ok hz _ [] _ hXt (fun e he => he)
    (h1.congr hopn fun m => by rw [hlab]; exact ⟨⟨rfl, rfl, rfl, rfl⟩, rfl⟩) ?_
  intro v c hv
  rw [hlab]
  exact h2 v c hv

theorem RegionInv.pres (ok : CostOk A) (hz : ∀ a, A.add a A.zero = a) {L : Lawful P} {M : MinFirst P}
    {cfg : SCfg N C} (hg : cfg.goal = []) (ht : TopOk cfg.top) {T : GoalTest N C P} {R : N → Prop} (hT : TestsRegion T R)
    {st st' : SSt N C P} (h : RegionInv A L M cfg.start R st)
    (hi : iterate A cfg (customTest A T) st = .more st') : RegionInv A L M cfg.start R st' := by
  obtain ⟨hI, hD, hc, hR⟩ := h
  have hs := iterate_spec ok ht (customTest_ok (A := A) T cfg.start) hI (by rw [hc]; simp)
  rw [hi] at hs
  refine ⟨hs.1, customDij_pres ok hz hI hD hg hi, ?_⟩
  obtain ⟨cur, o, t, hn, hX, ht1, hlab, hopn, hXt, hterm, rfl⟩ := custom_more hI hi
  obtain ⟨_, _, hoth, hcs, _⟩ := pop_spec hI hn
  obtain ⟨t', g1, _, _, _, _, g6, _, g8, _⟩ := customTest_spec (A := A) T (popNode A cfg st cur o) cur
  rw [ht1] at g1; cases g1
  obtain ⟨_, _, e3, e4, _⟩ := expand_spec (goal := cfg.goal) ok hXt
  have hnR : ¬ R cur := by
    intro hr
    obtain ⟨w, hw⟩ := (hT (popNode A cfg st cur o) cur).1 hr
    rw [hw] at g6
    rw [hterm] at g6
    cases g6
  have hnone := (hT (popNode A cfg st cur o) cur).2 hnR
  constructor
  · rw [e4]
    by_contra hne
    obtain ⟨x, hx⟩ := List.exists_mem_of_ne_nil _ hne
    rcases g8 x hx with h1 | ⟨_, h1⟩
    · rw [hcs, hc] at h1; cases h1
    · rw [hnone] at h1; cases h1
  · intro n hcl
    rw [e3 n, hlab] at hcl
    by_cases e : n = cur
    · rw [e]; exact hnR
    · rw [hoth n e] at hcl; exact hR n hcl

/-- **C76.**  The search for a region with a priority queue returns a cheapest path into the region, for every heuristic
goal: no estimate, however wrong, makes it return a longer path.  The costs are those accumulated along the path, in
whatever monotone arithmetic.  The clock may interrupt the search at any time. -/
theorem region_search_shortest (ok : CostOk A) (hz : ∀ a, A.add a A.zero = a) (L : Lawful P) (M : MinFirst P)
    (cfg : SCfg N C) (ht : TopOk cfg.top) (T : GoalTest N C P) {R : N → Prop} (hT : TestsRegion T R) {fuel : Nat}
    {p : List N} {st' : SSt N C P} (hrun : findPathCustom A P cfg T (freshLabels A) fuel = some (.ok p, st'))
    (hp : p ≠ []) :
    ∃ t d, WalkTo A cfg.start t p d ∧ R t ∧ ∀ n e, Reach A cfg.start n e → R n → d ≤ e := by
  have hinit : RegionInv A L M (customCfg cfg T).start R (initSearch A P (customCfg cfg T) (freshLabels A)) := by
    obtain ⟨k1, k2, _, _, k5⟩ := init_facts (A := A) (L := L) (cfg := customCfg cfg T)
    refine ⟨init_inv, DijInv.init hz L, k5, ?_⟩
    intro n hn
    by_cases h : n ∈ cfg.start
    · simp [k1 n h] at hn
    · simp [k2 n h] at hn
  obtain ⟨st1, ⟨hI, hD, hc, hR⟩, hi⟩ := run_last (I := RegionInv A L M (customCfg cfg T).start R)
    (fun st st2 h hi => RegionInv.pres ok hz (cfg := customCfg cfg T) rfl ht hT h hi) fuel _ st' _ hrun hinit
  have hfin0 : finish (customCfg cfg T) st1 = .ok [] := by
    rcases finish_spec (cfg := customCfg cfg T) ht hI.core hI.cands with ⟨_, h⟩ | ⟨x, _, _, h, _⟩
    · exact h
    · rw [hc] at h; cases h
  rcases iterate_done hi with ⟨_, rfl, h⟩ | ⟨_, rfl, h⟩ | ⟨cur, o, hn, h⟩
  · rw [hfin0] at h; cases h; exact absurd rfl hp
  · rw [hfin0] at h; cases h; exact absurd rfl hp
  · obtain ⟨hX, hdist, _, hcs, _⟩ := pop_spec (cfg := customCfg cfg T) hI hn
    obtain ⟨t, g1, g2, _, _, g5, g6, _, g8, g9⟩ :=
      customTest_spec (A := A) T (popNode A (customCfg cfg T) st1 cur o) cur
    rw [g1] at h
    have hcl : ∀ x ∈ t.st.cands, (t.st.lab x.1).closed = true := by
      intro x hx1
      rw [g2]
      rcases g8 x hx1 with h1 | h1
      · exact hX.cands x h1
      · rw [h1.1]; exact hX.curOk.1
    have hx : ∀ x ∈ t.st.cands, x.1 = cur ∧ (T.terminate (popNode A (customCfg cfg T) st1 cur o) cur).1 = some x.2 := by
      intro x hx1
      rcases g8 x hx1 with h1 | h1
      · rw [hcs, hc] at h1; cases h1
      · exact h1
    have main : .ok p = finish (customCfg cfg T) t.st →
        ∃ t d, WalkTo A cfg.start t p d ∧ R t ∧ ∀ n e, Reach A cfg.start n e → R n → d ≤ e := fun h6 => by
      rcases finish_spec (A := A) (cfg := customCfg cfg T) ht (by rw [g2]; exact hX.core) hcl with
        ⟨_, h7⟩ | ⟨x, l, d, h7, _, hb, h8⟩
      · rw [h7] at h6; cases h6; exact absurd rfl hp
      · rw [h8] at h6; cases h6
        obtain ⟨hxc, hxw⟩ := hx x h7
        rw [hxc] at hb
        have hRc : R cur := by
          by_contra hno
          rw [(hT _ cur).2 hno] at hxw; cases hxw
        refine ⟨cur, d, hb.walk, hRc, ?_⟩
        intro n e hr hRn
        have hcost := hb.cost_le ok (by rw [g2]; exact hX.core.s0)
        rw [g2, hdist] at hcost
        rw [← WithTop.coe_le_coe]
        refine hcost.trans ?_
        have hnc : (st1.lab cur).closed = false := by
          by_contra hne
          exact hR cur (by simpa using hne) hRc
        rcases frontier_le ok hI hr with ⟨h1, _⟩ | ⟨m, h1, h2⟩
        · exact absurd hRn (hR n h1)
        · exact ((hD.pop ok (cfg := customCfg cfg T) hI hn).2.2 hnc m h1).trans h2
    rcases h with ⟨h, _⟩ | ⟨e, h, _⟩ | ⟨t', h, rfl, h3⟩
    · cases h
    · cases h
    · cases h
      rcases h3 with ⟨_, h5, _⟩ | ⟨_, _, h6⟩ | ⟨_, _, _, _, h6⟩
      · exact absurd g5 h5
      · exact main h6
      · exact main h6

end PathPlanning
