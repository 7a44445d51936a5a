import Verif.Props.Search

/-!
# Optimality of the generic search and goal candidates (C27, C33)
-/

namespace PathPlanning
set_option linter.unusedSectionVars false

variable {N C : Type} [DecidableEq N] [LinearOrder C] [Fintype N]
variable [AddCommMonoid C] [IsOrderedAddMonoid C]
variable {A : Algo N C} {P : OpenList N C}

/-- Exact, non-negative cost arithmetic. -/
structure ExactCosts (A : Algo N C) : Prop where
  zero : A.zero = 0
  add : ∀ a b, A.add a b = a + b
  nonneg : ∀ u v c, (v, c) ∈ A.succ u → 0 ≤ c

theorem ExactCosts.ok (h : ExactCosts A) : CostOk A where
  infl u v c he a := by rw [h.add]; exact le_add_of_nonneg_right (h.nonneg u v c he)
  mono a b c hab := by rw [h.add, h.add]; exact add_le_add_left hab c

/-- The heuristic value of `n` for the goal list: the estimate for the first goal node. -/
def hval (A : Algo N C) (goal : List N) (n : N) : C :=
  match goal with
  | [] => 0
  | g :: _ => A.heur n g

/-- Invariant of the entries of the priority queue. -/
structure EntInv (A : Algo N C) (M : MinFirst P) (cfg : SCfg N C) (st : SSt N C P) : Prop where
  lower : ∀ n k, M.ent st.opn n k → n ∉ cfg.start →
    A.addW (st.lab n).dist (hval A cfg.goal n) ≤ k
  upper : ∀ n, (st.lab n).opn = true →
    ∃ k, M.ent st.opn n k ∧ k ≤ A.addW (st.lab n).dist (hval A cfg.goal n)

theorem EntInv.process {M : MinFirst P} {cfg : SCfg N C} {g0 : N} {gs : List N}
    (hg : cfg.goal = g0 :: gs) (hE : ExactCosts A) {st : SSt N C P} (h : EntInv A M cfg st)
    (hc : Core A cfg.start st.lab) {cur nb : N} {c : C} (hu : (st.lab cur).dist ≠ ⊤) :
    EntInv A M cfg (processNeighbor A cfg.goal st cur nb c) := by
  obtain ⟨_, _, _, hcase⟩ := process_cases (goal := cfg.goal) hc (nb := nb) (c := c) hu
  rcases hcase with ⟨_, hop, hsame⟩ | ⟨hcl, hop, hv, _, hvh, hother⟩
  · generalize processNeighbor A cfg.goal st cur nb c = st' at *
    constructor
    · intro n k hk hn
      rw [hop] at hk; rw [(hsame n).1.1]; exact h.lower n k hk hn
    · intro n hn
      rw [(hsame n).1.2.2.1] at hn
      rw [hop, (hsame n).1.1]; exact h.upper n hn
  · generalize processNeighbor A cfg.goal st cur nb c = st' at *
    have htot : A.total (st'.lab nb) = A.addW (st'.lab nb).dist (hval A cfg.goal nb) := by
      unfold Algo.total hval
      rw [hvh g0 gs hg, hg]
    constructor
    · intro n k hk hn
      rw [hop] at hk
      rcases (M.add_ent _ _ _ _ _).1 hk with ⟨rfl, rfl⟩ | hk2
      · exact htot.ge
      · by_cases e : n = nb
        · subst e
          refine le_trans ?_ (h.lower n k hk2 hn)
          exact addW_mono hE.ok (by rw [hv.1]; exact hcl.le) _
        · rw [hother n e]; exact h.lower n k hk2 hn
    · intro n hn
      rw [hop]
      by_cases e : n = nb
      · subst e
        exact ⟨_, (M.add_ent _ _ _ _ _).2 (.inl ⟨rfl, rfl⟩), htot.le⟩
      · rw [hother n e] at hn ⊢
        obtain ⟨k, h1, h2⟩ := h.upper n hn
        exact ⟨k, (M.add_ent _ _ _ _ _).2 (.inr h1), h2⟩

theorem EntInv.fold {L : Lawful P} {M : MinFirst P} {cfg : SCfg N C} {g0 : N} {gs : List N}
    (hg : cfg.goal = g0 :: gs) (hE : ExactCosts A) {cur : N} :
    ∀ (es done : List (N × C)) (st : SSt N C P), XInv A L cfg.start cur done st →
      (∀ e ∈ es, e ∈ A.succ cur) → EntInv A M cfg st →
      EntInv A M cfg (es.foldl (fun s e => processNeighbor A cfg.goal s cur e.1 e.2) st) := by
  intro es
  induction es with
  | nil => intro done st _ _ h; exact h
  | cons e es ih =>
    intro done st hX hes h
    have hu : (st.lab cur).dist ≠ ⊤ := (hX.core.reach cur).2 (.inr hX.curOk.1)
    have h1 := hX.process (goal := cfg.goal) hE.ok (nb := e.1) (c := e.2) (hes e (by simp))
    exact ih _ _ h1.1 (fun x hx => hes x (List.mem_cons_of_mem _ hx))
      (h.process hg hE hX.core hu)

theorem EntInv.pop {M : MinFirst P} {cfg : SCfg N C} {st : SSt N C P} (h : EntInv A M cfg st)
    {cur : N} {o : P.O} (hn : P.next st.opn = some (cur, o)) :
    EntInv A M cfg (popNode A cfg st cur o) := by
  obtain ⟨k, _, _, hsub, hsup⟩ := M.next_some _ _ _ hn
  have hoth : ∀ n, n ≠ cur → (popNode A cfg st cur o).lab n = st.lab n :=
    fun n hne => setLab_ne _ _ hne
  have hself : ((popNode A cfg st cur o).lab cur).dist = (st.lab cur).dist ∧
      ((popNode A cfg st cur o).lab cur).opn = false := by
    simp [popNode, setLab]
  have hd : ∀ n, ((popNode A cfg st cur o).lab n).dist = (st.lab n).dist := by
    intro n
    by_cases e : n = cur
    · rw [e]; exact hself.1
    · rw [hoth n e]
  constructor
  · intro n k' hk hns
    rw [hd]; exact h.lower n k' (hsub n k' hk) hns
  · intro n hop
    by_cases e : n = cur
    · rw [e, hself.2] at hop; cases hop
    · rw [hoth n e] at hop ⊢
      obtain ⟨k', h1, h2⟩ := h.upper n hop
      rcases hsup n k' h1 with ⟨e', _⟩ | h3
      · exact absurd e' e
      · exact ⟨k', h3, h2⟩

theorem EntInv.init {M : MinFirst P} {cfg : SCfg N C} (hE : ExactCosts A)
    (hH : ∀ s ∈ cfg.start, 0 ≤ hval A cfg.goal s) (L : Lawful P) :
    EntInv A M cfg (initSearch A P cfg (freshLabels A)) := by
  have key : ∀ (ss done : List N) (st : SSt N C P),
      (∀ n, (st.lab n).h = A.zero) →
      (∀ n k, M.ent st.opn n k → n ∈ done) →
      (∀ n ∈ done, M.ent st.opn n ((0 : C) : WithTop C)) →
      (∀ n k, M.ent (ss.foldl (addStart A) st).opn n k → n ∈ done ++ ss) ∧
      (∀ n ∈ done ++ ss, M.ent (ss.foldl (addStart A) st).opn n ((0 : C) : WithTop C)) := by
    intro ss
    induction ss with
    | nil => intro done st _ h2 h3; simpa using ⟨h2, h3⟩
    | cons s ss ih =>
      intro done st h1 h2 h3
      have hop : (addStart A st s).opn = P.add st.opn s ((0 : C) : WithTop C) := by
        show P.add st.opn s _ = _
        rw [Algo.total]
        simp only [h1 s, addW_coe, hE.zero, hE.add, add_zero]
      have := ih (done ++ [s]) (addStart A st s) ?_ ?_ ?_
      · simpa using this
      · intro n
        by_cases e : n = s
        · subst e; simp [addStart, setLab, h1]
        · simp [addStart, setLab, h1, e]
      · intro n k hk
        rw [hop] at hk
        rcases (M.add_ent _ _ _ _ _).1 hk with ⟨e, _⟩ | hk
        · simp [e]
        · simp [h2 n k hk]
      · intro n hn
        rw [hop]
        rcases List.mem_append.1 hn with h4 | h4
        · exact (M.add_ent _ _ _ _ _).2 (.inr (h3 n h4))
        · simp only [List.mem_singleton] at h4
          exact (M.add_ent _ _ _ _ _).2 (.inl ⟨h4, rfl⟩)
  have hk := key cfg.start []
    { lab := freshLabels A, opn := P.empty, cands := [], firstW := (A.zero : WithTop C),
      expansions := 0, multi := 0, touched := 0, updates := 0 } (fun n => rfl)
    (fun n k h => absurd h (M.empty_ent n k)) (by simp)
  simp only [List.nil_append] at hk
  obtain ⟨k1, k2, _, _, _⟩ := init_facts (A := A) (L := L) (cfg := cfg)
  constructor
  · intro n k hent hns
    exact absurd (hk.1 n k hent) hns
  · intro n hop
    by_cases hs : n ∈ cfg.start
    · refine ⟨_, hk.2 n hs, ?_⟩
      rw [k1 n hs]
      simp only [startLabel_dist, addW_coe, hE.zero, hE.add, zero_add, WithTop.coe_le_coe]
      exact hH n hs
    · rw [k2 n hs] at hop; cases hop

/-- The node taken from the open list has the smallest estimated total cost. -/
theorem pop_min {M : MinFirst P} {cfg : SCfg N C} {st : SSt N C P}
    (h : EntInv A M cfg st) {cur : N} {o : P.O}
    (hn : P.next st.opn = some (cur, o)) (hns : cur ∉ cfg.start) {m : N}
    (hm : (st.lab m).opn = true) :
    A.addW (st.lab cur).dist (hval A cfg.goal cur) ≤
      A.addW (st.lab m).dist (hval A cfg.goal m) := by
  obtain ⟨k, hk, hmin, _, _⟩ := M.next_some _ _ _ hn
  obtain ⟨km, h1, h2⟩ := h.upper m hm
  exact (h.lower cur k hk hns).trans ((hmin m km h1).trans h2)

/-- Every walk is covered by closed nodes or crosses the set of open nodes. -/
theorem frontier (hE : ExactCosts A) {L : Lawful P} {start : List N} {st : SSt N C P}
    (h : SInv A L start st) {n : N} {d : C} (hr : Reach A start n d) :
    ((st.lab n).closed = true ∧ (st.lab n).opn = false ∧ (st.lab n).dist ≤ (d : WithTop C)) ∨
    ∃ (m : N) (dm c : C), (st.lab m).opn = true ∧ (st.lab m).dist ≤ (dm : WithTop C) ∧
      Reach A [m] n c ∧ dm + c = d := by
  induction hr with
  | @start s hs =>
    have hd := h.core.s0 _ hs
    by_cases ho : (st.lab s).opn = true
    · right
      exact ⟨s, 0, 0, ho, by rw [hd, hE.zero], hE.zero ▸ .start (by simp), by rw [hE.zero]; simp⟩
    · left
      have := (h.core.reach _).1 (by rw [hd]; simp)
      simp only [ho] at this
      exact ⟨by simpa using this, by simpa using ho, hd.le⟩
  | @step u v d c _ he ih =>
    rcases ih with ⟨h1, h2, h3⟩ | ⟨m, dm, c', h1, h2, h3, h4⟩
    · have hle := h.relaxed u h1 h2 v c he
      have hle2 : (st.lab v).dist ≤ ((A.add d c : C) : WithTop C) := by
        refine hle.trans ?_
        rw [← addW_coe]
        exact addW_mono hE.ok h3 c
      by_cases ho : (st.lab v).opn = true
      · right
        exact ⟨v, A.add d c, 0, ho, hle2, hE.zero ▸ .start (by simp), by simp⟩
      · left
        have := (h.core.reach v).1 (ne_top_of_le_ne_top (by simp) hle2)
        simp only [ho] at this
        exact ⟨by simpa using this, by simpa using ho, hle2⟩
    · right
      refine ⟨m, dm, A.add c' c, h1, h2, .step h3 he, ?_⟩
      rw [hE.add, hE.add, ← h4, add_assoc]

/-- Non-negative estimates, which never exceed the cost of a walk into the goal region plus a
bonus `B` of its end node. -/
structure Admissible (A : Algo N C) (goal : List N) (H B : N → C) : Prop where
  nonneg : ∀ n, 0 ≤ H n
  le : ∀ m t c, Reach A [m] t c → InGoalRegion A goal t → H m ≤ c + B t

/-- The heuristic obeys the triangle inequality along edges. -/
structure Consistent (A : Algo N C) (H : N → C) : Prop where
  nonneg : ∀ n, 0 ≤ H n
  tri : ∀ u v c, (v, c) ∈ A.succ u → H u ≤ c + H v

theorem Consistent.walk {H : N → C} (hE : ExactCosts A) (h : Consistent A H) {m t : N} {c : C}
    (hr : Reach A [m] t c) : H m ≤ c + H t := by
  induction hr with
  | start hs => simp only [List.mem_singleton] at hs; rw [hs, hE.zero, zero_add]
  | @step u v d c _ he ih =>
    rw [hE.add, add_assoc]
    exact ih.trans (add_le_add_right (h.tri u v c he) d)

/-- A consistent heuristic is admissible with its own value as bonus. -/
theorem Consistent.admissible {H : N → C} (hE : ExactCosts A) (h : Consistent A H)
    (goal : List N) : Admissible A goal H H :=
  ⟨h.nonneg, fun _ _ _ hr _ => h.walk hE hr⟩

theorem Reach.split_start {start : List N} {t : N} {d : C} (hr : Reach A start t d) :
    ∃ s ∈ start, Reach A [s] t d := by
  induction hr with
  | @start s hs => exact ⟨s, hs, .start (by simp)⟩
  | step _ he ih =>
    obtain ⟨s, hs, h⟩ := ih
    exact ⟨s, hs, .step h he⟩

/-- Lower bound for every walk into the goal region at the moment `cur` is taken off the open
list, unless its end has been settled before. -/
theorem popped_le (hE : ExactCosts A) {L : Lawful P} {M : MinFirst P} {cfg : SCfg N C}
    {st : SSt N C P} (h : EntInv A M cfg st) (hi : SInv A L cfg.start st) {B : N → C}
    (hadm : Admissible A cfg.goal (hval A cfg.goal) B) {cur : N} {o : P.O}
    (hn : P.next st.opn = some (cur, o))
    (hst : cur ∈ cfg.start → ∀ s ∈ cfg.start, hval A cfg.goal cur ≤ hval A cfg.goal s)
    {t : N} {d : C} (hr : Reach A cfg.start t d) (ht : InGoalRegion A cfg.goal t) :
    ((st.lab t).closed = true ∧ (st.lab t).opn = false) ∨
      A.addW (st.lab cur).dist (hval A cfg.goal cur) ≤ ((d + B t : C) : WithTop C) := by
  by_cases hns : cur ∈ cfg.start
  · right
    rw [hi.core.s0 cur hns, addW_coe, hE.zero, hE.add, zero_add, WithTop.coe_le_coe]
    obtain ⟨s, hs, hr'⟩ := hr.split_start
    exact (hst hns s hs).trans (hadm.le s t d hr' ht)
  · rcases frontier hE hi hr with ⟨h1, h2, _⟩ | ⟨m, dm, c, h1, h2, h3, h4⟩
    · exact .inl ⟨h1, h2⟩
    · right
      refine (pop_min h hn hns h1).trans ((addW_mono hE.ok h2 _).trans ?_)
      rw [addW_coe, hE.add, WithTop.coe_le_coe, ← h4, add_assoc]
      exact add_le_add_right (hadm.le m t c h3 ht) dm

/-- Invariants of a min-first search. -/
def OptInv (A : Algo N C) (L : Lawful P) (M : MinFirst P) (cfg : SCfg N C) (st : SSt N C P) :
    Prop :=
  CandInv A L cfg st ∧ EntInv A M cfg st

theorem OptInv.pres (hE : ExactCosts A) {L : Lawful P} {M : MinFirst P} {cfg : SCfg N C}
    (ht : TopOk cfg.top) (hx : ExpansionOk cfg) {g0 : N} {gs : List N}
    (hg : cfg.goal = g0 :: gs) {st st' : SSt N C P} (h : OptInv A L M cfg st)
    (hi : iterate A cfg (poseTest A cfg) st = .more st') : OptInv A L M cfg st' := by
  refine ⟨h.1.pres hE.ok ht hx hi, ?_⟩
  obtain ⟨cur, o, t, hn, hX, ht1, hlab, hopn, hXt, hterm, _, rfl⟩ := pose_more hx h.1.1 hi
  have hp := h.2.pop (A := A) hn
  refine EntInv.fold (L := L) hg hE _ [] _ hXt (fun e he => he) ?_
  constructor
  · rw [hlab, hopn]; exact hp.lower
  · rw [hlab, hopn]; exact hp.upper

/-- **C27 (optimality, general form).**  Min-priority open list, exact non-negative costs, no
goal candidates, no analytic expansion, an admissible heuristic (with bonus `B`): a non-empty
result is a walk from a start node into the goal region whose cost plus estimate is at most the
cost plus bonus of every other walk into the goal region.  (Start nodes are queued before their
estimate is known, hence the hypothesis on start nodes inside the goal region.)  The clock may
interrupt the search at any time. -/
theorem search_optimal_general (hE : ExactCosts A) (L : Lawful P) (M : MinFirst P)
    (cfg : SCfg N C) (ht : TopOk cfg.top) (hx : ∀ k n g, cfg.canExpand k n g = none)
    (huse : cfg.useCands = false) {B : N → C}
    (hadm : Admissible A cfg.goal (hval A cfg.goal) B)
    (hst : ∀ s ∈ cfg.start, InGoalRegion A cfg.goal s → ∀ s' ∈ cfg.start,
      hval A cfg.goal s ≤ hval A cfg.goal s')
    {fuel : Nat} {p : List N} {st' : SSt N C P}
    (hrun : findPathNodes A P cfg (freshLabels A) fuel = some (.ok p, st')) (hp : p ≠ []) :
    ∃ t d, WalkTo A cfg.start t p d ∧ InGoalRegion A cfg.goal t ∧
      ∀ t' d', Reach A cfg.start t' d' → InGoalRegion A cfg.goal t' →
        d + hval A cfg.goal t ≤ d' + B t' := by
  have hxo : ExpansionOk cfg := ⟨fun k s g _ => hx k s g, fun k n g e h => by rw [hx] at h; cases h⟩
  -- without goal nodes there is no path
  cases hg : cfg.goal with
  | nil =>
    exfalso
    obtain ⟨t, d, _, ⟨g, hgm, _⟩, _⟩ := path_cost_le_stored hE.ok L cfg ht hx hrun hp
    rw [hg] at hgm; cases hgm
  | cons g0 gs =>
    rw [← hg]
    obtain ⟨st1, hI, hi⟩ := run_last (I := OptInv A L M cfg)
      (fun st st2 h hi => OptInv.pres hE ht hxo hg h hi) fuel _ st' _ hrun
      ⟨CandInv.init, EntInv.init hE (fun s _ => hadm.nonneg s) L⟩
    -- no candidates are ever recorded
    have hcl0 : ∀ n, (st1.lab n).closed = true → ¬ InGoalRegion A cfg.goal n := by
      rintro n hn ⟨g, hgm, hgg⟩
      have := (hI.1.2.2 n hn g hgm hgg).1
      rw [huse] at this; cases this
    have hc0 : st1.cands = [] := by
      cases hcs : st1.cands with
      | nil => rfl
      | cons x xs =>
        exfalso
        have hx1 : x ∈ st1.cands := by rw [hcs]; simp
        obtain ⟨g, h1, h2, _⟩ := hI.1.2.1 x hx1
        exact hcl0 x.1 (hI.1.1.cands x hx1) ⟨g, h1, h2⟩
    have hf0 : finish cfg st1 = .ok [] := by
      unfold finish
      rw [hc0, (ht.none_iff []).2 rfl]
    rcases iterate_done hi with ⟨_, _, h⟩ | ⟨_, _, h⟩ | ⟨cur, o, hn, h⟩
    · rw [hf0] at h; cases h; exact absurd rfl hp
    · rw [hf0] at h; cases h; exact absurd rfl hp
    · obtain ⟨hX, hd, _, hcs, _⟩ := pop_spec hI.1.1 hn
      obtain ⟨t, g1, g2, _, _, _, _, g7, g8, g9, _⟩ :=
        poseTest_spec (A := A) hxo _ cur hX.core hX.curOk.1
      rw [g1] at h
      rcases h with ⟨h, _⟩ | ⟨e, h, _⟩ | ⟨t', h, rfl, h3⟩
      · cases h
      · cases h
      · cases h
        rcases h3 with ⟨h4, h5, h6⟩ | ⟨h4, h5, _⟩ | ⟨_, h5, _⟩
        · cases h6
          obtain ⟨d, hb, hreg⟩ := g9 h4 hx
          refine ⟨cur, d, hb.walk, hreg, ?_⟩
          intro t' d' hr' hreg'
          have hdle : (d : WithTop C) ≤ (st1.lab cur).dist := by
            rw [← hd cur]; exact hb.cost_le hE.ok hX.core.s0
          rcases popped_le hE hI.2 hI.1.1 hadm hn (fun hs => hst cur hs hreg) hr' hreg' with
            ⟨h7, _⟩ | h7
          · exact absurd hreg' (hcl0 t' h7)
          · have := (addW_mono hE.ok hdle (hval A cfg.goal cur)).trans h7
            rwa [addW_coe, hE.add, WithTop.coe_le_coe] at this
        · exact absurd h5 (g8 h4).1
        · rw [huse] at h5; cases h5

/-- **C27 (A\*).**  With a consistent heuristic the returned path minimises cost + estimate at
the end among all walks into the goal region. -/
theorem search_optimal_consistent (hE : ExactCosts A) (L : Lawful P) (M : MinFirst P)
    (cfg : SCfg N C) (ht : TopOk cfg.top) (hx : ∀ k n g, cfg.canExpand k n g = none)
    (huse : cfg.useCands = false) (hcon : Consistent A (hval A cfg.goal))
    (hst : ∀ s ∈ cfg.start, InGoalRegion A cfg.goal s → ∀ s' ∈ cfg.start,
      hval A cfg.goal s ≤ hval A cfg.goal s')
    {fuel : Nat} {p : List N} {st' : SSt N C P}
    (hrun : findPathNodes A P cfg (freshLabels A) fuel = some (.ok p, st')) (hp : p ≠ []) :
    ∃ t d, WalkTo A cfg.start t p d ∧ InGoalRegion A cfg.goal t ∧
      ∀ t' d', Reach A cfg.start t' d' → InGoalRegion A cfg.goal t' →
        d + hval A cfg.goal t ≤ d' + hval A cfg.goal t' :=
  search_optimal_general hE L M cfg ht hx huse (hcon.admissible hE cfg.goal) hst hrun hp

/-- **C27 (admissible heuristic).**  If the estimate never exceeds the cost of a walk into the
goal region, the returned path is a cheapest walk into the goal region.  Consistency is not
needed: improved closed nodes are reopened. -/
theorem search_optimal_admissible (hE : ExactCosts A) (L : Lawful P) (M : MinFirst P)
    (cfg : SCfg N C) (ht : TopOk cfg.top) (hx : ∀ k n g, cfg.canExpand k n g = none)
    (huse : cfg.useCands = false) (hH : ∀ n, 0 ≤ hval A cfg.goal n)
    (hadm : ∀ m t c, Reach A [m] t c → InGoalRegion A cfg.goal t → hval A cfg.goal m ≤ c)
    {fuel : Nat} {p : List N} {st' : SSt N C P}
    (hrun : findPathNodes A P cfg (freshLabels A) fuel = some (.ok p, st')) (hp : p ≠ []) :
    ∃ t d, WalkTo A cfg.start t p d ∧ InGoalRegion A cfg.goal t ∧
      ∀ t' d', Reach A cfg.start t' d' → InGoalRegion A cfg.goal t' → d ≤ d' := by
  have h0 : ∀ s, InGoalRegion A cfg.goal s → hval A cfg.goal s ≤ 0 := fun s hs =>
    hadm s s 0 (hE.zero ▸ .start (by simp)) hs
  obtain ⟨t, d, h1, h2, h3⟩ := search_optimal_general hE L M cfg ht hx huse (B := fun _ => 0)
    ⟨hH, fun m t c hr hreg => by simpa using hadm m t c hr hreg⟩
    (fun s _ hreg s' _ => (h0 s hreg).trans (hH s')) hrun hp
  refine ⟨t, d, h1, h2, fun t' d' hr' hreg' => ?_⟩
  have := h3 t' d' hr' hreg'
  rw [add_zero] at this
  exact (le_add_of_nonneg_right (hH t)).trans this

/-- **C27 (Dijkstra).**  With the zero heuristic the returned path is a cheapest walk of free
nodes from a start node into the goal region. -/
theorem dijkstra_optimal (hE : ExactCosts A) (L : Lawful P) (M : MinFirst P)
    (cfg : SCfg N C) (ht : TopOk cfg.top) (hx : ∀ k n g, cfg.canExpand k n g = none)
    (huse : cfg.useCands = false) (hzero : ∀ n g, A.heur n g = 0)
    {fuel : Nat} {p : List N} {st' : SSt N C P}
    (hrun : findPathNodes A P cfg (freshLabels A) fuel = some (.ok p, st')) (hp : p ≠ []) :
    ∃ t d, WalkTo A cfg.start t p d ∧ InGoalRegion A cfg.goal t ∧
      ∀ t' d', Reach A cfg.start t' d' → InGoalRegion A cfg.goal t' → d ≤ d' := by
  have hz : ∀ n, hval A cfg.goal n = 0 := by
    intro n; unfold hval; cases cfg.goal <;> simp [hzero]
  refine search_optimal_admissible hE L M cfg ht hx huse (fun n => (hz n).ge) ?_ hrun hp
  intro m t c hr hreg
  rw [hz m]
  clear hreg
  induction hr with
  | start _ => rw [hE.zero]
  | @step u v d c _ he ih => rw [hE.add]; exact add_nonneg ih (hE.nonneg u v c he)

/-! ### Goal candidates and oversearch -/

/-- Invariant: once there is a candidate, `first_candidate_weight` is at least the estimated
total cost of some reachable node of the goal region. -/
def FirstInv (A : Algo N C) (cfg : SCfg N C) (st : SSt N C P) : Prop :=
  st.cands ≠ [] → ∃ t d, Reach A cfg.start t d ∧ InGoalRegion A cfg.goal t ∧
    ((d + hval A cfg.goal t : C) : WithTop C) ≤ st.firstW

/-- First candidate: how the bound of `FirstInv` arises from the goal test at `cur`. -/
theorem first_after_test (hE : ExactCosts A) {L : Lawful P} {cfg : SCfg N C}
    (hx : ExpansionOk cfg) {st : SSt N C P} (hs : SInv A L cfg.start st)
    (hf : FirstInv A cfg st) {cur : N} {o : P.O} (hn : P.next st.opn = some (cur, o))
    {t : TestOut N C P} (ht1 : poseTest A cfg (popNode A cfg st cur o) cur = .ok t) :
    FirstInv A cfg t.st := by
  obtain ⟨hX, hd, _, hcs, hfw, _⟩ := pop_spec hs hn
  obtain ⟨t', g1, g2, _, _, g5, g6, _, _, _, _, g11, g12⟩ :=
    poseTest_spec (A := A) hx _ cur hX.core hX.curOk.1
  rw [ht1] at g1; cases g1
  intro hne
  by_cases he : st.cands = []
  · rw [g11 hne (by rw [hcs]; exact he)]
    obtain ⟨x, hx1⟩ := List.exists_mem_of_ne_nil _ hne
    rcases g6 x hx1 with h1 | ⟨_, g, hg, hgg, _⟩
    · rw [hcs, he] at h1; cases h1
    · obtain ⟨l, d, hb⟩ := hX.core.back cur ((hX.core.reach cur).2 (.inr hX.curOk.1))
      refine ⟨cur, d, hb.walk.reach, ⟨g, hg, hgg⟩, ?_⟩
      have hh : ((popNode A cfg st cur o).lab cur).h = hval A cfg.goal cur := by
        have : cfg.goal ≠ [] := List.ne_nil_of_mem hg
        cases hgl : cfg.goal with
        | nil => exact absurd hgl this
        | cons a as => simp [popNode, setLab, hval, hgl]
      unfold Algo.total
      rw [hh, ← hE.add, ← addW_coe]
      exact addW_mono hE.ok (hb.cost_le hE.ok hX.core.s0) _
  · rw [g12 (by rw [hcs]; exact he), hfw]
    exact hf he

/-- **C33.**  Oversearch with a min-priority open list and a consistent heuristic, no time
limit: the returned path ends in a node of the goal region that is nearest (`distTo`) to its
goal node among *all* reachable nodes of the goal region whose estimated total cost exceeds the
smallest possible one by at most the oversearch distance. -/
theorem oversearch_exhaustive (hE : ExactCosts A) (L : Lawful P) (M : MinFirst P)
    (cfg : SCfg N C) (ht : TopOk cfg.top) (hx : ∀ k n g, cfg.canExpand k n g = none)
    (hacc : cfg.accept = none) (huse : cfg.useCands = true)
    (hab : ∀ k, cfg.abort k = false) (hcon : Consistent A (hval A cfg.goal))
    (hst : ∀ s ∈ cfg.start, ∀ s' ∈ cfg.start, hval A cfg.goal s ≤ hval A cfg.goal s')
    {fuel : Nat} {p : List N} {st' : SSt N C P}
    (hrun : findPathNodes A P cfg (freshLabels A) fuel = some (.ok p, st')) (hp : p ≠ []) :
    ∃ t d g, WalkTo A cfg.start t p d ∧ g ∈ cfg.goal ∧ A.isGoal g t = true ∧
      ∀ t' d' g', Reach A cfg.start t' d' → g' ∈ cfg.goal → A.isGoal g' t' = true →
        (∀ t2 d2, Reach A cfg.start t2 d2 → InGoalRegion A cfg.goal t2 →
          d' + hval A cfg.goal t' ≤ d2 + hval A cfg.goal t2 + cfg.oversearch) →
        A.distTo g t ≤ A.distTo g' t' := by
  have hxo : ExpansionOk cfg := ⟨fun k s g _ => hx k s g, fun k n g e h => by rw [hx] at h; cases h⟩
  cases hg : cfg.goal with
  | nil =>
    exfalso
    obtain ⟨t, d, _, ⟨g, hgm, _⟩, _⟩ := path_cost_le_stored hE.ok L cfg ht hx hrun hp
    rw [hg] at hgm; cases hgm
  | cons g0 gs =>
    rw [← hg]
    have hpres : ∀ st st2, (OptInv A L M cfg st ∧ FirstInv A cfg st) →
        iterate A cfg (poseTest A cfg) st = .more st2 →
        (OptInv A L M cfg st2 ∧ FirstInv A cfg st2) := by
      intro st st2 h hi
      refine ⟨OptInv.pres hE ht hxo hg h.1 hi, ?_⟩
      obtain ⟨cur, o, t, hn, _, ht1, _, _, hXt, _, _, rfl⟩ := pose_more hxo h.1.1.1 hi
      have hF := first_after_test hE hxo h.1.1.1 h.2 hn ht1
      obtain ⟨_, _, _, e4, e5, _⟩ := expand_spec (goal := cfg.goal) hE.ok hXt
      unfold FirstInv
      rw [e4, e5]
      exact hF
    obtain ⟨st1, hI, hi⟩ := run_last hpres fuel _ st' _ hrun
      ⟨⟨CandInv.init, EntInv.init hE (fun s _ => hcon.nonneg s) L⟩, by
        intro hne
        exact absurd (init_facts (A := A) (L := L) (cfg := cfg)).2.2.2.2 hne⟩
    -- how a final state with a complete candidate list gives the claim
    have hfin : ∀ st : SSt N C P, Core A cfg.start st.lab →
        (∀ x ∈ st.cands, (st.lab x.1).closed = true) →
        (∀ x ∈ st.cands, GoodCand A cfg x.1 x.2) → finish cfg st = .ok p →
        (∀ t' d' g', Reach A cfg.start t' d' → g' ∈ cfg.goal → A.isGoal g' t' = true →
          (∀ t2 d2, Reach A cfg.start t2 d2 → InGoalRegion A cfg.goal t2 →
            d' + hval A cfg.goal t' ≤ d2 + hval A cfg.goal t2 + cfg.oversearch) →
          (t', A.distTo g' t') ∈ st.cands) →
        ∃ t d g, WalkTo A cfg.start t p d ∧ g ∈ cfg.goal ∧ A.isGoal g t = true ∧
          ∀ t' d' g', Reach A cfg.start t' d' → g' ∈ cfg.goal → A.isGoal g' t' = true →
            (∀ t2 d2, Reach A cfg.start t2 d2 → InGoalRegion A cfg.goal t2 →
              d' + hval A cfg.goal t' ≤ d2 + hval A cfg.goal t2 + cfg.oversearch) →
            A.distTo g t ≤ A.distTo g' t' := by
      intro st hc hcl hgood hf hall
      rcases finish_spec ht hc hcl with ⟨_, h2⟩ | ⟨x, l, d, h1, hmin, h3, h4⟩
      · rw [h2] at hf; cases hf; exact absurd rfl hp
      · rw [h4] at hf; cases hf
        obtain ⟨g, hg1, hg2, hg3⟩ := hgood x h1
        refine ⟨x.1, d, g, h3.walk, hg1, hg2, ?_⟩
        intro t' d' g' hr' hg' hgg' hnear
        rw [← hg3]
        exact hmin _ (hall t' d' g' hr' hg' hgg' hnear)
    rcases iterate_done hi with ⟨hn, rfl, h⟩ | ⟨h, _⟩ | ⟨cur, o, hn, h⟩
    · refine hfin _ hI.1.1.1.core hI.1.1.1.cands hI.1.1.2.1 h.symm ?_
      intro t' d' g' hr' hg' hgg' _
      exact (hI.1.1.2.2 t' (all_closed hE.ok hI.1.1.1 hn hr').1 g' hg' hgg').2
    · rw [hab] at h; cases h
    · obtain ⟨hX, hd, hoth, hcs, _⟩ := pop_spec hI.1.1.1 hn
      obtain ⟨t, g1, g2, _, _, g5, g6, _, _, g9, g10, _⟩ :=
        poseTest_spec (A := A) hxo _ cur hX.core hX.curOk.1
      have hcore : Core A cfg.start t.st.lab := by rw [g2]; exact hX.core
      have hcl : ∀ x ∈ t.st.cands, (t.st.lab x.1).closed = true := by
        intro x hx1
        rw [g2]
        rcases g6 x hx1 with h1 | h1
        · exact hX.cands x h1
        · rw [h1.1]; exact hX.curOk.1
      have hgood : ∀ x ∈ t.st.cands, GoodCand A cfg x.1 x.2 := by
        intro x hx1
        rcases g6 x hx1 with h1 | h1
        · exact hI.1.1.2.1 x (hcs ▸ h1)
        · rw [h1.1]; exact h1.2
      have hterm0 : t.term = false := by
        -- without a callback the goal test never terminates the search itself
        have hnt : ∀ (gl : List N) (s : SSt N C P), ∀ q, goalLoop A cfg cur gl s = .ok q →
            q.term = false := by
          intro gl
          induction gl with
          | nil => intro s q hq; rw [goalLoop] at hq; cases hq; rfl
          | cons a as ih =>
            intro s q hq
            rw [goalLoop] at hq
            by_cases hga : A.isGoal a cur = true
            · simp only [hga, if_true, huse, hacc] at hq; exact ih _ q hq
            · simp only [hga, if_false, Bool.false_eq_true] at hq; exact ih _ q hq
        have hel : ∀ gl : List N, expansionLoop cfg cur (popNode A cfg st1 cur o) gl = .ok none := by
          intro gl
          induction gl with
          | nil => rfl
          | cons a as ih => rw [expansionLoop, hx]; exact ih
        have := g1
        unfold poseTest at this
        rw [hel] at this
        exact hnt _ _ _ this
      have hgg1 := g1
      rw [g1] at h
      rcases h with ⟨h, _⟩ | ⟨e, h, _⟩ | ⟨t', h, rfl, h3⟩
      · cases h
      · cases h
      · cases h
        rcases h3 with ⟨h4, _⟩ | ⟨h4, _⟩ | ⟨_, _, h5, h6, h7⟩
        · rw [hterm0] at h4; cases h4
        · rw [hterm0] at h4; cases h4
        · refine hfin _ hcore hcl hgood h7.symm ?_
          intro t' d' g' hr' hg' hgg' hnear
          -- bound on the estimated cost of t'
          obtain ⟨t1, d1, hr1, hreg1, hle1⟩ := first_after_test hE hxo hI.1.1.1 hI.2 hn hgg1 h5
          have hbound : ((d' + hval A cfg.goal t' : C) : WithTop C) <
              A.addW (st1.lab cur).dist (hval A cfg.goal cur) := by
            have hh : A.total (t.st.lab cur) =
                A.addW (st1.lab cur).dist (hval A cfg.goal cur) := by
              rw [g2]
              unfold Algo.total
              rw [hd cur]
              simp [popNode, setLab, hval, hg]
            rw [← hh]
            refine lt_of_le_of_lt ?_ h6
            refine le_trans ?_ (addW_mono hE.ok hle1 _)
            rw [addW_coe, hE.add, WithTop.coe_le_coe]
            exact hnear t1 d1 hr1 hreg1
          rcases popped_le hE hI.1.2 hI.1.1.1 (hcon.admissible hE cfg.goal) hn
            (fun hs s hs' => hst cur hs s hs') hr' ⟨g', hg', hgg'⟩ with ⟨h8, _⟩ | h8
          · have := (hI.1.1.2.2 t' h8 g' hg' hgg').2
            exact g5 _ (by rw [hcs]; exact this)
          · exact absurd h8 (not_le.2 hbound)

end PathPlanning
