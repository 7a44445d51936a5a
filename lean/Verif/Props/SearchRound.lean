import Verif.Props.Search

/-!
# Optimality of the search in rounded arithmetic (C87)

The search of `Model/Search.lean` with any cost type whose addition is monotone and never makes a path cheaper
(`CostOk`): neither associativity nor commutativity of the addition is used.  `Cont` is the cost of continuing a walk:
costs are accumulated from left to right, as the search does.
-/

namespace PathPlanning
set_option linter.unusedSectionVars false

variable {N C : Type} [DecidableEq N] [LinearOrder C] [Fintype N]
variable {A : Algo N C} {P : OpenList N C}

/-- Accumulating the costs of a walk `m :: l` from `m` to `n` on top of `d0` gives `d`. -/
inductive Cont (A : Algo N C) (m : N) (d0 : C) : N → List N → C → Prop
  | refl : Cont A m d0 m [] d0
  | step {u v l d c} : Cont A m d0 u l d → (v, c) ∈ A.succ u → Cont A m d0 v (l ++ [v]) (A.add d c)

theorem Cont.walk {start : List N} {m n : N} {d0 d : C} {l1 l2 : List N} (h1 : WalkTo A start m l1 d0)
    (h2 : Cont A m d0 n l2 d) : WalkTo A start n (l1 ++ l2) d := by
  induction h2 with
  | refl => simpa using h1
  | step _ he ih => rw [← List.append_assoc]; exact .step ih he

/-- The heuristic value of `n` for the goal list: the estimate for the first goal node. -/
def hvalR (A : Algo N C) (goal : List N) (n : N) : C :=
  match goal with
  | [] => A.zero
  | g :: _ => A.heur n g

/-- Invariant of the entries of the priority queue. -/
structure EntInvR (A : Algo N C) (M : MinFirst P) (cfg : SCfg N C) (st : SSt N C P) : Prop where
  lower : ∀ n k, M.ent st.opn n k → n ∉ cfg.start →
    A.addW (st.lab n).dist (hvalR A cfg.goal n) ≤ k
  upper : ∀ n, (st.lab n).opn = true →
    ∃ k, M.ent st.opn n k ∧ k ≤ A.addW (st.lab n).dist (hvalR A cfg.goal n)

theorem EntInvR.process {M : MinFirst P} {cfg : SCfg N C} {g0 : N} {gs : List N}
    (hg : cfg.goal = g0 :: gs) (hE : CostOk A) {st : SSt N C P} (h : EntInvR A M cfg st)
    (hc : Core A cfg.start st.lab) {cur nb : N} {c : C} (hu : (st.lab cur).dist ≠ ⊤) :
    EntInvR A M cfg (processNeighbor A cfg.goal st cur nb c) := by
  obtain ⟨_, _, _, hcase⟩ := process_cases (goal := cfg.goal) hc (nb := nb) (c := c) hu
  rcases hcase with ⟨_, hop, hsame⟩ | ⟨hcl, hop, hv, _, hvh, hother⟩
  · generalize processNeighbor A cfg.goal st cur nb c = st' at *
    constructor
    · intro n k hk hn
      rw [hop] at hk; rw [(hsame n).1.1]; exact h.lower n k hk hn
    · intro n hn
      rw [(hsame n).1.2.2.1] at hn
      rw [hop, (hsame n).1.1]; exact h.upper n hn
  · generalize processNeighbor A cfg.goal st cur nb c = st' at *
    have htot : A.total (st'.lab nb) = A.addW (st'.lab nb).dist (hvalR A cfg.goal nb) := by
      unfold Algo.total hvalR
      rw [hvh g0 gs hg, hg]
    constructor
    · intro n k hk hn
      rw [hop] at hk
      rcases (M.add_ent _ _ _ _ _).1 hk with ⟨rfl, rfl⟩ | hk2
      · exact htot.ge
      · by_cases e : n = nb
        · subst e
          refine le_trans ?_ (h.lower n k hk2 hn)
          exact addW_mono hE (by rw [hv.1]; exact hcl.le) _
        · rw [hother n e]; exact h.lower n k hk2 hn
    · intro n hn
      rw [hop]
      by_cases e : n = nb
      · subst e
        exact ⟨_, (M.add_ent _ _ _ _ _).2 (.inl ⟨rfl, rfl⟩), htot.le⟩
      · rw [hother n e] at hn ⊢
        obtain ⟨k, h1, h2⟩ := h.upper n hn
        exact ⟨k, (M.add_ent _ _ _ _ _).2 (.inr h1), h2⟩

theorem EntInvR.fold {L : Lawful P} {M : MinFirst P} {cfg : SCfg N C} {g0 : N} {gs : List N}
    (hg : cfg.goal = g0 :: gs) (hE : CostOk A) {cur : N} :
    ∀ (es done : List (N × C)) (st : SSt N C P), XInv A L cfg.start cur done st →
      (∀ e ∈ es, e ∈ A.succ cur) → EntInvR A M cfg st →
      EntInvR A M cfg (es.foldl (fun s e => processNeighbor A cfg.goal s cur e.1 e.2) st) := by
  intro es
  induction es with
  | nil => intro done st _ _ h; exact h
  | cons e es ih =>
    intro done st hX hes h
    have hu : (st.lab cur).dist ≠ ⊤ := (hX.core.reach cur).2 (.inr hX.curOk.1)
    have h1 := hX.process (goal := cfg.goal) hE (nb := e.1) (c := e.2) (hes e (by simp))
    exact ih _ _ h1.1 (fun x hx => hes x (List.mem_cons_of_mem _ hx))
      (h.process hg hE hX.core hu)

theorem EntInvR.pop {M : MinFirst P} {cfg : SCfg N C} {st : SSt N C P} (h : EntInvR A M cfg st)
    {cur : N} {o : P.O} (hn : P.next st.opn = some (cur, o)) :
    EntInvR A M cfg (popNode A cfg st cur o) := by
  obtain ⟨k, _, _, hsub, hsup⟩ := M.next_some _ _ _ hn
  have hoth : ∀ n, n ≠ cur → (popNode A cfg st cur o).lab n = st.lab n :=
    fun n hne => setLab_ne _ _ hne
  have hself : ((popNode A cfg st cur o).lab cur).dist = (st.lab cur).dist ∧
      ((popNode A cfg st cur o).lab cur).opn = false := by
    simp [popNode, setLab]
  have hd : ∀ n, ((popNode A cfg st cur o).lab n).dist = (st.lab n).dist := by
    intro n
    by_cases e : n = cur
    · rw [e]; exact hself.1
    · rw [hoth n e]
  constructor
  · intro n k' hk hns
    rw [hd]; exact h.lower n k' (hsub n k' hk) hns
  · intro n hop
    by_cases e : n = cur
    · rw [e, hself.2] at hop; cases hop
    · rw [hoth n e] at hop ⊢
      obtain ⟨k', h1, h2⟩ := h.upper n hop
      rcases hsup n k' h1 with ⟨e', _⟩ | h3
      · exact absurd e' e
      · exact ⟨k', h3, h2⟩

theorem EntInvR.init {M : MinFirst P} {cfg : SCfg N C}
    (hH : ∀ s ∈ cfg.start, A.add A.zero A.zero ≤ A.add A.zero (hvalR A cfg.goal s)) (L : Lawful P) :
    EntInvR A M cfg (initSearch A P cfg (freshLabels A)) := by
  have key : ∀ (ss done : List N) (st : SSt N C P),
      (∀ n, (st.lab n).h = A.zero) →
      (∀ n k, M.ent st.opn n k → n ∈ done) →
      (∀ n ∈ done, M.ent st.opn n ((A.add A.zero A.zero : C) : WithTop C)) →
      (∀ n k, M.ent (ss.foldl (addStart A) st).opn n k → n ∈ done ++ ss) ∧
      (∀ n ∈ done ++ ss, M.ent (ss.foldl (addStart A) st).opn n ((A.add A.zero A.zero : C) : WithTop C)) := by
    intro ss
    induction ss with
    | nil => intro done st _ h2 h3; simpa using ⟨h2, h3⟩
    | cons s ss ih =>
      intro done st h1 h2 h3
      have hop : (addStart A st s).opn = P.add st.opn s ((A.add A.zero A.zero : C) : WithTop C) := by
        show P.add st.opn s _ = _
        rw [Algo.total]
        simp only [h1 s, addW_coe]
      have := ih (done ++ [s]) (addStart A st s) ?_ ?_ ?_
      · simpa using this
      · intro n
        by_cases e : n = s
        · subst e; simp [addStart, setLab, h1]
        · simp [addStart, setLab, h1, e]
      · intro n k hk
        rw [hop] at hk
        rcases (M.add_ent _ _ _ _ _).1 hk with ⟨e, _⟩ | hk
        · simp [e]
        · simp [h2 n k hk]
      · intro n hn
        rw [hop]
        rcases List.mem_append.1 hn with h4 | h4
        · exact (M.add_ent _ _ _ _ _).2 (.inr (h3 n h4))
        · simp only [List.mem_singleton] at h4
          exact (M.add_ent _ _ _ _ _).2 (.inl ⟨h4, rfl⟩)
  have hk := key cfg.start []
    { lab := freshLabels A, opn := P.empty, cands := [], firstW := (A.zero : WithTop C),
      expansions := 0, multi := 0, touched := 0, updates := 0 } (fun n => rfl)
    (fun n k h => absurd h (M.empty_ent n k)) (by simp)
  simp only [List.nil_append] at hk
  obtain ⟨k1, k2, _, _, _⟩ := init_facts (A := A) (L := L) (cfg := cfg)
  constructor
  · intro n k hent hns
    exact absurd (hk.1 n k hent) hns
  · intro n hop
    by_cases hs : n ∈ cfg.start
    · refine ⟨_, hk.2 n hs, ?_⟩
      rw [k1 n hs]
      simp only [startLabel_dist, addW_coe, WithTop.coe_le_coe]
      exact hH n hs
    · rw [k2 n hs] at hop; cases hop

/-- The node taken from the open list has the smallest estimated total cost. -/
theorem pop_minR {M : MinFirst P} {cfg : SCfg N C} {st : SSt N C P}
    (h : EntInvR A M cfg st) {cur : N} {o : P.O}
    (hn : P.next st.opn = some (cur, o)) (hns : cur ∉ cfg.start) {m : N}
    (hm : (st.lab m).opn = true) :
    A.addW (st.lab cur).dist (hvalR A cfg.goal cur) ≤
      A.addW (st.lab m).dist (hvalR A cfg.goal m) := by
  obtain ⟨k, hk, hmin, _, _⟩ := M.next_some _ _ _ hn
  obtain ⟨km, h1, h2⟩ := h.upper m hm
  exact (h.lower cur k hk hns).trans ((hmin m km h1).trans h2)

/-- Every walk is covered by closed nodes or crosses the set of open nodes. -/
theorem frontierR (hE : CostOk A) {L : Lawful P} {start : List N} {st : SSt N C P}
    (h : SInv A L start st) {n : N} {l : List N} {d : C} (hr : WalkTo A start n l d) :
    ((st.lab n).closed = true ∧ (st.lab n).opn = false ∧ (st.lab n).dist ≤ (d : WithTop C)) ∨
    ∃ (m : N) (dm : C) (l1 l2 : List N), l = l1 ++ l2 ∧ (st.lab m).opn = true ∧ (st.lab m).dist ≤ (dm : WithTop C) ∧
      WalkTo A start m l1 dm ∧ Cont A m dm n l2 d := by
  induction hr with
  | @start s hs =>
    have hd := h.core.s0 _ hs
    by_cases ho : (st.lab s).opn = true
    · right
      exact ⟨s, A.zero, [s], [], by simp, ho, by rw [hd], .start hs, .refl⟩
    · left
      have := (h.core.reach _).1 (by rw [hd]; simp)
      simp only [ho] at this
      exact ⟨by simpa using this, by simpa using ho, hd.le⟩
  | @step u v l d c hr he ih =>
    rcases ih with ⟨h1, h2, h3⟩ | ⟨m, dm, l1, l2, rfl, h1, h2, h3, h4⟩
    · have hle := h.relaxed u h1 h2 v c he
      have hle2 : (st.lab v).dist ≤ ((A.add d c : C) : WithTop C) := by
        refine hle.trans ?_
        rw [← addW_coe]
        exact addW_mono hE h3 c
      by_cases ho : (st.lab v).opn = true
      · right
        exact ⟨v, A.add d c, l ++ [v], [], by simp, ho, hle2, .step hr he, .refl⟩
      · left
        have := (h.core.reach v).1 (ne_top_of_le_ne_top (by simp) hle2)
        simp only [ho] at this
        exact ⟨by simpa using this, by simpa using ho, hle2⟩
    · right
      exact ⟨m, dm, l1, l2 ++ [v], by simp, h1, h2, h3, .step h4 he⟩

theorem WalkTo.split_cont {start : List N} {t : N} {l : List N} {d : C} (hr : WalkTo A start t l d) :
    ∃ s ∈ start, ∃ l2, l = [s] ++ l2 ∧ Cont A s A.zero t l2 d := by
  induction hr with
  | @start s hs => exact ⟨s, hs, [], by simp, .refl⟩
  | @step u v l d c _ he ih =>
    obtain ⟨s, hs, l2, rfl, h⟩ := ih
    exact ⟨s, hs, l2 ++ [v], by simp, .step h he⟩

theorem Reach.exists_walk {start : List N} {t : N} {d : C} (hr : Reach A start t d) :
    ∃ l, WalkTo A start t l d := by
  induction hr with
  | start hs => exact ⟨_, .start hs⟩
  | step _ he ih => obtain ⟨l, h⟩ := ih; exact ⟨_, .step h he⟩

/-- Invariants of a min-first search. -/
def OptInvR (A : Algo N C) (L : Lawful P) (M : MinFirst P) (cfg : SCfg N C) (st : SSt N C P) :
    Prop :=
  CandInv A L cfg st ∧ EntInvR A M cfg st

theorem OptInvR.pres (hE : CostOk A) {L : Lawful P} {M : MinFirst P} {cfg : SCfg N C}
    (ht : TopOk cfg.top) (hx : ExpansionOk cfg) {g0 : N} {gs : List N}
    (hg : cfg.goal = g0 :: gs) {st st' : SSt N C P} (h : OptInvR A L M cfg st)
    (hi : iterate A cfg (poseTest A cfg) st = .more st') : OptInvR A L M cfg st' := by
  refine ⟨h.1.pres hE ht hx hi, ?_⟩
  obtain ⟨cur, o, t, hn, hX, ht1, hlab, hopn, hXt, hterm, _, rfl⟩ := pose_more hx h.1.1 hi
  have hp := h.2.pop (A := A) hn
  refine EntInvR.fold (L := L) hg hE _ [] _ hXt (fun e he => he) ?_
  constructor
  · rw [hlab, hopn]; exact hp.lower
  · rw [hlab, hopn]; exact hp.upper

/-- **C87 (general form).**  Min-priority open list, any cost arithmetic that is monotone and never makes a path cheaper,
no goal candidates, no analytic expansion: a non-empty result is a walk from a start node into the goal region, and for
every walk into the goal region some node on this walk is estimated at least as high as the end of the result: `d` plus
the estimate at the end is at most `dm` plus the estimate of `m`, where the other walk passes `m` with cost `dm`. -/
theorem search_beats_frontier (hE : CostOk A) (L : Lawful P) (M : MinFirst P)
    (cfg : SCfg N C) (ht : TopOk cfg.top) (hx : ∀ k n g, cfg.canExpand k n g = none)
    (huse : cfg.useCands = false)
    (hH : ∀ s ∈ cfg.start, A.add A.zero A.zero ≤ A.add A.zero (hvalR A cfg.goal s))
    (hst : ∀ s ∈ cfg.start, InGoalRegion A cfg.goal s → ∀ s' ∈ cfg.start,
      A.add A.zero (hvalR A cfg.goal s) ≤ A.add A.zero (hvalR A cfg.goal s'))
    {fuel : Nat} {p : List N} {st' : SSt N C P}
    (hrun : findPathNodes A P cfg (freshLabels A) fuel = some (.ok p, st')) (hp : p ≠ []) :
    ∃ t d, WalkTo A cfg.start t p d ∧ p.Nodup ∧ InGoalRegion A cfg.goal t ∧
      ∀ t' l' d', WalkTo A cfg.start t' l' d' → InGoalRegion A cfg.goal t' →
        ∃ m dm l1 l2, l' = l1 ++ l2 ∧ WalkTo A cfg.start m l1 dm ∧ Cont A m dm t' l2 d' ∧
          A.add d (hvalR A cfg.goal t) ≤ A.add dm (hvalR A cfg.goal m) := by
  have hxo : ExpansionOk cfg := ⟨fun k s g _ => hx k s g, fun k n g e h => by rw [hx] at h; cases h⟩
  cases hg : cfg.goal with
  | nil =>
    exfalso
    obtain ⟨t, d, _, ⟨g, hgm, _⟩, _⟩ := path_cost_le_stored hE L cfg ht hx hrun hp
    rw [hg] at hgm; cases hgm
  | cons g0 gs =>
    rw [← hg]
    obtain ⟨st1, hI, hi⟩ := run_last (I := OptInvR A L M cfg)
      (fun st st2 h hi => OptInvR.pres hE ht hxo hg h hi) fuel _ st' _ hrun
      ⟨CandInv.init, EntInvR.init hH L⟩
    have hcl0 : ∀ n, (st1.lab n).closed = true → ¬ InGoalRegion A cfg.goal n := by
      rintro n hn ⟨g, hgm, hgg⟩
      have := (hI.1.2.2 n hn g hgm hgg).1
      rw [huse] at this; cases this
    have hc0 : st1.cands = [] := by
      cases hcs : st1.cands with
      | nil => rfl
      | cons x xs =>
        exfalso
        have hx1 : x ∈ st1.cands := by rw [hcs]; simp
        obtain ⟨g, h1, h2, _⟩ := hI.1.2.1 x hx1
        exact hcl0 x.1 (hI.1.1.cands x hx1) ⟨g, h1, h2⟩
    have hf0 : finish cfg st1 = .ok [] := by
      unfold finish
      rw [hc0, (ht.none_iff []).2 rfl]
    rcases iterate_done hi with ⟨_, _, h⟩ | ⟨_, _, h⟩ | ⟨cur, o, hn, h⟩
    · rw [hf0] at h; cases h; exact absurd rfl hp
    · rw [hf0] at h; cases h; exact absurd rfl hp
    · obtain ⟨hX, hd, _, hcs, _⟩ := pop_spec hI.1.1 hn
      obtain ⟨t, g1, g2, _, _, _, _, g7, g8, g9, _⟩ :=
        poseTest_spec (A := A) hxo _ cur hX.core hX.curOk.1
      rw [g1] at h
      rcases h with ⟨h, _⟩ | ⟨e, h, _⟩ | ⟨t', h, rfl, h3⟩
      · cases h
      · cases h
      · cases h
        rcases h3 with ⟨h4, h5, h6⟩ | ⟨h4, h5, _⟩ | ⟨_, h5, _⟩
        · cases h6
          obtain ⟨d, hb, hreg⟩ := g9 h4 hx
          refine ⟨cur, d, hb.walk, hb.nodup, hreg, ?_⟩
          intro t' l' d' hr' hreg'
          have hdle : (d : WithTop C) ≤ (st1.lab cur).dist := by
            rw [← hd cur]; exact hb.cost_le hE hX.core.s0
          by_cases hns : cur ∈ cfg.start
          · obtain ⟨s, hs, l2, hl, hr2⟩ := hr'.split_cont
            refine ⟨s, A.zero, [s], l2, hl, .start hs, hr2, le_trans ?_ (hst cur hns hreg s hs)⟩
            rw [hI.1.1.core.s0 cur hns, WithTop.coe_le_coe] at hdle
            exact hE.mono _ _ _ hdle
          · rcases frontierR hE hI.1.1 hr' with ⟨h7, _, _⟩ | ⟨m, dm, l1, l2, k0, k1, k2, k3, k4⟩
            · exact absurd hreg' (hcl0 t' h7)
            · refine ⟨m, dm, l1, l2, k0, k3, k4, ?_⟩
              have := (addW_mono hE hdle (hvalR A cfg.goal cur)).trans
                ((pop_minR hI.2 hn hns k1).trans (addW_mono hE k2 _))
              rwa [addW_coe, addW_coe, WithTop.coe_le_coe] at this
        · exact absurd h5 (g8 h4).1
        · rw [huse] at h5; cases h5

/-- **C87 (Dijkstra).**  Without heuristic the result is a cheapest walk into the goal region, as costs are added up by
the program, whatever its arithmetic, as long as it is monotone, never makes a path cheaper, and adding zero changes
nothing. -/
theorem dijkstra_optimal_rounded (hE : CostOk A) (h0 : ∀ a, A.add a A.zero = a) (L : Lawful P) (M : MinFirst P)
    (cfg : SCfg N C) (ht : TopOk cfg.top) (hx : ∀ k n g, cfg.canExpand k n g = none)
    (huse : cfg.useCands = false) (hzero : ∀ n g, A.heur n g = A.zero)
    {fuel : Nat} {p : List N} {st' : SSt N C P}
    (hrun : findPathNodes A P cfg (freshLabels A) fuel = some (.ok p, st')) (hp : p ≠ []) :
    ∃ t d, WalkTo A cfg.start t p d ∧ InGoalRegion A cfg.goal t ∧
      ∀ t' d', Reach A cfg.start t' d' → InGoalRegion A cfg.goal t' → d ≤ d' := by
  have hz : ∀ n, hvalR A cfg.goal n = A.zero := by
    intro n; unfold hvalR; cases cfg.goal <;> simp [hzero]
  obtain ⟨t, d, h1, _, h2, h3⟩ := search_beats_frontier hE L M cfg ht hx huse (fun s _ => by rw [hz])
    (fun s _ _ s' _ => by rw [hz, hz]) hrun hp
  refine ⟨t, d, h1, h2, fun t' d' hr hreg => ?_⟩
  obtain ⟨l', hw⟩ := hr.exists_walk
  obtain ⟨m, dm, l1, l2, e12, _, k2, k3⟩ := h3 t' l' d' hw hreg
  rw [hz, hz, h0, h0] at k3
  refine k3.trans ?_
  clear k3 hr hreg hw e12
  induction k2 with
  | refl => exact le_refl _
  | step _ he ih => exact ih.trans (hE.infl _ _ _ he _)

end PathPlanning
