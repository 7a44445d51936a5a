import Verif.Lemmas.SearchWork
import Verif.Model.Counters
import Verif.Props.GridSearch
import Verif.Props.OpenLists
import Verif.Props.KinSearchEx

/-!
# The counters of a search, and how much work a search does (C99)
-/

namespace PathPlanning
set_option linter.unusedSectionVars false

/-! ### The shipped open lists know how many entries they hold -/

section lists
variable {N C : Type}

def queueCounts : Counts (QueueManager : OpenList N C) where
  size (o : List N) := o.length
  empty := rfl
  add (o : List N) n k := by show (o ++ [n]).length = _; simp
  next := by
    intro (o : List N) n (o' : List N) h
    cases o with
    | nil => simp [QueueManager] at h
    | cons a o => simp only [QueueManager, Option.some.injEq, Prod.mk.injEq] at h; rw [← h.2]; rfl
  none := by
    intro (o : List N) h
    cases o with
    | nil => rfl
    | cons a o => simp [QueueManager] at h

def stackCounts : Counts (StackManager : OpenList N C) where
  size (o : List N) := o.length
  empty := rfl
  add (o : List N) n k := rfl
  next := by
    intro (o : List N) n (o' : List N) h
    cases o with
    | nil => simp [StackManager] at h
    | cons a o => simp only [StackManager, Option.some.injEq, Prod.mk.injEq] at h; rw [← h.2]; rfl
  none := by
    intro (o : List N) h
    cases o with
    | nil => rfl
    | cons a o => simp [StackManager] at h

def prioCounts [DecidableEq N] [LinearOrder C] : Counts (PriorityManager : OpenList N C) where
  size (o : List (N × WithTop C)) := o.length
  empty := rfl
  add (o : List (N × WithTop C)) n k := by show (o ++ [(n, k)]).length = _; simp
  next := by
    intro (o : List (N × WithTop C)) n (o' : List (N × WithTop C)) h
    cases o with
    | nil => simp [PriorityManager] at h
    | cons a o =>
      simp only [PriorityManager, Option.some.injEq, Prod.mk.injEq] at h
      rw [← h.2]
      show ((a :: o).erase _).length + 1 = (a :: o).length
      rw [List.length_erase_of_mem (bestEntry_mem a o)]
      simp
  none := by
    intro (o : List (N × WithTop C)) h
    cases o with
    | nil => rfl
    | cons a o => simp [PriorityManager] at h

end lists

section counters
variable {N C : Type} [DecidableEq N] [LinearOrder C] [Fintype N]
variable {A : Algo N C} {P : OpenList N C}

/-! ### Every search -/

theorem Balance.run (Q : Counts P) {cfg : SCfg N C} {test : SSt N C P → N → CRes (TestOut N C P)} (hq : Quiet test)
    {lab : Labels N C} {fuel : Nat} {p : List N} {st' : SSt N C P}
    (hrun : searchLoop A cfg test fuel (initSearch A P cfg lab) = some (.ok p, st')) :
    Balance Q cfg.start.length (expandedNodes lab).card st' := by
  obtain ⟨st1, hI, hi⟩ := run_last (I := Balance Q cfg.start.length (expandedNodes lab).card)
    (fun st st2 h hi => Balance.more hq h hi) fuel _ st' _ hrun (Balance.init Q cfg lab)
  exact done_state hq (fun st cur o h hn => h.pop cfg hn)
    (fun st st2 h h1 h2 h3 h4 h5 h6 => h.congr h1 h2 h3 h4 h5 h6) hI hi

/-- **C99 (balance).**  After every search between poses that returns, on whatever labels earlier searches have left and with
whatever open list: the nodes taken from the open list and the entries still in it are exactly the start nodes and the
insertions counted by `getTouchedNodes`; there are at most as many updates as insertions; the nodes marked as expanded now are
those marked before plus the expansions that are not counted as repeated.  So `getExpansions` exceeds
`getMultiExpansions` by the number of nodes this search has marked. -/
theorem search_counters (Q : Counts P) {cfg : SCfg N C} {lab : Labels N C} {fuel : Nat} {p : List N} {st' : SSt N C P}
    (hrun : findPathNodes A P cfg lab fuel = some (.ok p, st')) :
    st'.expansions + Q.size st'.opn = cfg.start.length + st'.touched ∧ st'.updates ≤ st'.touched ∧
      (expandedNodes st'.lab).card + st'.multi = (expandedNodes lab).card + st'.expansions := by
  have h := Balance.run Q (poseTest_quiet (A := A) cfg) hrun
  exact ⟨by rw [Nat.add_comm]; exact h.size, h.upd, h.exp⟩

/-- **C99 (balance, user supplied goal test).** -/
theorem custom_counters (Q : Counts P) {cfg : SCfg N C} {T : GoalTest N C P} {lab : Labels N C} {fuel : Nat} {p : List N}
    {st' : SSt N C P} (hrun : findPathCustom A P cfg T lab fuel = some (.ok p, st')) :
    st'.expansions + Q.size st'.opn = cfg.start.length + st'.touched ∧ st'.updates ≤ st'.touched ∧
      (expandedNodes st'.lab).card + st'.multi = (expandedNodes lab).card + st'.expansions := by
  have h := Balance.run (cfg := { cfg with goal := [], heurGoal := T.heurGoal }) Q (customTest_quiet (A := A) T) hrun
  exact ⟨by rw [Nat.add_comm]; exact h.size, h.upd, h.exp⟩

/-- No more repeated expansions than expansions. -/
theorem multi_le {cfg : SCfg N C} {lab : Labels N C} {fuel : Nat} {p : List N} {st' : SSt N C P}
    (hrun : findPathNodes A P cfg lab fuel = some (.ok p, st')) : st'.multi ≤ st'.expansions := by
  have hq := poseTest_quiet (A := A) (P := P) cfg
  have hpop : ∀ (st : SSt N C P) cur o, st.multi ≤ st.expansions →
      (popNode A cfg st cur o).multi ≤ (popNode A cfg st cur o).expansions := by
    intro st cur o h
    show (if (st.lab cur).expanded then st.multi + 1 else st.multi) ≤ st.expansions + 1
    split <;> omega
  have hfold : ∀ (cur : N) (es : List (N × C)) (s : SSt N C P), s.multi ≤ s.expansions →
      (es.foldl (fun s e => processNeighbor A cfg.goal s cur e.1 e.2) s).multi ≤
        (es.foldl (fun s e => processNeighbor A cfg.goal s cur e.1 e.2) s).expansions := by
    intro cur es
    induction es with
    | nil => intro s h; exact h
    | cons e es ih =>
      intro s h
      obtain ⟨h1, h2, _⟩ := process_count (A := A) cfg.goal s cur e.1 e.2
      exact ih _ (by rw [h1, h2]; exact h)
  have h0 : (initSearch A P cfg lab).multi ≤ (initSearch A P cfg lab).expansions := by
    have key : ∀ (ss : List N) (st : SSt N C P), (ss.foldl (addStart A) st).multi = st.multi ∧
        (ss.foldl (addStart A) st).expansions = st.expansions := by
      intro ss
      induction ss with
      | nil => intro st; exact ⟨rfl, rfl⟩
      | cons s ss ih => intro st; exact ih (addStart A st s)
    unfold initSearch
    rw [(key _ _).1, (key _ _).2]
  obtain ⟨st1, hI, hi⟩ := run_last (I := fun st : SSt N C P => st.multi ≤ st.expansions)
    (fun st st2 h hi => by
      obtain ⟨cur, o, t, _, _, ht, _, _, rfl⟩ := iterate_more hi
      obtain ⟨_, _, h3, h4, _⟩ := hq _ _ _ ht
      exact hfold cur _ _ (by rw [h3, h4]; exact hpop _ _ _ h)) fuel _ st' _ hrun h0
  exact done_state hq (fun st cur o h _ => hpop st cur o h) (fun st st2 h _ _ h3 h4 _ _ => by rw [h3, h4]; exact h) hI hi

/-- **C99, finding (repeated expansions).**  The marks of earlier searches are not removed: if a later search marks no node that
was not marked before it, all its expansions are counted as repeated, also the first one of every node. -/
theorem later_all_multi (Q : Counts P) {cfg : SCfg N C} {lab : Labels N C} {fuel : Nat} {p : List N} {st' : SSt N C P}
    (hrun : findPathNodes A P cfg lab fuel = some (.ok p, st'))
    (hsame : ∀ n, (st'.lab n).expanded = true → (lab n).expanded = true) : st'.multi = st'.expansions := by
  have h := (search_counters Q hrun).2.2
  have hle : (expandedNodes st'.lab).card ≤ (expandedNodes lab).card := by
    refine Finset.card_le_card fun n hn => ?_
    simp only [expandedNodes, Finset.mem_filter, Finset.mem_univ, true_and] at hn ⊢
    exact hsame n hn
  have hmul : st'.multi ≤ st'.expansions := multi_le hrun
  omega

/-- **C99, finding (`getTouchedNodes`).**  The number reported after a search is the number reported before it plus the insertions
of this search: the counter is never reset, unlike the others. -/
theorem touched_accumulates (Q : Counts P) {cfg : SCfg N C} {o o' : Persist N C} {fuel : Nat} {p : List N} {s : Stats}
    (hrun : searchAndCount A P o cfg fuel = some (.ok p, s, o')) :
    o'.touched = s.touched ∧ o.touched ≤ s.touched ∧ s.multi ≤ s.expansions ∧
    ∃ left, s.expansions + left = cfg.start.length + (s.touched - o.touched) ∧
      (expandedNodes o'.lab).card + s.multi = (expandedNodes o.lab).card + s.expansions := by
  unfold searchAndCount at hrun
  rw [Option.map_eq_some_iff] at hrun
  obtain ⟨⟨r, st'⟩, h1, h2⟩ := hrun
  simp only [Prod.mk.injEq] at h2
  obtain ⟨rfl, rfl, rfl⟩ := h2
  obtain ⟨a, b, c⟩ := search_counters Q h1
  exact ⟨rfl, Nat.le_add_right _ _, multi_le h1, Q.size st'.opn, by simpa using a, c⟩

/-- **C99, finding (`getTouchedNodes`, several searches).**  The reported numbers never go down from search to search. -/
theorem touched_monotone {fuel : Nat} : ∀ (cfgs : List (SCfg N C)) (o o' : Persist N C) (ss : List Stats),
    searchesAndCount A P fuel cfgs o = some (ss, o') →
    ss.length = cfgs.length ∧ (∀ s ∈ ss, o.touched ≤ s.touched) ∧ ss.Pairwise fun a b => a.touched ≤ b.touched := by
  intro cfgs
  induction cfgs with
  | nil => intro o o' ss h; simp only [searchesAndCount, Option.some.injEq, Prod.mk.injEq] at h; rw [← h.1]; simp
  | cons cfg cfgs ih =>
    intro o o' ss h
    rw [searchesAndCount] at h
    cases h1 : searchAndCount A P o cfg fuel with
    | none => rw [h1] at h; cases h
    | some x =>
      obtain ⟨r, s, o1⟩ := x
      rw [h1] at h
      simp only at h
      cases h2 : searchesAndCount A P fuel cfgs o1 with
      | none => rw [h2] at h; cases h
      | some y =>
        obtain ⟨ss', o2⟩ := y
        rw [h2] at h
        simp only [Option.some.injEq, Prod.mk.injEq] at h
        obtain ⟨rfl, rfl⟩ := h
        obtain ⟨k1, k2, k3⟩ := ih _ _ _ h2
        have hs : s.touched = o1.touched ∧ o.touched ≤ s.touched := by
          unfold searchAndCount at h1
          rw [Option.map_eq_some_iff] at h1
          obtain ⟨x, _, hx⟩ := h1
          simp only [Prod.mk.injEq] at hx
          obtain ⟨_, rfl, rfl⟩ := hx
          exact ⟨rfl, Nat.le_add_right _ _⟩
        refine ⟨by simp [k1], ?_, List.pairwise_cons.2 ⟨fun b hb => by rw [hs.1]; exact k2 b hb, k3⟩⟩
        intro b hb
        rcases List.mem_cons.1 hb with rfl | hb
        · exact hs.2
        · exact hs.2.trans (hs.1 ▸ k2 b hb)

/-! ### Consistent heuristics -/

/-- Every iteration that goes on counts one expansion. -/
theorem more_expansions {cfg : SCfg N C} {test : SSt N C P → N → CRes (TestOut N C P)} (hq : Quiet test)
    {st st' : SSt N C P} (hi : iterate A cfg test st = .more st') : st'.expansions = st.expansions + 1 := by
  obtain ⟨cur, o, t, _, _, ht, _, _, rfl⟩ := iterate_more hi
  obtain ⟨_, _, h3, _⟩ := hq _ _ _ ht
  have key : ∀ (es : List (N × C)) (s : SSt N C P),
      (es.foldl (fun s e => processNeighbor A cfg.goal s cur e.1 e.2) s).expansions = s.expansions := by
    intro es
    induction es with
    | nil => intro s; rfl
    | cons e es ih => intro s; rw [List.foldl_cons, ih]; exact (process_count cfg.goal s cur e.1 e.2).1
  unfold expandNode
  rw [key, h3]
  rfl

/-- A search whose expansions stay below a bound ends. -/
theorem bounded_ends {cfg : SCfg N C} {test : SSt N C P → N → CRes (TestOut N C P)} (hq : Quiet test) {I : SSt N C P → Prop}
    {B : Nat} (hpres : ∀ st st', I st → iterate A cfg test st = .more st' → I st') (hB : ∀ st, I st → st.expansions ≤ B) :
    ∀ (f : Nat) (st : SSt N C P), I st → B + 1 ≤ f + st.expansions → (searchLoop A cfg test f st).isSome = true := by
  intro f
  induction f with
  | zero => intro st h hb; have := hB st h; omega
  | succ f ih =>
    intro st h hb
    rw [searchLoop]
    cases hi : iterate A cfg test st with
    | done r st1 => rfl
    | more st1 =>
      have := more_expansions hq hi
      exact ih st1 (hpres _ _ h hi) (by omega)

/-- An open list holds at least as many entries as different nodes. -/
theorem members_le_size (L : Lawful P) (Q : Counts P) (s : Finset N) (o : P.O) (h : ∀ n ∈ s, L.mem o n) : s.card ≤ Q.size o := by
  induction hk : Q.size o generalizing s o with
  | zero =>
    cases hn : P.next o with
    | none =>
      have : s = ∅ := Finset.eq_empty_of_forall_notMem fun n hn' => (L.next_none o).1 hn n (h n hn')
      rw [this]; simp
    | some co => have := Q.next o co.1 co.2 hn; omega
  | succ k ih =>
    cases hn : P.next o with
    | none => have := Q.none o hn; omega
    | some co =>
      have h1 := Q.next o co.1 co.2 hn
      obtain ⟨_, _, h2⟩ := L.next_some o co.1 co.2 hn
      have := ih (s.erase co.1) co.2 (fun n hn' => by
        rw [Finset.mem_erase] at hn'
        rcases h2 n (h n hn'.2) with e | e
        · exact absurd e hn'.1
        · exact e) (by omega)
      have h3 := Finset.pred_card_le_card_erase (s := s) (a := co.1)
      omega

variable [AddCommMonoid C] [IsOrderedCancelAddMonoid C]

/-- Everything known of a search with a consistent heuristic on fresh nodes. -/
structure CountInv (A : Algo N C) (L : Lawful P) (M : MinFirst P) (Q : Counts P) (cfg : SCfg N C) (st : SSt N C P) : Prop where
  lin : LinInv A L M Q cfg st
  bal : Balance Q cfg.start.length 0 st

theorem CountInv.more (hE : ExactCosts A) {L : Lawful P} {M : MinFirst P} {Q : Counts P} {cfg : SCfg N C} (hx : ExpansionOk cfg)
    {g0 : N} {gs : List N} (hg : cfg.goal = g0 :: gs) (hcons : Consistent A (hval A cfg.goal)) {st st' : SSt N C P}
    (h : CountInv A L M Q cfg st) (hi : iterate A cfg (poseTest A cfg) st = .more st') : CountInv A L M Q cfg st' :=
  ⟨h.lin.more hE hx hg hcons hi, h.bal.more (poseTest_quiet (A := A) cfg) hi⟩

theorem CountInv.init (hE : ExactCosts A) (L : Lawful P) (M : MinFirst P) (Q : Counts P) (cfg : SCfg N C) (hnd : cfg.start.Nodup)
    (hcons : Consistent A (hval A cfg.goal)) : CountInv A L M Q cfg (initSearch A P cfg (freshLabels A)) := by
  refine ⟨LinInv.init hE L M Q cfg hnd fun s _ => hcons.nonneg s, ?_⟩
  have h := Balance.init (A := A) Q cfg (freshLabels A)
  have e : (expandedNodes (freshLabels A)).card = 0 := by
    rw [Finset.card_eq_zero]
    ext n
    simp [expandedNodes, freshLabels, Label.fresh]
  rw [e] at h
  exact h

theorem CountInv.bound {L : Lawful P} {M : MinFirst P} {Q : Counts P} {cfg : SCfg N C} {st : SSt N C P}
    (h : CountInv A L M Q cfg st) : st.expansions ≤ cfg.start.length + edgesFrom A (expandedNodes st.lab) := by
  have h1 := h.bal.size
  have h2 := h.lin.w.work
  omega

theorem edgesFrom_le (A : Algo N C) (s : Finset N) : edgesFrom A s ≤ edgesFrom A Finset.univ :=
  Finset.sum_le_sum_of_subset (Finset.subset_univ s)

/-- In the final state the counters are bounded by the edges leaving the expanded nodes. -/
theorem CountInv.final {L : Lawful P} {M : MinFirst P} {Q : Counts P} {cfg : SCfg N C} {p : List N}
    {st1 st' : SSt N C P} (h : CountInv A L M Q cfg st1) (hi : iterate A cfg (poseTest A cfg) st1 = .done (.ok p) st') :
    Balance Q cfg.start.length 0 st' ∧ WorkInv A M Q cfg st' ∧ ∀ n, (st'.lab n).opn = true → L.mem st'.opn n := by
  have hb := done_state (poseTest_quiet (A := A) cfg) (fun st cur o h hn => Balance.pop h cfg hn)
    (fun st st2 h h1 h2 h3 h4 h5 h6 => Balance.congr h h1 h2 h3 h4 h5 h6) h.bal hi
  refine ⟨hb, ?_⟩
  rcases iterate_done hi with ⟨_, rfl, _⟩ | ⟨_, rfl, _⟩ | ⟨cur, o, hn, hc⟩
  · exact ⟨h.lin.w, h.lin.s.openMem⟩
  · exact ⟨h.lin.w, h.lin.s.openMem⟩
  · rcases hc with ⟨_, hc⟩ | ⟨e, _, hc⟩ | ⟨t, ht, rfl, _⟩
    · cases hc
    · cases hc
    · obtain ⟨h1, h2, h3, h4, h5, h6⟩ := poseTest_quiet (A := A) cfg _ _ _ ht
      refine ⟨((h.lin.w.pop (A := A) h.lin.s h.lin.ent hn).1).congr h1 h2 h4 h5 h6, ?_⟩
      rw [h1, h2]
      exact (pop_spec h.lin.s hn).1.openMem

/-- **C99 (work).**  With a consistent heuristic, a min-priority open list and nodes fresh from `setMap`, a search that returns
has inserted at most one entry per edge that leaves a node it has marked as expanded, and has expanded a node a second time at
most as often as it has updated one: `getExpansions ≤ |start| + edges`, `getMultiExpansions ≤ getUpdates ≤ getTouchedNodes ≤ edges`. -/
theorem consistent_counters (hE : ExactCosts A) (L : Lawful P) (M : MinFirst P) (Q : Counts P) (cfg : SCfg N C)
    (hx : ExpansionOk cfg) (hgoal : cfg.goal ≠ []) (hcons : Consistent A (hval A cfg.goal)) (hnd : cfg.start.Nodup)
    {fuel : Nat} {p : List N} {st' : SSt N C P} (hrun : findPathNodes A P cfg (freshLabels A) fuel = some (.ok p, st')) :
    st'.expansions ≤ cfg.start.length + edgesFrom A (expandedNodes st'.lab) ∧
      st'.multi ≤ st'.updates ∧ st'.updates ≤ st'.touched ∧ st'.touched ≤ edgesFrom A (expandedNodes st'.lab) ∧
      st'.expansions = (expandedNodes st'.lab).card + st'.multi := by
  obtain ⟨g0, gs, hg⟩ := List.exists_cons_of_ne_nil hgoal
  obtain ⟨st1, hI, hi⟩ := run_last (I := CountInv A L M Q cfg)
    (fun st st2 h hi => h.more hE hx hg hcons hi) fuel _ st' _ hrun (CountInv.init hE L M Q cfg hnd hcons)
  obtain ⟨hb, hw, hmem⟩ := hI.final hi
  have h1 := hb.size
  have h2 := hw.work
  have h3 := hb.exp
  refine ⟨by omega, ?_, hb.upd, h2, by omega⟩
  have hopen := members_le_size L Q (openNodes st'.lab) st'.opn (fun n hn => hmem n (by simpa [openNodes] using hn))
  have hc := hw.count
  omega

/-- **C99 (exhausted search).**  If such a search finds nothing and is not stopped by the clock, the nodes marked as expanded are
exactly the nodes that can be reached from a start node, each start node and each insertion has been taken from the open list, and
the repeated expansions are exactly the updates. -/
theorem exhausted_counters (hE : ExactCosts A) (L : Lawful P) (M : MinFirst P) (Q : Counts P) (cfg : SCfg N C)
    (ht : TopOk cfg.top) (hx : ExpansionOk cfg) (hgoal : cfg.goal ≠ []) (hcons : Consistent A (hval A cfg.goal))
    (hnd : cfg.start.Nodup) (hab : ∀ k, cfg.abort k = false)
    {fuel : Nat} {st' : SSt N C P} (hrun : findPathNodes A P cfg (freshLabels A) fuel = some (.ok [], st')) :
    (∀ n, n ∈ expandedNodes st'.lab ↔ ∃ d, Reach A cfg.start n d) ∧ st'.multi = st'.updates ∧
      st'.expansions = cfg.start.length + st'.touched ∧
      st'.expansions = (expandedNodes st'.lab).card + st'.updates := by
  obtain ⟨g0, gs, hg⟩ := List.exists_cons_of_ne_nil hgoal
  obtain ⟨st1, ⟨hI, hCI⟩, hi⟩ := run_last (I := fun st => CountInv A L M Q cfg st ∧ CandInv A L cfg st)
    (fun st st2 h hi => ⟨h.1.more hE hx hg hcons hi, CandInv.pres hE.ok ht hx h.2 hi⟩) fuel _ st' _ hrun
    ⟨CountInv.init hE L M Q cfg hnd hcons, CandInv.init⟩
  rcases iterate_done hi with ⟨hn, rfl, h⟩ | ⟨h, _⟩ | ⟨cur, o, hn, h⟩
  · have hop : ∀ n, (st'.lab n).opn = false := by
      intro n
      by_contra hne
      exact (L.next_none _).1 hn n (hI.lin.s.openMem n (by simpa using hne))
    have h0 := Q.none _ hn
    have e : openNodes st'.lab = ∅ := by
      ext n
      simp [openNodes, hop]
    have hc := hI.lin.w.count
    have hb := hI.bal.size
    have hx' := hI.bal.exp
    rw [e, Finset.card_empty] at hc
    refine ⟨fun n => ?_, by omega, by omega, by omega⟩
    simp only [expandedNodes, Finset.mem_filter, Finset.mem_univ, true_and]
    rw [hI.lin.w.exp]
    constructor
    · intro hcl
      obtain ⟨l, d, hbk⟩ := hI.lin.s.core.back n ((hI.lin.s.core.reach n).2 (.inr hcl))
      exact ⟨_, hbk.walk.reach⟩
    · rintro ⟨d, hr⟩
      exact (all_closed hE.ok hI.lin.s hn hr).1
  · rw [hab] at h; cases h
  · exfalso
    obtain ⟨hX, _, _, hcs, _⟩ := pop_spec hI.lin.s hn
    obtain ⟨t, g1, g2, _, _, _, g6, _, g8, _⟩ :=
      poseTest_spec (A := A) hx _ cur hX.core hX.curOk.1
    rw [g1] at h
    rcases h with ⟨h, _⟩ | ⟨e, h, _⟩ | ⟨t', h, rfl, h3⟩
    · cases h
    · cases h
    · cases h
      rcases h3 with ⟨_, h5, h6⟩ | ⟨h4, h5, _⟩ | ⟨_, _, h5, _, h6⟩
      · exact h5 (by injection h6 with h6; exact h6.symm)
      · exact (g8 h4).1 h5
      · refine h5 (finish_ne_nil (A := A) ht (by rw [g2]; exact hX.core) ?_ h6.symm)
        intro x hx1
        rw [g2]
        rcases g6 x hx1 with h1 | h1
        · exact hX.cands x h1
        · rw [h1.1]; exact hX.curOk.1

/-- **C99 (linear time).**  Such a search needs at most one iteration per start node and edge of the graph, and one more. -/
theorem consistent_steps (hE : ExactCosts A) (L : Lawful P) (M : MinFirst P) (Q : Counts P) (cfg : SCfg N C)
    (hx : ExpansionOk cfg) (hgoal : cfg.goal ≠ []) (hcons : Consistent A (hval A cfg.goal)) (hnd : cfg.start.Nodup) :
    (findPathNodes A P cfg (freshLabels A) (cfg.start.length + edgesFrom A Finset.univ + 1)).isSome = true := by
  obtain ⟨g0, gs, hg⟩ := List.exists_cons_of_ne_nil hgoal
  refine bounded_ends (I := CountInv A L M Q cfg) (poseTest_quiet (A := A) cfg)
    (fun st st' h hi => h.more hE hx hg hcons hi) (B := cfg.start.length + edgesFrom A Finset.univ) (fun st h => ?_) _ _
    (CountInv.init hE L M Q cfg hnd hcons) (by omega)
  have := h.bound
  have := edgesFrom_le A (expandedNodes st.lab)
  omega

end counters

/-! ### Grid maps -/

theorem gridEdges_le {w h : Nat} {free : GNode w h → Bool} {res : ℝ} {dirs : List (Dir ℝ)} {D : Int}
    {heur dist : GNode w h → GNode w h → ℝ} (s : Finset (GNode w h)) :
    edgesFrom (gridAlgo free res dirs D heur dist) s ≤ s.card * dirs.length := by
  unfold edgesFrom
  refine (Finset.sum_le_card_nsmul s _ dirs.length fun n _ => ?_).trans (by simp)
  exact List.length_filterMap_le _ _

/-- **C99 on grid maps.**  A search on a grid of `w × h` cells with the 4- or 8-neighbourhood, a shipped heuristic and a
min-priority open list ends after at most `2 + directions · w · h` iterations with a path, and `getExpansions` is at most
`1 + directions · (number of expanded cells)`; every expansion beyond the first of a cell is counted by `getMultiExpansions`,
and there are no more of them than updates. -/
theorem grid_search_work {w h : Nat} {free : GNode w h → Bool} {res : ℝ} (hr : 0 ≤ res)
    {dirs : List (Dir ℝ)} (he : EuclidDirs dirs) {D : Int} (k : GridHeur)
    {P : OpenList (GNode w h) ℝ} (L : Lawful P) (M : MinFirst P) (Q : Counts P)
    (cfg : SCfg (GNode w h) ℝ) (ht : TopOk cfg.top) (hx : ExpansionOk cfg) {s g : GNode w h} (hs : cfg.start = [s])
    (hg : cfg.goal = [g]) :
    ∃ p st', findPathNodes (gridAlgo free res dirs D (k.fn res) gridHypot) P cfg
        (freshLabels (gridAlgo free res dirs D (k.fn res) gridHypot)) (2 + dirs.length * (w * h)) = some (.ok p, st') ∧
      st'.expansions ≤ 1 + dirs.length * (expandedNodes st'.lab).card ∧
      st'.expansions = (expandedNodes st'.lab).card + st'.multi ∧ st'.multi ≤ st'.updates := by
  set A := gridAlgo free res dirs D (k.fn res) gridHypot with hA
  have hE : ExactCosts A := grid_exact hr he
  have hcon : HCons A (k.fn res) := by
    cases k with
    | zero => exact hZero_consistent hr he
    | l2 => exact hL2_consistent hr he
    | linf => exact hLInf_consistent hr he
    | maxL2Linf => exact hMax_consistent (hL2_consistent hr he) (hLInf_consistent hr he)
  have hv : ∀ n, hval A cfg.goal n = k.fn res n g := fun n => by rw [hg]; rfl
  have hc : Consistent A (hval A cfg.goal) := by have := hcon g; simpa only [funext hv] using this
  have hnd : cfg.start.Nodup := by rw [hs]; simp
  have hgoal : cfg.goal ≠ [] := by rw [hg]; simp
  have hsteps := consistent_steps hE L M Q cfg hx hgoal hc hnd
  have hedge : edgesFrom A Finset.univ ≤ dirs.length * (w * h) := by
    refine (gridEdges_le _).trans ?_
    rw [Finset.card_univ, Fintype.card_prod, Fintype.card_fin, Fintype.card_fin, Nat.mul_comm]
  obtain ⟨fuel, p, st', hrun, _⟩ := search_terminates_valid hE.ok L cfg ht hx
  obtain ⟨⟨r, st2⟩, hr2⟩ := Option.isSome_iff_exists.1 hsteps
  have hmono : ∀ (f f' : Nat) (st : SSt (GNode w h) ℝ P) r, f ≤ f' →
      searchLoop A cfg (poseTest A cfg) f st = some r → searchLoop A cfg (poseTest A cfg) f' st = some r := by
    intro f
    induction f with
    | zero => intro f' st r _ h; simp [searchLoop] at h
    | succ f ih =>
      intro f' st r hle h
      obtain ⟨f', rfl⟩ : ∃ f'', f' = f'' + 1 := ⟨f' - 1, by omega⟩
      rw [searchLoop] at h ⊢
      cases hi : iterate A cfg (poseTest A cfg) st with
      | done r1 st1 => rw [hi] at h; exact h
      | more st1 => rw [hi] at h; exact ih f' st1 r (by omega) h
  have hr3 : findPathNodes A P cfg (freshLabels A) (2 + dirs.length * (w * h)) = some (r, st2) :=
    hmono _ _ _ _ (by rw [hs]; simp only [List.length_singleton]; omega) hr2
  have heq : (r, st2) = (.ok p, st') := by
    have h1 := hmono _ (max fuel (2 + dirs.length * (w * h))) _ _ (le_max_left _ _) hrun
    have h2 := hmono _ (max fuel (2 + dirs.length * (w * h))) _ _ (le_max_right _ _) hr3
    rw [h1] at h2
    exact (Option.some.inj h2).symm
  rw [heq] at hr3
  obtain ⟨c1, c2, _, _, c5⟩ := consistent_counters hE L M Q cfg hx hgoal hc hnd hr3
  refine ⟨p, st', hr3, ?_, c5, c2⟩
  have := gridEdges_le (free := free) (res := res) (dirs := dirs) (D := D) (heur := k.fn res) (dist := gridHypot)
    (expandedNodes st'.lab)
  rw [hs, List.length_singleton] at c1
  rw [Nat.mul_comm dirs.length]
  exact c1.trans (Nat.add_le_add_left this 1)

/-- The hypotheses are met by the 8-neighbourhood on every map. -/
example {w h : Nat} (free : GNode w h → Bool) (s g : GNode w h) :=
  grid_search_work (free := free) (res := 1) (by norm_num) (euclid8 (D := 1) (by norm_num)) (D := 1) .l2 prioLawful prioMin prioCounts
    { start := [s], goal := [g], useCands := false, oversearch := 0, accept := none, abort := fun _ => false,
      canExpand := fun _ _ _ => none, top := SearchEx.topRef } SearchEx.topRef_ok
    ⟨fun _ _ _ _ => rfl, fun _ _ _ _ h => by cases h⟩ rfl rfl

/-! ### A node is expanded twice although the heuristic is consistent -/

namespace CountEx

/-- `0 → 1` costs 1, `0 → 2` costs 5, `1 → 2` costs 1, `2 → 3` costs 10; no heuristic. -/
def A : Algo (Fin 4) Nat where
  zero := 0
  add := (· + ·)
  succ n := if n = 0 then [(1, 1), (2, 5)] else if n = 1 then [(2, 1)] else if n = 2 then [(3, 10)] else []
  heur _ _ := 0
  isGoal g n := g == n
  distTo _ _ := 0

def cfg : SCfg (Fin 4) Nat where
  start := [0]
  goal := [3]
  useCands := false
  oversearch := 0
  accept := none
  abort _ := false
  canExpand _ _ _ := none
  top := KinEx.minTop

theorem exact : ExactCosts A where
  zero := rfl
  add _ _ := rfl
  nonneg _ _ _ _ := Nat.zero_le _

theorem consistent : Consistent A (hval A cfg.goal) := ⟨fun _ => Nat.zero_le _, fun _ _ _ _ => Nat.zero_le _⟩

/-- **C99, finding.**  The entry under which a node was stored before an update stays in the open list, and taking it expands the
node once more: node 2 is expanded twice, on four nodes with five expansions. -/
theorem twice : ∃ st', findPathNodes A (PriorityManager : OpenList (Fin 4) Nat) cfg (freshLabels A) 6 = some (.ok [0, 1, 2, 3], st') ∧
    st'.expansions = 5 ∧ st'.multi = 1 ∧ st'.updates = 1 ∧ st'.touched = 4 := by
  have h : (findPathNodes A (PriorityManager : OpenList (Fin 4) Nat) cfg (freshLabels A) 6).map
      (fun x => (x.1, x.2.expansions, x.2.multi, x.2.updates, x.2.touched)) = some (.ok [0, 1, 2, 3], 5, 1, 1, 4) := by
    decide +kernel
  rw [Option.map_eq_some_iff] at h
  obtain ⟨⟨r, st'⟩, h1, h2⟩ := h
  simp only [Prod.mk.injEq] at h2
  obtain ⟨rfl, h2, h3, h4, h5⟩ := h2
  exact ⟨st', h1, h2, h3, h4, h5⟩

/-- The same search again on the same object: the only expansion is counted as repeated and `getTouchedNodes` still reports the
insertions of the first search. -/
theorem again : (searchesAndCount A (PriorityManager : OpenList (Fin 4) Nat) 6 [cfg, cfg] ⟨freshLabels A, 0⟩).map
    (fun x => x.1.map fun s => (s.expansions, s.multi, s.touched)) = some [(5, 1, 4), (1, 1, 4)] := by decide +kernel

/-- The hypotheses of the theorems are met by this search. -/
example : ∃ st' : SSt (Fin 4) Nat PriorityManager, st'.expansions = 5 ∧ st'.expansions ≤ 1 + edgesFrom A (expandedNodes st'.lab) := by
  obtain ⟨st', h1, h2, _⟩ := twice
  exact ⟨st', h2, (consistent_counters exact prioLawful prioMin prioCounts cfg ⟨fun _ _ _ _ => rfl, fun _ _ _ _ h => by cases h⟩
    (by simp [cfg]) consistent (by simp [cfg]) h1).1⟩

end CountEx

end PathPlanning
