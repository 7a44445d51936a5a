import Verif.Props.SearchOpt

/-!
# History dependence, error reporting, custom goal tests of the generic search (C31, C32)
-/

namespace PathPlanning
set_option linter.unusedSectionVars false

variable {N C : Type} [DecidableEq N] [LinearOrder C] [Fintype N]
variable {A : Algo N C} {P : OpenList N C}

/-! ### Repeating a search -/

/-- Labels in which the start node `s` is settled: as they are left by a search from `s`. -/
structure Settled (A : Algo N C) (s : N) (lab : Labels N C) : Prop where
  core : Core A [s] lab
  relaxed : ∀ v c, (v, c) ∈ A.succ s → (lab v).dist ≤ A.addW (lab s).dist c

/-- State invariant of a repeated search. -/
structure StuckInv (A : Algo N C) (L : Lawful P) (s : N) (st : SSt N C P) : Prop where
  settled : Settled A s st.lab
  only : ∀ n, L.mem st.opn n → n = s
  cands : st.cands = []

theorem stuck_fold {L : Lawful P} {goal : List N} {s : N} :
    ∀ (es : List (N × C)) (st : SSt N C P), StuckInv A L s st → (∀ e ∈ es, e ∈ A.succ s) →
      StuckInv A L s (es.foldl (fun x e => processNeighbor A goal x s e.1 e.2) st) ∧
      (es.foldl (fun x e => processNeighbor A goal x s e.1 e.2) st).opn = st.opn := by
  intro es
  induction es with
  | nil => intro st h _; exact ⟨h, rfl⟩
  | cons e es ih =>
    intro st h hes
    have hs0 : (st.lab s).dist ≠ ⊤ := by rw [h.settled.core.s0 s (by simp)]; simp
    obtain ⟨h1, _, _, hcase⟩ :=
      process_cases (goal := goal) h.settled.core (nb := e.1) (c := e.2) hs0
    have hncl := not_lt.2 (h.settled.relaxed e.1 e.2 (hes e (by simp)))
    rcases hcase with ⟨_, hop, hsame⟩ | ⟨hcl, _⟩
    · have hinv : StuckInv A L s (processNeighbor A goal st s e.1 e.2) := by
        refine ⟨⟨?_, ?_⟩, ?_, ?_⟩
        · exact h.settled.core.congr (fun m => ⟨(hsame m).1.1, (hsame m).1.2.1⟩)
            (fun m => by rw [(hsame m).1.2.2.1, (hsame m).1.2.2.2])
        · intro v c hv
          rw [(hsame v).1.1, (hsame s).1.1]; exact h.settled.relaxed v c hv
        · rw [hop]; exact h.only
        · rw [h1]; exact h.cands
      obtain ⟨g1, g2⟩ := ih _ hinv (fun x hx => hes x (List.mem_cons_of_mem _ hx))
      exact ⟨g1, g2.trans hop⟩
    · exact absurd hcl hncl

theorem stuck_run (L : Lawful P) {cfg : SCfg N C} {s : N} (hs : cfg.start = [s])
    (ht : TopOk cfg.top) (hx : ∀ k g, cfg.canExpand k s g = none)
    (hng : ¬ InGoalRegion A cfg.goal s) :
    ∀ (n : Nat) (st : SSt N C P), L.size st.opn ≤ n → StuckInv A L s st →
      ∃ fuel st', searchLoop A cfg (poseTest A cfg) fuel st = some (.ok [], st') := by
  intro n
  induction n with
  | zero =>
    intro st hsz h
    cases hn : P.next st.opn with
    | none =>
      refine ⟨1, st, ?_⟩
      have : iterate A cfg (poseTest A cfg) st = .done (finish cfg st) st := by
        unfold iterate; rw [hn]
      rw [searchLoop, this]
      simp [finish, h.cands, (ht.none_iff []).2 rfl]
    | some co => have := L.next_size _ co.1 co.2 hn; omega
  | succ n ih =>
    intro st hsz h
    cases hn : P.next st.opn with
    | none =>
      refine ⟨1, st, ?_⟩
      have : iterate A cfg (poseTest A cfg) st = .done (finish cfg st) st := by
        unfold iterate; rw [hn]
      rw [searchLoop, this]
      simp [finish, h.cands, (ht.none_iff []).2 rfl]
    | some co =>
      obtain ⟨cur, o⟩ := co
      obtain ⟨hk, hsub, _⟩ := L.next_some _ _ _ hn
      have hcur : cur = s := h.only cur hk
      subst hcur
      by_cases hab : cfg.abort st.expansions = true
      · refine ⟨1, st, ?_⟩
        have : iterate A cfg (poseTest A cfg) st = .done (finish cfg st) st := by
          unfold iterate; rw [hn]; simp [hab]
        rw [searchLoop, this]
        simp [finish, h.cands, (ht.none_iff []).2 rfl]
      · -- the start node is expanded without any effect
        have hpop : StuckInv A L cur (popNode A cfg st cur o) := by
          have hd : ∀ m, ((popNode A cfg st cur o).lab m).dist = (st.lab m).dist ∧
              ((popNode A cfg st cur o).lab m).prev = (st.lab m).prev ∧
              ((((popNode A cfg st cur o).lab m).opn = true ∨
                ((popNode A cfg st cur o).lab m).closed = true) ↔
                ((st.lab m).opn = true ∨ (st.lab m).closed = true)) := by
            intro m
            by_cases e : m = cur
            · subst e
              have := (h.settled.core.reach m).1
                (by rw [h.settled.core.s0 m (by simp)]; simp)
              simp [popNode, setLab, this]
            · simp [popNode, setLab, e]
          refine ⟨⟨h.settled.core.congr (fun m => ⟨(hd m).1, (hd m).2.1⟩) (fun m => (hd m).2.2),
            ?_⟩, fun m hm => h.only m (hsub m hm), h.cands⟩
          intro v c hv
          rw [(hd v).1, (hd cur).1]; exact h.settled.relaxed v c hv
        have htest : poseTest A cfg (popNode A cfg st cur o) cur =
            .ok ⟨false, [], popNode A cfg st cur o⟩ := by
          have h1 : ∀ gl : List N, expansionLoop cfg cur (popNode A cfg st cur o) gl = .ok none := by
            intro gl
            induction gl with
            | nil => rfl
            | cons a as ih => rw [expansionLoop, hx]; exact ih
          have h2 : ∀ gl : List N, (∀ g ∈ gl, g ∈ cfg.goal) →
              goalLoop A cfg cur gl (popNode A cfg st cur o) =
                .ok ⟨false, [], popNode A cfg st cur o⟩ := by
            intro gl
            induction gl with
            | nil => intro _; rfl
            | cons a as ih =>
              intro hsubg
              have : A.isGoal a cur = false := by
                by_contra hne
                exact hng ⟨a, hsubg a (by simp), by simpa using hne⟩
              rw [goalLoop]
              simp only [this, Bool.false_eq_true, if_false]
              exact ih fun g hg => hsubg g (List.mem_cons_of_mem _ hg)
          unfold poseTest
          rw [h1]
          exact h2 _ fun g hg => hg
        have hit : iterate A cfg (poseTest A cfg) st =
            .more (expandNode A cfg.goal (popNode A cfg st cur o) cur) := by
          unfold iterate
          rw [hn]
          simp only [hab, Bool.false_eq_true, if_false]
          rw [htest]
          simp [hpop.cands]
        obtain ⟨g1, g2⟩ := stuck_fold (goal := cfg.goal) (A.succ cur) _ hpop (fun e he => he)
        have hsize : L.size (expandNode A cfg.goal (popNode A cfg st cur o) cur).opn ≤ n := by
          have e : (expandNode A cfg.goal (popNode A cfg st cur o) cur).opn = o := g2
          rw [e]
          have := L.next_size _ _ _ hn
          omega
        obtain ⟨fuel, st', hr⟩ := ih _ hsize g1
        exact ⟨fuel + 1, st', by rw [searchLoop, hit]; exact hr⟩

/-- A search from the single start `s` whose first iteration is not cut off leaves the labels
settled at `s`. -/
theorem first_search_settles (ok : CostOk A) (L : Lawful P) (cfg : SCfg N C) {s : N}
    (hs : cfg.start = [s]) (ht : TopOk cfg.top) (hx : ExpansionOk cfg)
    (hng : ¬ InGoalRegion A cfg.goal s) (hab : cfg.abort 0 = false)
    {fuel : Nat} {r} {st' : SSt N C P}
    (hrun : findPathNodes A P cfg (freshLabels A) fuel = some (r, st')) :
    Settled A s st'.lab := by
  have hCI : CandInv A L cfg (initSearch A P cfg (freshLabels A)) := CandInv.init
  -- first iteration
  cases fuel with
  | zero => simp [findPathNodes, searchLoop] at hrun
  | succ fuel =>
    obtain ⟨k1, _, k3, k4, k5⟩ := init_facts (A := A) (L := L) (cfg := cfg)
    have hex : (initSearch A P cfg (freshLabels A)).expansions = 0 := by
      simp [initSearch, hs, addStart]
    generalize hst0 : initSearch A P cfg (freshLabels A) = st0 at *
    have hmem : ∀ st : SSt N C P, SInv A L cfg.start st → (st.lab s).closed = true →
        (st.lab s).opn = false → Settled A s st.lab := fun st h h1 h2 =>
      ⟨hs ▸ h.core, h.relaxed s h1 h2⟩
    -- invariant after the first iteration
    have hpres : ∀ st st2, (CandInv A L cfg st ∧ (st.lab s).closed = true ∧ (st.lab s).opn = false) →
        iterate A cfg (poseTest A cfg) st = .more st2 →
        (CandInv A L cfg st2 ∧ (st2.lab s).closed = true ∧ (st2.lab s).opn = false) := by
      intro st st2 h hi
      have hc2 := h.1.pres ok ht hx hi
      refine ⟨hc2, ?_⟩
      obtain ⟨cur, o, t, hn, hX, ht1, hlab, _, hXt, _, _, rfl⟩ := pose_more hx h.1.1 hi
      obtain ⟨_, _, hoth, _⟩ := pop_spec h.1.1 hn
      have hone : (t.st.lab s).closed = true ∧ (t.st.lab s).opn = false := by
        rw [hlab]
        by_cases e : s = cur
        · rw [e]; exact hX.curOk
        · rw [hoth s e]; exact h.2
      -- relaxing never touches a start node
      have hfold : ∀ (es done : List (N × C)) (x : SSt N C P), XInv A L cfg.start cur done x →
          (∀ e ∈ es, e ∈ A.succ cur) → (x.lab s).closed = true ∧ (x.lab s).opn = false →
          ((es.foldl (fun y e => processNeighbor A cfg.goal y cur e.1 e.2) x).lab s).closed = true ∧
          ((es.foldl (fun y e => processNeighbor A cfg.goal y cur e.1 e.2) x).lab s).opn = false := by
        intro es
        induction es with
        | nil => intro done x _ _ h; exact h
        | cons e es ih =>
          intro done x hx1 hes hc
          refine ih _ _ (hx1.process (goal := cfg.goal) ok (nb := e.1) (c := e.2)
            (hes e (by simp))).1 (fun y hy => hes y (List.mem_cons_of_mem _ hy)) ?_
          have hu : (x.lab cur).dist ≠ ⊤ := (hx1.core.reach cur).2 (.inr hx1.curOk.1)
          obtain ⟨_, _, _, hcase⟩ :=
            process_cases (goal := cfg.goal) hx1.core (nb := e.1) (c := e.2) hu
          rcases hcase with ⟨_, _, hsame⟩ | ⟨hcl, _, _, _, _, hother⟩
          · rw [(hsame s).1.2.2.1, (hsame s).1.2.2.2]; exact hc
          · have hne : s ≠ e.1 := by
              rintro rfl
              rw [hx1.core.s0 e.1 (by rw [hs]; simp)] at hcl
              exact absurd ((hx1.core.low cur).trans (le_addW ok (hes e (by simp)) _))
                (not_le.2 hcl)
            rw [hother s hne]; exact hc
      exact hfold _ [] _ hXt (fun e he => he) hone
    have hrun' : searchLoop A cfg (poseTest A cfg) (fuel + 1) st0 = some (r, st') := by
      rw [← hst0]; exact hrun
    rw [searchLoop] at hrun'
    -- the first node popped is `s`
    have hfirst : ∃ o, P.next st0.opn = some (s, o) := by
      cases hn : P.next st0.opn with
      | none => exact absurd (k4 s (by rw [hs]; simp)) ((L.next_none _).1 hn s)
      | some co =>
        have := k3 co.1 (L.next_some _ co.1 co.2 hn).1
        rw [hs] at this
        simp only [List.mem_singleton] at this
        exact ⟨co.2, by rw [← this]⟩
    obtain ⟨o, hn⟩ := hfirst
    cases hi : iterate A cfg (poseTest A cfg) st0 with
    | done r1 st1 =>
      -- impossible: nothing terminates the search at `s`
      exfalso
      rcases iterate_done hi with ⟨h, _⟩ | ⟨h, _⟩ | ⟨cur, o', hn', h⟩
      · rw [hn] at h; cases h
      · rw [hex, hab] at h; cases h
      · rw [hn] at hn'; cases hn'
        obtain ⟨hX, _, _, hcs, _⟩ := pop_spec hCI.1 hn
        obtain ⟨t, g1, g2, _, _, _, g6, _, g8, g9, g10, _⟩ :=
          poseTest_spec (A := A) hx _ s hX.core hX.curOk.1
        have hc0 : t.st.cands = [] := by
          cases hcs2 : t.st.cands with
          | nil => rfl
          | cons x xs =>
            exfalso
            rcases g6 x (by rw [hcs2]; simp) with h1 | ⟨_, g, hg, hgg, _⟩
            · rw [hcs, k5] at h1; cases h1
            · exact hng ⟨g, hg, hgg⟩
        have hterm : t.term = false := by
          by_contra hne
          have hte : t.term = true := by simpa using hne
          have hel : ∀ gl : List N,
              expansionLoop cfg s (popNode A cfg st0 s o) gl = .ok none := by
            intro gl
            induction gl with
            | nil => rfl
            | cons a as ih => rw [expansionLoop, hx.start _ s a (by rw [hs]; simp)]; exact ih
          have := g1
          unfold poseTest at this
          rw [hel] at this
          obtain ⟨t2, q1, _, _, _, _, _, _, q8, _⟩ :=
            goalLoop_spec (A := A) (P := P) (cur := s) cfg.goal (popNode A cfg st0 s o)
              (fun g hg => hg) hX.core hX.curOk.1
          rw [CRes.ok_bind] at this
          rw [q1] at this
          cases this
          obtain ⟨_, _, hreg⟩ := q8 hte
          exact hng hreg
        rw [g1] at h
        rcases h with ⟨h, _⟩ | ⟨e, h, _⟩ | ⟨t', h, _, h3⟩
        · cases h
        · cases h
        · cases h
          rcases h3 with ⟨h4, _⟩ | ⟨h4, _⟩ | ⟨_, _, h5, _⟩
          · rw [hterm] at h4; cases h4
          · rw [hterm] at h4; cases h4
          · exact h5 hc0
    | more st1 =>
      rw [hi] at hrun'
      have hc1 := hCI.pres ok ht hx hi
      have hs1 : (st1.lab s).closed = true ∧ (st1.lab s).opn = false := by
        obtain ⟨cur, o', t, hn', hX, ht1, hlab, _, hXt, _, _, rfl⟩ := pose_more hx hCI.1 hi
        rw [hn] at hn'; cases hn'
        have := XInv.fold (goal := cfg.goal) ok (A.succ s) [] t.st hXt (fun e he => he)
        exact this.1.curOk
      obtain ⟨st2, hI, hi2⟩ := run_last hpres fuel st1 st' r hrun' ⟨hc1, hs1⟩
      have hset := hmem st2 hI.1.1 hI.2.1 hI.2.2
      rcases iterate_done hi2 with ⟨_, rfl, _⟩ | ⟨_, rfl, _⟩ | ⟨cur, o', hn', h⟩
      · exact hset
      · exact hset
      · obtain ⟨hX, hd, _, _⟩ := pop_spec hI.1.1 hn'
        have hpopset : Settled A s (popNode A cfg st2 cur o').lab := by
          refine ⟨hs ▸ hX.core, ?_⟩
          intro v c hv
          rw [hd v, hd s]; exact hset.relaxed v c hv
        obtain ⟨t, g1, g2, _⟩ := poseTest_spec (A := A) hx _ cur hX.core hX.curOk.1
        rw [g1] at h
        rcases h with ⟨h, _⟩ | ⟨e, h, _⟩ | ⟨t', h, rfl, _⟩
        · cases h
        · cases h
        · cases h; rw [g2]; exact hpopset

/-- **C31 is false of the code, for every map.**  After any search from a (single, free) start
that is not yet in the goal region, a second search from the same start on the same object,
without `setMap` in between, returns the empty path — for *every* goal, even for the goal just
found: the labels of the first search are not reset. -/
theorem repeated_search_fails (ok : CostOk A) (L : Lawful P) (cfg cfg2 : SCfg N C) {s : N}
    (hs : cfg.start = [s]) (hs2 : cfg2.start = [s]) (ht : TopOk cfg.top) (ht2 : TopOk cfg2.top)
    (hx : ExpansionOk cfg) (hx2 : ExpansionOk cfg2)
    (hng : ¬ InGoalRegion A cfg.goal s) (hng2 : ¬ InGoalRegion A cfg2.goal s)
    (hab : cfg.abort 0 = false)
    {fuel : Nat} {r} {st' : SSt N C P}
    (hrun : findPathNodes A P cfg (freshLabels A) fuel = some (r, st')) :
    ∃ fuel2 st2, findPathNodes A P cfg2 st'.lab fuel2 = some (.ok [], st2) := by
  have hset := first_search_settles ok L cfg hs ht hx hng hab hrun
  have hinit : StuckInv A L s (initSearch A P cfg2 st'.lab) := by
    have hd : ∀ m, ((initSearch A P cfg2 st'.lab).lab m).dist = (st'.lab m).dist ∧
        ((initSearch A P cfg2 st'.lab).lab m).prev = (st'.lab m).prev ∧
        ((((initSearch A P cfg2 st'.lab).lab m).opn = true ∨
          ((initSearch A P cfg2 st'.lab).lab m).closed = true) ↔
          ((st'.lab m).opn = true ∨ (st'.lab m).closed = true)) := by
      intro m
      by_cases e : m = s
      · subst e
        have hd0 := hset.core.s0 m (by simp)
        have := (hset.core.reach m).1 (by rw [hd0]; simp)
        simp [initSearch, hs2, addStart, setLab, hd0, this]
      · simp [initSearch, hs2, addStart, setLab, e]
    refine ⟨⟨hset.core.congr (fun m => ⟨(hd m).1, (hd m).2.1⟩) (fun m => (hd m).2.2), ?_⟩, ?_, ?_⟩
    · intro v c hv
      rw [(hd v).1, (hd s).1]; exact hset.relaxed v c hv
    · intro n hn
      simp only [initSearch, hs2, List.foldl_cons, List.foldl_nil, addStart] at hn
      rcases (L.add_mem _ _ _ _).1 hn with e | h
      · exact e
      · exact absurd h (L.empty_mem n)
    · simp [initSearch, hs2, addStart]
  exact stuck_run L hs2 ht2 (fun k g => hx2.start k s g (by rw [hs2]; simp)) hng2 _ _
    (le_refl _) hinit

/-- Operations on a search object that influence later searches. -/
inductive SearchOp (N C : Type) where
  /-- `setMap` (with the same or another map of the same size) -/
  | setMap
  /-- `findPath` -/
  | find (cfg : SCfg N C)

/-- Labels after a history of operations, each search being run to its end (with `fuel`; a
search that does not end within it leaves the labels alone, which does not happen for large
fuel). -/
def afterHistory (A : Algo N C) (P : OpenList N C) (fuel : Nat) (lab : Labels N C) :
    List (SearchOp N C) → Labels N C
  | [] => lab
  | .setMap :: ops => afterHistory A P fuel (freshLabels A) ops
  | .find cfg :: ops =>
    afterHistory A P fuel
      (match findPathNodes A P cfg lab fuel with
        | some (_, st') => st'.lab
        | none => lab) ops

/-- **C31, the part that holds.**  After `setMap` a search gives what it gives on a fresh object,
whatever was searched before. -/
theorem search_after_setMap_partial (cfg : SCfg N C) (fuel fuel' : Nat) (lab : Labels N C)
    (ops : List (SearchOp N C)) :
    findPathNodes A P cfg (afterHistory A P fuel' lab (ops ++ [.setMap])) fuel =
      findPathNodes A P cfg (freshLabels A) fuel := by
  have : ∀ (ops : List (SearchOp N C)) (lab : Labels N C),
      afterHistory A P fuel' lab (ops ++ [.setMap]) = freshLabels A := by
    intro ops
    induction ops with
    | nil => intro lab; rfl
    | cons o ops ih =>
      intro lab
      cases o with
      | setMap => exact ih _
      | find c => exact ih _
  rw [this]

/-! ### Errors -/

/-- The four exceptions documented for bad start and goal poses. -/
def documented : List String :=
  ["StartNotFreeException", "StartOutOfMapException", "GoalNotFreeException",
    "GoalOutOfMapException"]

/-- **C32 is false of the code.**  None of the documented exceptions is ever thrown: whatever
the poses, if a search ends with an exception at all, it is one thrown by the pose lookup (or
the loop ran into undefined behaviour). -/
theorem documented_exceptions_never {Pose : Type} (ok : CostOk A) (L : Lawful P)
    (getPoses : Pose → CRes (List N)) (isOcc : N → Bool) (cfg : SCfg N C) (ht : TopOk cfg.top)
    (hx : ∀ k n g, cfg.canExpand k n g = none) (from' to' : Pose)
    {fuel : Nat} {e : String}
    (h : findPathPose A P getPoses isOcc cfg (freshLabels A) from' to' fuel = some (.throw e)) :
    getPoses from' = .throw e ∨ getPoses to' = .throw e := by
  unfold findPathPose at h
  cases h1 : getPoses from' with
  | throw e1 => rw [h1] at h; simp only [Option.some.injEq, CRes.throw.injEq] at h; left; rw [h]
  | ub => rw [h1] at h; simp at h
  | ok ss =>
    rw [h1] at h
    simp only [Bool.and_false, Bool.false_eq_true, if_false] at h
    cases h2 : getPoses to' with
    | throw e2 => rw [h2] at h; simp only [Option.some.injEq, CRes.throw.injEq] at h; right; rw [h]
    | ub => rw [h2] at h; simp at h
    | ok gs =>
      exfalso
      rw [h2] at h
      simp only [Option.map_eq_some_iff, Prod.exists] at h
      obtain ⟨r, st', hr, he⟩ := h
      obtain ⟨f2, p, st2, hr2, _⟩ := search_terminates_valid (A := A) ok L
        { cfg with start := ss.filter (fun s => !isOcc s), goal := gs.filter (fun g => !isOcc g) }
        ht ⟨fun k s g _ => hx k s g, fun k n g e h => by rw [show _ = _ from hx k n g] at h; cases h⟩
      have := search_result_unique hr hr2
      simp only [Prod.mk.injEq] at this
      rw [this.1] at he
      cases he

/-- **C32 (what happens instead, off the map).**  The lookup's own exception propagates. -/
theorem off_map_propagates {Pose : Type} (getPoses : Pose → CRes (List N)) (isOcc : N → Bool)
    (cfg : SCfg N C) (lab : Labels N C) (from' to' : Pose) (fuel : Nat) (e : String)
    (h : getPoses from' = .throw e ∨ (∃ ss, getPoses from' = .ok ss) ∧ getPoses to' = .throw e) :
    findPathPose A P getPoses isOcc cfg lab from' to' fuel = some (.throw e) := by
  unfold findPathPose
  rcases h with h | ⟨⟨ss, h1⟩, h2⟩
  · rw [h]
  · rw [h1, h2]; simp

/-- **C32 (what happens instead, occupied).**  If all start nodes or all goal nodes are occupied
the result is an empty path, without any exception. -/
theorem occupied_gives_empty {Pose : Type} (ok : CostOk A) (L : Lawful P)
    (getPoses : Pose → CRes (List N)) (isOcc : N → Bool) (cfg : SCfg N C) (ht : TopOk cfg.top)
    (hx : ∀ k n g, cfg.canExpand k n g = none) (from' to' : Pose) {ss gs : List N}
    (h1 : getPoses from' = .ok ss) (h2 : getPoses to' = .ok gs)
    (hocc : (∀ s ∈ ss, isOcc s = true) ∨ (∀ g ∈ gs, isOcc g = true)) :
    ∃ fuel, findPathPose A P getPoses isOcc cfg (freshLabels A) from' to' fuel =
      some (.ok []) := by
  obtain ⟨fuel, p, st', hr, hp⟩ := search_terminates_valid (A := A) ok L
    { cfg with start := ss.filter (fun s => !isOcc s), goal := gs.filter (fun g => !isOcc g) }
    ht ⟨fun k s g _ => hx k s g, fun k n g e h => by rw [show _ = _ from hx k n g] at h; cases h⟩
  refine ⟨fuel, ?_⟩
  unfold findPathPose
  rw [h1, h2]
  simp only [Bool.and_false, Bool.false_eq_true, if_false, hr, Option.map_some]
  rcases hp with rfl | ⟨t, l, d, hw, hc⟩
  · rfl
  · exfalso
    rcases hocc with ho | ho
    · have hnil : ss.filter (fun s => !isOcc s) = [] := by
        rw [List.filter_eq_nil_iff]; intro a ha; simp [ho a ha]
      have : ∀ {t l d}, WalkTo A [] t l d → False := by
        intro t l d hw
        induction hw with
        | start h => cases h
        | step _ _ ih => exact ih
      simp only [hnil] at hw
      exact this hw
    · have hnil : gs.filter (fun g => !isOcc g) = [] := by
        rw [List.filter_eq_nil_iff]; intro a ha; simp [ho a ha]
      rcases hc with ⟨_, g, hg, _⟩ | ⟨g, hg, _⟩
      · simp only [hnil] at hg; cases hg
      · simp only [hnil] at hg; cases hg

/-! ### Custom goal tests, analytic expansion at the start -/

/-- Finding: a custom goal test that signals termination without having called
`addGoalCandidate` always gets an empty path, whatever the map: `result` is only ever filled by
the built-in pose test. -/
theorem customTest_without_candidate_empty (cfg : SCfg N C) (ht : TopOk cfg.top)
    (T : GoalTest N C P) (hf : ∀ st n, (T.terminate st n).1 = none) (lab : Labels N C) {fuel : Nat}
    {r} {st' : SSt N C P} (hrun : findPathCustom A P cfg T lab fuel = some (r, st')) :
    r = .ok [] := by
  have hnb : ∀ (st : SSt N C P) cur, ∃ b, customTest A T st cur = .ok ⟨b, [], st⟩ := by
    intro st cur
    exact ⟨(T.terminate st cur).2, by simp [customTest, hf st cur]⟩
  have hexp : ∀ (goal : List N) (cur : N) (es : List (N × C)) (st : SSt N C P),
      (es.foldl (fun y e => processNeighbor A goal y cur e.1 e.2) st).cands = st.cands := by
    intro goal cur es
    induction es with
    | nil => intro st; rfl
    | cons e es ih =>
      intro st
      refine (ih _).trans ?_
      unfold processNeighbor
      simp only
      split
      · rfl
      · split <;> rfl
  have hinit : (initSearch A P { cfg with goal := [], heurGoal := T.heurGoal } lab).cands = [] := by
    have : ∀ (ss : List N) (st : SSt N C P), (ss.foldl (addStart A) st).cands = st.cands := by
      intro ss
      induction ss with
      | nil => intro st; rfl
      | cons s ss ih => intro st; exact (ih _).trans rfl
    exact this _ _
  obtain ⟨st1, hI, hi⟩ := run_last (I := fun st : SSt N C P => st.cands = []) (by
    intro st st2 h hi
    obtain ⟨cur, o, t, _, _, ht1, _, _, rfl⟩ := iterate_more hi
    obtain ⟨b, hb⟩ := hnb (popNode A { cfg with goal := [], heurGoal := T.heurGoal } st cur o) cur
    rw [hb] at ht1; cases ht1
    show (expandNode A _ _ cur).cands = []
    exact (hexp _ _ _ _).trans h) fuel _ st' r hrun hinit
  have hfin : ∀ st : SSt N C P, st.cands = [] → finish { cfg with goal := [], heurGoal := T.heurGoal } st = .ok [] := by
    intro st h
    simp [finish, h, (ht.none_iff []).2 rfl]
  rcases iterate_done hi with ⟨_, _, h⟩ | ⟨_, _, h⟩ | ⟨cur, o, _, h⟩
  · rw [h]; exact hfin _ hI
  · rw [h]; exact hfin _ hI
  · obtain ⟨b, hb⟩ := hnb (popNode A { cfg with goal := [], heurGoal := T.heurGoal } st1 cur o) cur
    rw [hb] at h
    rcases h with ⟨h, _⟩ | ⟨e, h, _⟩ | ⟨t, h, _, h3⟩
    · cases h
    · cases h
    · cases h
      rcases h3 with ⟨_, h5, _⟩ | ⟨_, _, h6⟩ | ⟨_, _, h5, _⟩
      · exact absurd rfl h5
      · rw [h6]; exact hfin _ hI
      · exact absurd hI h5

/-- Finding: if the analytic expansion succeeds already at the (single) start node, the search
has undefined behaviour for every map: it backtracks from a *copy* of the start node, whose
address is not in `start`, and follows its null `prev`. -/
theorem expansion_at_start_ub (L : Lawful P) (cfg : SCfg N C) {s g : N} {gs : List N}
    (hs : cfg.start = [s]) (hg : cfg.goal = g :: gs) (hab : cfg.abort 0 = false)
    {e : List N} (he : cfg.canExpand 1 s g = some e) :
    ∃ st', findPathNodes A P cfg (freshLabels A) 1 = some (.ub, st') := by
  obtain ⟨k1, _, k3, k4, k5⟩ := init_facts (A := A) (L := L) (cfg := cfg)
  have hex : (initSearch A P cfg (freshLabels A)).expansions = 0 := by
    simp [initSearch, hs, addStart]
  have hmem : s ∈ cfg.start := by rw [hs]; simp
  unfold findPathNodes
  generalize initSearch A P cfg (freshLabels A) = st0 at *
  have hfirst : ∃ o, P.next st0.opn = some (s, o) := by
    cases hn : P.next st0.opn with
    | none => exact absurd (k4 s hmem) ((L.next_none _).1 hn s)
    | some co =>
      have := k3 co.1 (L.next_some _ co.1 co.2 hn).1
      rw [hs] at this
      simp only [List.mem_singleton] at this
      exact ⟨co.2, by rw [← this]⟩
  obtain ⟨o, hn⟩ := hfirst
  refine ⟨popNode A cfg st0 s o, ?_⟩
  have hexp : (popNode A cfg st0 s o).expansions = 1 := by simp [popNode, hex]
  have hprev : ((popNode A cfg st0 s o).lab s).prev = none := by
    simp [popNode, setLab, k1 s hmem]
  have htest : poseTest A cfg (popNode A cfg st0 s o) s = .ub := by
    unfold poseTest
    rw [hg, expansionLoop, hexp, he]
    by_cases hemp : e.isEmpty = true
    · simp [hemp]
    · simp only [hemp, Bool.false_eq_true, if_false]
      unfold backtrackCopy
      rw [hprev]
      rfl
  have : iterate A cfg (poseTest A cfg) st0 = .done .ub (popNode A cfg st0 s o) := by
    unfold iterate
    rw [hn]
    simp only [hex, hab, Bool.false_eq_true, if_false]
    rw [htest]
  rw [searchLoop, this]

end PathPlanning
