import Verif.Lemmas.KinHist
import Verif.Lemmas.KinCustom

/-!
# States in the middle of a search over nodes with stored poses
-/

namespace PathPlanning
open Spec
set_option linter.unusedSectionVars false

variable {N K C : Type} [DecidableEq N] [LinearOrder C] [Fintype N]
variable {P : OpenList N C}
variable {A : KAlgo N K C} {cs : List C} {L : Lawful P} {cfg : SCfg N C} {S : List N} {lab0 : Labels N C} {kin0 : N → K}

/-- What holds in every state of a search. -/
structure KMid (A : KAlgo N K C) (cs : List C) (L : Lawful P) (cfg : SCfg N C) (S : List N) (lab0 : Labels N C)
    (kin0 : N → K) (st : KSt N K C P) : Prop where
  core : KHCore A cs S cfg.start lab0 st.s.lab
  mem : ∀ n, L.mem st.s.opn n → Touched cfg.start lab0 st.s.lab n
  startKin : ∀ s ∈ cfg.start, st.kin s = kin0 s
  newKin : ∀ n, ¬ Touched cfg.start lab0 st.s.lab n → st.kin n = kin0 n
  stored : ∀ n, n ∉ cfg.start → Touched cfg.start lab0 st.s.lab n →
    A.lookup (st.kin n) = .ok (some n) ∧ Reachable A cfg.start kin0 (st.kin n)

theorem KMid.reachable {st : KSt N K C P} (h : KMid A cs L cfg S lab0 kin0 st) {n : N}
    (hd : Touched cfg.start lab0 st.s.lab n) : Reachable A cfg.start kin0 (st.kin n) := by
  by_cases hs : n ∈ cfg.start
  · rw [h.startKin n hs]; exact .start hs
  · exact (h.stored n hs hd).2

theorem KMid.same {st : KSt N K C P} (h : KMid A cs L cfg S lab0 kin0 st) {s' : SSt N C P}
    (hs : ∀ m, (s'.lab m).dist = (st.s.lab m).dist ∧ (s'.lab m).prev = (st.s.lab m).prev ∧
      (((s'.lab m).opn = true ∨ (s'.lab m).closed = true) ↔ ((st.s.lab m).opn = true ∨ (st.s.lab m).closed = true)))
    (hmem : ∀ n, L.mem s'.opn n → L.mem st.s.opn n) : KMid A cs L cfg S lab0 kin0 { st with s := s' } where
  core lab kin := (h.core lab kin).congr (fun m => ⟨(hs m).1, (hs m).2.1⟩) (fun m => (hs m).2.2)
  mem n hn := (touched_congr (hs n).1).2 (h.mem n (hmem n hn))
  startKin := h.startKin
  newKin n hn := h.newKin n (fun ht => hn ((touched_congr (hs n).1).2 ht))
  stored n hn ht := h.stored n hn ((touched_congr (hs n).1).1 ht)

theorem KMid.try (ok : KCostOk A cs) {goal : List N} {st st' : KSt N K C P} {cur : N} {mv} (hmv : mv ∈ A.moves)
    (h : KMid A cs L cfg S lab0 kin0 st) (hcur : Touched cfg.start lab0 st.s.lab cur)
    (hk : kTry A goal cur mv st = .ok st') :
    KMid A cs L cfg S lab0 kin0 st' ∧ Touched cfg.start lab0 st'.s.lab cur := by
  unfold kTry at hk
  cases hm : mv (st.kin cur) (kPreds st.s.lab st.kin cur A.predDepth) with
  | none => rw [hm] at hk; cases hk; exact ⟨h, hcur⟩
  | some ck =>
    obtain ⟨c, k⟩ := ck
    rw [hm] at hk
    simp only at hk
    cases hus : A.usable (st.kin cur) k with
    | throw e => rw [hus] at hk; cases hk
    | ub => rw [hus] at hk; cases hk
    | ok b =>
      rw [hus] at hk
      simp only [CRes.bind] at hk
      cases b with
      | false => cases hk; exact ⟨h, hcur⟩
      | true =>
        simp only [if_true] at hk
        cases hlk : A.lookup k with
        | throw e => rw [hlk] at hk; cases hk
        | ub => rw [hlk] at hk; cases hk
        | ok r =>
          rw [hlk] at hk
          simp only at hk
          cases r with
          | none => cases hk; exact ⟨h, hcur⟩
          | some n =>
            simp only at hk
            have hcs : c ∈ cs := ok.costs mv hmv _ _ _ _ hm
            have hC := h.core st.s.lab st.kin
            have hu : (st.s.lab cur).dist ≠ ⊤ := hC.fin hcur
            obtain ⟨c1, c2, c3, hcase⟩ := process_cases_reach (A := A.alg st.s.lab st.kin)
              (goal := goal) (c := c) (hC.reach n) hu
            have hadd := processAdds_iff (A := A) (c := c) (hC.reach n) hu
            generalize processNeighbor (A.alg st.s.lab st.kin) goal st.s cur n c = s' at *
            simp only [KAlgo.alg_addW] at hcase
            rcases hcase with ⟨hncl, hop, hsame⟩ | ⟨hcl, hop, hv, hvc, _, hother⟩
            · have : processAdds A st.s cur n c = false := by
                rw [← Bool.not_eq_true, hadd]; exact hncl
              rw [this] at hk
              simp only [Bool.false_eq_true, if_false] at hk
              cases hk
              have hs : ∀ m, SameLab (st.s.lab m) (s'.lab m) := fun m => (hsame m).1
              exact ⟨h.same (fun m => ⟨(hs m).1, (hs m).2.1, by rw [(hs m).2.2.1, (hs m).2.2.2]⟩)
                (fun n hn => by rw [hop] at hn; exact hn), (touched_congr (hs cur).1).2 hcur⟩
            · rw [hadd.2 hcl] at hk
              simp only [if_true] at hk
              have hne : n ≠ cur := by
                rintro rfl
                exact absurd (ok.le_addW hcs _) (not_le.2 hcl)
              rw [if_neg hne] at hk
              cases hk
              have hle : ∀ m, (s'.lab m).dist ≤ (st.s.lab m).dist := by
                intro m
                by_cases e : m = n
                · subst e; rw [hv.1]; exact hcl.le
                · rw [hother m e]
              have hnstart : n ∉ cfg.start := by
                intro hs
                rw [hC.s0 n hs] at hcl
                exact absurd ((hC.low cur).trans (ok.le_addW hcs _)) (not_le.2 hcl)
              have hcore : KHCore A cs S cfg.start lab0 s'.lab := by
                apply KHCore.of (lab' := st.s.lab) (kin := st.kin)
                refine hC.relax (ok.full _ _) hcur (A.full_succ hcs) hcl hv (fun m hm => ?_)
                rw [hother m hm]; exact ⟨rfl, rfl, rfl, rfl⟩
              have hTn : Touched cfg.start lab0 s'.lab n :=
                .inr (by rw [hv.1]; exact lt_of_lt_of_le hcl (hC.le0 n))
              have hT : ∀ m, m ≠ n → (Touched cfg.start lab0 s'.lab m ↔ Touched cfg.start lab0 st.s.lab m) :=
                fun m hm => touched_congr (by rw [hother m hm])
              refine ⟨⟨hcore, ?_, ?_, ?_, ?_⟩, hcur.le (hle cur)⟩
              · intro m hm'
                have hm2 : L.mem s'.opn m := hm'
                rw [hop] at hm2
                rcases (L.add_mem _ _ _ _).1 hm2 with e | h1
                · rw [e]; exact hTn
                · exact (h.mem m h1).le (hle m)
              · intro s hs
                have : s ≠ n := fun e => hnstart (e ▸ hs)
                simp only [this, if_false]
                exact h.startKin s hs
              · intro m hm'
                have : m ≠ n := fun e => hm' (e ▸ hTn)
                simp only [this, if_false]
                exact h.newKin m (fun ht => hm' ((hT m this).2 ht))
              · intro m hms hmd
                by_cases e : m = n
                · subst e
                  simp only [if_true]
                  exact ⟨hlk, .step (h.reachable hcur) ⟨mv, hmv, _, hm, hus⟩ hlk⟩
                · simp only [e, if_false]
                  exact h.stored m hms ((hT m e).1 hmd)

theorem KMid.pop {st : KSt N K C P} (h : KMid A cs L cfg S lab0 kin0 st) {cur : N} {o : P.O}
    (hn : P.next st.s.opn = some (cur, o)) {B : Algo N C} {cfg' : SCfg N C} :
    KMid A cs L cfg S lab0 kin0 { st with s := popNode B cfg' st.s cur o } ∧
      Touched cfg.start lab0 (popNode B cfg' st.s cur o).lab cur := by
  obtain ⟨hk, hsub, hsup⟩ := L.next_some _ _ _ hn
  have hcur := h.mem cur hk
  have hoth : ∀ n, n ≠ cur → (popNode B cfg' st.s cur o).lab n = st.s.lab n := fun n hne => setLab_ne _ _ hne
  have hself : ∃ hh, (popNode B cfg' st.s cur o).lab cur = { st.s.lab cur with
      opn := false, closed := true, expanded := true, h := hh } := ⟨_, setLab_self _ _ _⟩
  obtain ⟨hh, hself⟩ := hself
  have hd : ∀ n, ((popNode B cfg' st.s cur o).lab n).dist = (st.s.lab n).dist := by
    intro n
    by_cases e : n = cur
    · subst e; rw [hself]
    · rw [hoth n e]
  refine ⟨h.same (fun m => ⟨hd m, ?_, ?_⟩) (fun n hn' => hsub n hn'), (touched_congr (hd cur)).2 hcur⟩
  · by_cases e : m = cur
    · subst e; rw [hself]
    · rw [hoth m e]
  · by_cases e : m = cur
    · subst e
      rw [hself]
      have := ((h.core st.s.lab st.kin).reach m).1 ((h.core st.s.lab st.kin).fin hcur)
      simp [this]
    · rw [hoth m e]

/-- The invariant holds in every state of a search. -/
theorem during_mid (ok : KCostOk A cs) (L : Lawful P) (hh : KHist A cs S lab0) (hS : ∀ s ∈ cfg.start, s ∈ S) {pc}
    {st : KSt N K C P} (h : During A P cfg lab0 kin0 pc st) :
    KMid A cs L cfg S lab0 kin0 st ∧
      ∀ cur ms, pc = some (cur, ms) → Touched cfg.start lab0 st.s.lab cur ∧ ∀ mv ∈ ms, mv ∈ A.moves := by
  induction h with
  | init =>
    obtain ⟨h1, _⟩ := khInit_inv (P := P) (L := L) (kin0 := kin0) hh hS
    exact ⟨⟨h1.core, h1.mem, h1.startKin, h1.newKin, fun n hn ht => (h1.edge n hn ht).reachable⟩, by simp⟩
  | pop hg _ hn ih =>
    obtain ⟨h1, h2⟩ := ih.1.pop hn (B := A.alg _ _) (cfg' := { cfg with heurGoal := hg })
    refine ⟨h1, fun cur ms e => ?_⟩
    cases e
    exact ⟨h2, fun mv hmv => hmv⟩
  | @cands pc st st' _ e1 e2 e3 ih =>
    have h0 := ih.1.same (s' := st'.s) (fun m => by rw [e1]; exact ⟨rfl, rfl, Iff.rfl⟩) (fun n hn => by rw [e2] at hn; exact hn)
    have e : ({ st with s := st'.s } : KSt N K C P) = st' := by
      obtain ⟨s1, k1⟩ := st'
      simp only at e3
      rw [e3]
    rw [e] at h0
    refine ⟨h0, fun cur ms e => ?_⟩
    obtain ⟨h1, h2⟩ := ih.2 cur ms e
    exact ⟨(touched_congr (by rw [e1])).2 h1, h2⟩
  | @move cur mv ms st st' _ hk ih =>
    obtain ⟨h1, h2⟩ := ih.2 cur (mv :: ms) rfl
    obtain ⟨h3, h4⟩ := ih.1.try ok (h2 mv (by simp)) h1 hk
    refine ⟨h3, fun cur' ms' e => ?_⟩
    cases e
    exact ⟨h4, fun mv' hmv' => h2 mv' (List.mem_cons_of_mem _ hmv')⟩
  | loop _ ih => exact ⟨ih.1, by simp⟩

/-- Histories with other maps, neighbourhoods, heuristics and goal tests. -/
theorem KHist.other {A' : KAlgo N K C} (h0 : A'.zero = A.zero) (ha : A'.add = A.add) {lab : Labels N C}
    (h : KHist A cs S lab) : KHist A' cs S lab := fun l k =>
  SameArith.hist (A := A.full cs l k) (B := A'.full cs l k) ⟨h0.symm, ha.symm, rfl⟩ (h l k)

theorem _root_.PathPlanning.Spec.KCostOk.other {A' : KAlgo N K C} (ok : KCostOk A cs) (ha : A'.add = A.add)
    (hm : A'.moves = A.moves) : KCostOk A' cs where
  costs mv h := ok.costs mv (hm ▸ h)
  infl := by rw [ha]; exact ok.infl
  mono := by rw [ha]; exact ok.mono

/-- The invariant holds after every history. -/
theorem KUsed_hist (L : Lawful P) {lab : Labels N C} (h : KUsed A cs P S lab) : KHist A cs S lab := by
  induction h with
  | setMap => exact fun lab' kin => hist_fresh (A := A.full cs lab' kin)
  | @left S lab A' cfg kin pc st _ h0 ha ok hd ih =>
    have ih' : KHist A' cs (cfg.start ++ S) lab := fun l k =>
      ((KHist.other h0 ha ih) l k).mono fun s hs => List.mem_append_right _ hs
    have hm := (during_mid ok L ih' (fun s hs => List.mem_append_left _ hs) hd).1
    exact KHist.other h0.symm ha.symm fun l k => (hm.core l k).toHist

/-! ### Complete runs are among the states described -/

theorem goalLoop_frame {cfg1 : SCfg N C} {B : Algo N C} {cur : N} :
    ∀ (gs : List N) (st : SSt N C P) (t), goalLoop B cfg1 cur gs st = .ok t → t.st.lab = st.lab ∧ t.st.opn = st.opn := by
  intro gs
  induction gs with
  | nil => intro st t h; cases h; exact ⟨rfl, rfl⟩
  | cons g gs ih =>
    intro st t h
    rw [goalLoop] at h
    by_cases hg : B.isGoal g cur = true
    · rw [if_pos hg] at h
      by_cases hu : cfg1.useCands = true
      · rw [if_pos hu] at h
        simp only at h
        cases hf : cfg1.accept with
        | none =>
          rw [hf] at h
          simp only at h
          exact ih (addCandidate B st cur (B.distTo g cur)) t h
        | some f =>
          rw [hf] at h
          simp only at h
          cases hb : backtrack (addCandidate B st cur (B.distTo g cur)).lab cfg1.start cur with
          | throw e => rw [hb] at h; cases h
          | ub => rw [hb] at h; cases h
          | ok p =>
            rw [hb] at h
            simp only [CRes.ok_bind] at h
            by_cases hp : f p = true
            · rw [if_pos hp] at h; cases h; exact ⟨rfl, rfl⟩
            · rw [if_neg hp] at h; exact ih (addCandidate B st cur (B.distTo g cur)) t h
      · rw [if_neg hu] at h
        cases hb : backtrack st.lab cfg1.start cur with
        | throw e => rw [hb] at h; cases h
        | ub => rw [hb] at h; cases h
        | ok p =>
          rw [hb] at h
          cases h; exact ⟨rfl, rfl⟩
    · rw [if_neg hg] at h; exact ih _ _ h

theorem _root_.PathPlanning.Spec.During.expand {cur : N} : ∀ (ms : List (K → List K → Option (C × K))) (st st' : KSt N K C P),
    During A P cfg lab0 kin0 (some (cur, ms)) st → kExpand A cfg.goal cur ms st = .ok st' →
      During A P cfg lab0 kin0 none st' := by
  intro ms
  induction ms with
  | nil => intro st st' h hk; cases hk; exact .loop h
  | cons mv ms ih =>
    intro st st' h hk
    rw [kExpand] at hk
    cases ht : kTry A cfg.goal cur mv st with
    | throw e => rw [ht] at hk; cases hk
    | ub => rw [ht] at hk; cases hk
    | ok st1 => rw [ht] at hk; exact ih st1 st' (.move h ht) hk

theorem _root_.PathPlanning.Spec.During.iterate {st : KSt N K C P} (h : During A P cfg lab0 kin0 none st) :
    match kIterate A cfg st with
    | .more st' => During A P cfg lab0 kin0 none st'
    | .done _ st' => ∃ pc, During A P cfg lab0 kin0 pc st' := by
  unfold kIterate
  cases hn : P.next st.s.opn with
  | none => exact ⟨_, h⟩
  | some co =>
    obtain ⟨cur, o⟩ := co
    simp only
    by_cases hab : cfg.abort st.s.expansions = true
    · rw [if_pos hab]; exact ⟨_, h⟩
    rw [if_neg hab]
    have h1 : During A P cfg lab0 kin0 (some (cur, A.moves))
        { st with s := popNode (A.alg st.s.lab st.kin) cfg st.s cur o } := .pop cfg.heurGoal h hn
    cases hgl : goalLoop (A.alg (popNode (A.alg st.s.lab st.kin) cfg st.s cur o).lab st.kin) (A.cfg cfg st.kin) cur
        cfg.goal (popNode (A.alg st.s.lab st.kin) cfg st.s cur o) with
    | throw e => exact ⟨_, h1⟩
    | ub => exact ⟨_, h1⟩
    | ok t =>
      obtain ⟨e1, e2⟩ := goalLoop_frame _ _ _ hgl
      have h2 : During A P cfg lab0 kin0 (some (cur, A.moves)) { st with s := t.st } := .cands h1 e1 e2 rfl
      simp only
      by_cases hT : t.term = true
      · rw [if_pos hT]
        by_cases hr : t.result ≠ []
        · rw [if_pos hr]; exact ⟨_, h2⟩
        · rw [if_neg hr]; exact ⟨_, h2⟩
      rw [if_neg hT]
      split_ifs
      · exact ⟨_, h2⟩
      · cases hk : kExpand A cfg.goal cur A.moves { st with s := t.st } with
        | throw e => exact ⟨_, h2⟩
        | ub => exact ⟨_, h2⟩
        | ok st' => exact h2.expand _ _ _ hk

theorem _root_.PathPlanning.Spec.During.run : ∀ (fuel : Nat) (st : KSt N K C P), During A P cfg lab0 kin0 none st → ∀ r st',
    kLoop A cfg fuel st = some (r, st') → ∃ pc, During A P cfg lab0 kin0 pc st' := by
  intro fuel
  induction fuel with
  | zero => intro st _ r st' h; simp [kLoop] at h
  | succ fuel ih =>
    intro st hd r st' h
    rw [kLoop] at h
    have hi := hd.iterate
    cases hk : kIterate A cfg st with
    | done r1 st1 =>
      rw [hk] at h hi
      simp only [Option.some.injEq, Prod.mk.injEq] at h
      obtain ⟨rfl, rfl⟩ := h
      exact hi
    | more st1 => rw [hk] at h hi; exact ih st1 hi r st' h

/-- The state at the end of a search between poses (or when it is left by an exception) is one of those of the search. -/
theorem during_kFindOn {fuel : Nat} {r : CRes (List N)} {st : KSt N K C P}
    (h : kFindOn A P cfg lab0 kin0 fuel = some (r, st)) : ∃ pc, During A P cfg lab0 kin0 pc st :=
  During.run fuel _ .init r st h

theorem _root_.PathPlanning.Spec.During.iterateT {T : KGoalTest N K C P} {st : KSt N K C P}
    (h : During A P { cfg with goal := [] } lab0 kin0 none st) :
    match kIterateT A cfg T st with
    | .more st' => During A P { cfg with goal := [] } lab0 kin0 none st'
    | .done _ st' => ∃ pc, During A P { cfg with goal := [] } lab0 kin0 pc st' := by
  unfold kIterateT
  cases hn : P.next st.s.opn with
  | none => exact ⟨_, h⟩
  | some co =>
    obtain ⟨cur, o⟩ := co
    simp only
    by_cases hab : cfg.abort st.s.expansions = true
    · rw [if_pos hab]; exact ⟨_, h⟩
    rw [if_neg hab]
    have h1 : During A P { cfg with goal := [] } lab0 kin0 (some (cur, A.moves)) (popT A cfg T st cur o) :=
      During.pop (st := st) (tCfg cfg T st.kin).heurGoal h hn
    obtain ⟨p1, p2, p3, p4, p5, p6⟩ := kTest_parts (A := A) (T := T) (popT A cfg T st cur o) cur
    have h2 : During A P { cfg with goal := [] } lab0 kin0 (some (cur, A.moves)) (kTest A T (popT A cfg T st cur o) cur) := 
      h1.cands p2 p3 p1
    change (match (if (T.terminate (popT A cfg T st cur o) cur).2 = true then
        KIter.done _ (kTest A T (popT A cfg T st cur o) cur) else
      if _ then KIter.done _ (kTest A T (popT A cfg T st cur o) cur) else
        match kExpand A [] cur A.moves (kTest A T (popT A cfg T st cur o) cur) with
        | .throw e => .done (.throw e) (kTest A T (popT A cfg T st cur o) cur)
        | .ub => .done .ub (kTest A T (popT A cfg T st cur o) cur)
        | .ok st' => .more st') with
      | .more st' => During A P { cfg with goal := [] } lab0 kin0 none st'
      | .done _ st' => ∃ pc, During A P { cfg with goal := [] } lab0 kin0 pc st')
    by_cases hT : (T.terminate (popT A cfg T st cur o) cur).2 = true
    · rw [if_pos hT]; exact ⟨_, h2⟩
    rw [if_neg hT]
    split_ifs
    · exact ⟨_, h2⟩
    · cases hk : kExpand A [] cur A.moves (kTest A T (popT A cfg T st cur o) cur) with
      | throw e => exact ⟨_, h2⟩
      | ub => exact ⟨_, h2⟩
      | ok st' => exact h2.expand _ _ _ hk

theorem _root_.PathPlanning.Spec.During.runT {T : KGoalTest N K C P} : ∀ (fuel : Nat) (st : KSt N K C P),
    During A P { cfg with goal := [] } lab0 kin0 none st → ∀ r st',
    kLoopT A cfg T fuel st = some (r, st') → ∃ pc, During A P { cfg with goal := [] } lab0 kin0 pc st' := by
  intro fuel
  induction fuel with
  | zero => intro st _ r st' h; simp [kLoopT] at h
  | succ fuel ih =>
    intro st hd r st' h
    rw [kLoopT] at h
    have hi := hd.iterateT (T := T)
    cases hk : kIterateT A cfg T st with
    | done r1 st1 =>
      rw [hk] at h hi
      simp only [Option.some.injEq, Prod.mk.injEq] at h
      obtain ⟨rfl, rfl⟩ := h
      exact hi
    | more st1 => rw [hk] at h hi; exact ih st1 hi r st' h

/-- The same for a search with a goal test. -/
theorem during_kLoopT {T : KGoalTest N K C P} {fuel : Nat} {r : CRes (List N)} {st : KSt N K C P}
    (h : kLoopT A cfg T fuel (kInitOn A P cfg lab0 kin0) = some (r, st)) :
    ∃ pc, During A P { cfg with goal := [] } lab0 kin0 pc st :=
  During.runT fuel _ .init r st h

/-- A search between poses, however it ends, gives a used object. -/
theorem _root_.PathPlanning.Spec.KUsed.find {lab : Labels N C} (ok : KCostOk A cs) (h : KUsed A cs P S lab) {fuel : Nat}
    {r : CRes (List N)} {st : KSt N K C P} (hf : kFindOn A P cfg lab kin0 fuel = some (r, st)) :
    KUsed A cs P (cfg.start ++ S) st.s.lab := by
  obtain ⟨pc, hd⟩ := during_kFindOn hf
  exact .left h rfl rfl ok hd

/-- A search with a goal test, however it ends, gives a used object. -/
theorem _root_.PathPlanning.Spec.KUsed.test {lab : Labels N C} (ok : KCostOk A cs) (h : KUsed A cs P S lab) {fuel : Nat}
    {T : KGoalTest N K C P} {r : CRes (List N)} {st : KSt N K C P}
    (hf : kLoopT A cfg T fuel (kInitOn A P cfg lab kin0) = some (r, st)) : KUsed A cs P (cfg.start ++ S) st.s.lab := by
  obtain ⟨pc, hd⟩ := during_kLoopT hf
  exact .left (cfg := { cfg with goal := [] }) h rfl rfl ok hd

/-- So does a search in which a map operation throws while a node is expanded: the moves tried before have changed the nodes. -/
theorem _root_.PathPlanning.Spec.KUsed.thrown {lab : Labels N C} (ok : KCostOk A cs) (h : KUsed A cs P S lab) {cur : N}
    {ms1 ms2 : List (K → List K → Option (C × K))} {st st' : KSt N K C P}
    (hd : During A P cfg lab kin0 (some (cur, ms1 ++ ms2)) st) (hk : kExpand A cfg.goal cur ms1 st = .ok st') :
    KUsed A cs P (cfg.start ++ S) st'.s.lab := by
  induction ms1 generalizing st with
  | nil => cases hk; exact .left h rfl rfl ok hd
  | cons mv ms ih =>
    rw [kExpand] at hk
    cases ht : kTry A cfg.goal cur mv st with
    | throw e => rw [ht] at hk; cases hk
    | ub => rw [ht] at hk; cases hk
    | ok st1 => rw [ht] at hk; exact ih (.move hd ht) hk

end PathPlanning
