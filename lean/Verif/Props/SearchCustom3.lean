import Verif.Props.SearchCustom2
import Mathlib.Data.List.Perm.Basic
import Mathlib.Data.List.Sort

/-!
# The heuristic goal of a goal test has no effect (C76); listing all candidates (C77)
-/

namespace PathPlanning
set_option linter.unusedSectionVars false

variable {N C : Type} [DecidableEq N] [LinearOrder C] [Fintype N]
variable {A : Algo N C} {P : OpenList N C}

theorem backtrackFrom_congr {lab lab' : Labels N C} (h : ∀ m, (lab m).prev = (lab' m).prev) (start : List N)
    (cur : N) (contained : Finset N) (path : List N) :
    backtrackFrom lab start cur contained path = backtrackFrom lab' start cur contained path := by
  induction cur, contained, path using backtrackFrom.induct lab start with
  | case1 cur contained path hs => rw [backtrackFrom, backtrackFrom, if_pos hs, if_pos hs]
  | case2 cur contained path hs hc => rw [backtrackFrom, backtrackFrom, if_neg hs, if_neg hs, dif_pos hc, dif_pos hc]
  | case3 cur contained path hs hc hp =>
    rw [backtrackFrom, backtrackFrom, if_neg hs, if_neg hs, dif_neg hc, dif_neg hc, ← h cur, hp]
  | case4 cur contained path hs hc p hp hself =>
    rw [backtrackFrom, backtrackFrom, if_neg hs, if_neg hs, dif_neg hc, dif_neg hc, ← h cur, hp]
    simp only
    rw [← h p, if_pos hself, if_pos hself]
  | case5 cur contained path hs hc p hp hself ih =>
    rw [backtrackFrom, backtrackFrom, if_neg hs, if_neg hs, dif_neg hc, dif_neg hc, ← h cur, hp]
    simp only
    rw [← h p, if_neg hself, if_neg hself]
    exact ih

/-- The two states differ at most in the estimates of closed nodes and in the weight of the first candidate. -/
structure Sim (a b : SSt N C P) : Prop where
  opn : a.opn = b.opn
  cands : a.cands = b.cands
  expansions : a.expansions = b.expansions
  multi : a.multi = b.multi
  touched : a.touched = b.touched
  updates : a.updates = b.updates
  lab : ∀ n, { a.lab n with h := (b.lab n).h } = b.lab n
  h : ∀ n, (a.lab n).closed = false → a.lab n = b.lab n

theorem Sim.fields {a b : SSt N C P} (s : Sim a b) (n : N) :
    (b.lab n).dist = (a.lab n).dist ∧ (b.lab n).opn = (a.lab n).opn ∧ (b.lab n).closed = (a.lab n).closed ∧
    (b.lab n).watched = (a.lab n).watched ∧ (b.lab n).expanded = (a.lab n).expanded ∧ (b.lab n).prev = (a.lab n).prev := by
  have := s.lab n
  exact ⟨(congrArg Label.dist this).symm, (congrArg Label.opn this).symm, (congrArg Label.closed this).symm,
    (congrArg Label.watched this).symm, (congrArg Label.expanded this).symm, (congrArg Label.prev this).symm⟩

theorem Label.ext' {a b : Label N C} (h1 : a.dist = b.dist) (h2 : a.h = b.h) (h3 : a.opn = b.opn)
    (h4 : a.closed = b.closed) (h5 : a.watched = b.watched) (h6 : a.expanded = b.expanded) (h7 : a.prev = b.prev) : a = b := by
  cases a; cases b; simp_all

/-- `processNeighbor` without goal nodes. -/
theorem process_nil (st : SSt N C P) (cur nb : N) (c : C) :
    let closer : Bool := decide (A.addW (st.lab cur).dist c < (st.lab nb).dist)
    let w : Label N C := { st.lab nb with watched := true }
    let l1 : Label N C := { w with prev := some cur, dist := A.addW (st.lab cur).dist c, opn := true }
    processNeighbor A [] st cur nb c =
      if !((st.lab nb).closed && !closer) && (!(st.lab nb).opn || closer) then
        { st with
          lab := setLab (setLab st.lab nb w) nb l1
          opn := P.add st.opn nb (A.total l1)
          touched := st.touched + 1
          updates := if (st.lab nb).opn then st.updates + 1 else st.updates }
      else { st with lab := setLab st.lab nb w } := by
  intro closer w l1
  have hd : (setLab st.lab nb w cur).dist = (st.lab cur).dist := by
    by_cases e : cur = nb
    · subst e; simp [setLab, w]
    · simp [setLab, e]
  unfold processNeighbor
  simp only
  rw [show (setLab st.lab nb { st.lab nb with watched := true } cur).dist = (st.lab cur).dist from hd]
  by_cases h1 : ((st.lab nb).closed && !closer) = true
  · rw [if_pos h1, if_neg (by rw [h1]; simp)]
  · rw [if_neg h1]
    have h1' : ((st.lab nb).closed && !closer) = false := by simpa using h1
    by_cases h2 : (!(st.lab nb).opn || closer) = true
    · have hb : (!((st.lab nb).closed && !closer) && (!(st.lab nb).opn || closer)) = true := by rw [h1', h2]; rfl
      rw [if_pos h2, if_pos hb]
    · have h2' : (!(st.lab nb).opn || closer) = false := by simpa using h2
      rw [if_neg h2, if_neg (by rw [h2']; simp)]

theorem Sim.process {a b : SSt N C P} (s : Sim a b) {cur nb : N} {c : C}
    (hx : A.addW (a.lab cur).dist c < (a.lab nb).dist → (a.lab nb).closed = false) :
    Sim (processNeighbor A [] a cur nb c) (processNeighbor A [] b cur nb c) := by
  obtain ⟨e1, e2, e3, _, _, _⟩ := s.fields nb
  have ecur := (s.fields cur).1
  rw [process_nil a, process_nil b]
  rw [e1, e2, e3, ecur]
  by_cases hc : (!((a.lab nb).closed && !decide (A.addW (a.lab cur).dist c < (a.lab nb).dist)) &&
      (!(a.lab nb).opn || decide (A.addW (a.lab cur).dist c < (a.lab nb).dist))) = true
  · rw [if_pos hc, if_pos hc]
    have hncl : (a.lab nb).closed = false := by
      by_contra hne
      have hne : (a.lab nb).closed = true := by simpa using hne
      rw [hne] at hc
      simp only [Bool.true_and, Bool.not_not, Bool.and_eq_true, decide_eq_true_eq] at hc
      rw [hx hc.1] at hne; cases hne
    have heq := s.h nb hncl
    refine ⟨?_, s.cands, s.expansions, s.multi, ?_, ?_, fun n => ?_, fun n hn => ?_⟩
    · simp only [heq, s.opn]
    · simp only [s.touched]
    · simp only [s.updates]
    · by_cases e : n = nb
      · subst e; simp only [setLab_self, heq]
      · simp only [setLab_ne _ _ e]; exact s.lab n
    · by_cases e : n = nb
      · subst e; simp only [setLab_self, heq]
      · simp only [setLab_ne _ _ e] at hn ⊢; exact s.h n hn
  · rw [if_neg hc, if_neg hc]
    refine ⟨s.opn, s.cands, s.expansions, s.multi, s.touched, s.updates, fun n => ?_, fun n hn => ?_⟩
    · by_cases e : n = nb
      · subst e; simp only [setLab_self]; rw [← s.lab n]
      · simp only [setLab_ne _ _ e]; exact s.lab n
    · by_cases e : n = nb
      · subst e; simp only [setLab_self] at hn ⊢; rw [s.h n hn]
      · simp only [setLab_ne _ _ e] at hn ⊢; exact s.h n hn

theorem Sim.fold (ok : CostOk A) (hz : ∀ a, A.add a A.zero = a) {L : Lawful P} {M : MinFirst P}
    {start : List N} {cur : N} :
    ∀ (es done : List (N × C)) (a b : SSt N C P), XInv A L start cur done a →
      (∀ e ∈ es, e ∈ A.succ cur) → DijInv A M a → Mono A cur a → Sim a b →
      Sim (es.foldl (fun s e => processNeighbor A [] s cur e.1 e.2) a)
        (es.foldl (fun s e => processNeighbor A [] s cur e.1 e.2) b) := by
  intro es
  induction es with
  | nil => intro done a b _ _ _ _ h; exact h
  | cons e es ih =>
    intro done a b hX hes h hm hs
    have hu : (a.lab cur).dist ≠ ⊤ := (hX.core.reach cur).2 (.inr hX.curOk.1)
    have h1 := hX.process (goal := []) ok (nb := e.1) (c := e.2) (hes e (by simp))
    obtain ⟨h2, h3⟩ := h.process hz hX.core hu hX.curOk.1 hm (hes e (by simp))
    refine ih _ _ _ h1.1 (fun x hx => hes x (List.mem_cons_of_mem _ hx)) h2 h3 (hs.process fun hlt => ?_)
    by_contra hne
    exact absurd (hm e.1 e.2 (hes e (by simp)) hlt e.1 (by simpa using hne)) (not_le.2 hlt)

theorem Sim.pop {cfg cfg' : SCfg N C} {a b : SSt N C P} (s : Sim a b) (cur : N) (o : P.O) :
    Sim (popNode A cfg a cur o) (popNode A cfg' b cur o) := by
  obtain ⟨e1, e2, e3, e4, e5, e6⟩ := s.fields cur
  refine ⟨rfl, s.cands, ?_, ?_, s.touched, s.updates, fun n => ?_, fun n hn => ?_⟩
  · simp only [popNode, s.expansions]
  · simp only [popNode, s.multi, e5]
  · by_cases e : n = cur
    · subst e
      simp only [popNode, setLab_self]
      exact Label.ext' e1.symm rfl rfl rfl e4.symm rfl e6.symm
    · simp only [popNode, setLab_ne _ _ e]; exact s.lab n
  · by_cases e : n = cur
    · subst e; simp only [popNode, setLab_self] at hn; cases hn
    · simp only [popNode, setLab_ne _ _ e] at hn ⊢; exact s.h n hn

theorem Sim.finish {cfg cfg' : SCfg N C} (h1 : cfg'.start = cfg.start) (h2 : cfg'.top = cfg.top) {a b : SSt N C P} (s : Sim a b) :
    finish cfg a = PathPlanning.finish cfg' b := by
  unfold PathPlanning.finish
  rw [h2, s.cands]
  cases cfg.top b.cands with
  | none => rfl
  | some x =>
    simp only [backtrack, h1]
    exact backtrackFrom_congr (fun m => ((s.fields m).2.2.2.2.2).symm) _ _ _ _

/-- The same goal test with another heuristic goal. -/
def GoalTest.withGoal (T : GoalTest N C P) (H : Option (N → C)) : GoalTest N C P := { T with heurGoal := H }

theorem Sim.customTest {T : GoalTest N C P} {f : N → Option C × Bool} (hT : ∀ st n, T.terminate st n = f n)
    {H : Option (N → C)} {a b : SSt N C P} (s : Sim a b) (cur : N) :
    ∃ ta tb, customTest A T a cur = .ok ta ∧ PathPlanning.customTest A (T.withGoal H) b cur = .ok tb ∧
      ta.term = tb.term ∧ ta.result = [] ∧ tb.result = [] ∧ Sim ta.st tb.st := by
  refine ⟨_, _, rfl, rfl, ?_, rfl, rfl, ?_⟩
  · simp only [GoalTest.withGoal, hT]
  · simp only [GoalTest.withGoal, hT]
    cases (f cur).1 with
    | none => exact s
    | some w =>
      exact ⟨s.opn, by simp only [addCandidate, s.cands], s.expansions, s.multi, s.touched, s.updates, s.lab, s.h⟩

theorem sim_loop (ok : CostOk A) (hz : ∀ a, A.add a A.zero = a) {L : Lawful P} {M : MinFirst P}
    {cfg : SCfg N C} (hg : cfg.goal = []) (hu : cfg.useCands = false) (ht : TopOk cfg.top)
    {T : GoalTest N C P} {f : N → Option C × Bool} (hT : ∀ st n, T.terminate st n = f n) {H H' : Option (N → C)} :
    ∀ (fuel : Nat) (a b : SSt N C P), SInv A L cfg.start a → DijInv A M a → (∀ x ∈ a.cands, Accepts T x.1 x.2) → Sim a b →
      ∀ r st', searchLoop A cfg (customTest A T) fuel a = some (r, st') →
        ∃ st2, searchLoop A { cfg with heurGoal := H' } (customTest A (T.withGoal H)) fuel b = some (r, st2) ∧ Sim st' st2 := by
  intro fuel
  induction fuel with
  | zero => intro a b _ _ _ _ r st' h; simp [searchLoop] at h
  | succ fuel ih =>
    intro a b hI hD hacc hs r st' h
    rw [searchLoop] at h ⊢
    have hspec := iterate_spec ok ht (customTest_ok (A := A) T cfg.start) hI hacc
    have hstep : (∃ r1 a1 b1, iterate A cfg (customTest A T) a = .done r1 a1 ∧
          iterate A { cfg with heurGoal := H' } (customTest A (T.withGoal H)) b = .done r1 b1 ∧ Sim a1 b1) ∨
        ∃ a1 b1, iterate A cfg (customTest A T) a = .more a1 ∧
          iterate A { cfg with heurGoal := H' } (customTest A (T.withGoal H)) b = .more b1 ∧ Sim a1 b1 := by
      have hfin : ∀ {x y : SSt N C P}, Sim x y → finish { cfg with heurGoal := H' } y = finish cfg x :=
        fun s => (Sim.finish (cfg := cfg) (cfg' := { cfg with heurGoal := H' }) rfl rfl s).symm
      obtain ⟨cfg', hcfg⟩ : ∃ cfg', cfg' = { cfg with heurGoal := H' } := ⟨_, rfl⟩
      have hab' : cfg'.abort = cfg.abort := by rw [hcfg]
      have hu' : cfg'.useCands = false := by rw [hcfg]; exact hu
      have hg' : cfg'.goal = [] := by rw [hcfg]; exact hg
      rw [← hcfg] at hfin ⊢
      unfold iterate
      rw [← hs.opn]
      cases hn : P.next a.opn with
      | none => exact .inl ⟨_, _, _, rfl, by rw [hfin hs], hs⟩
      | some co =>
        obtain ⟨cur, o⟩ := co
        simp only [← hs.expansions, hab']
        by_cases hab : cfg.abort a.expansions = true
        · simp only [hab, if_true]
          exact .inl ⟨_, _, _, rfl, by rw [hfin hs], hs⟩
        · simp only [hab, Bool.false_eq_true, if_false]
          have hp := hs.pop (A := A) (cfg := cfg) (cfg' := cfg') cur o
          obtain ⟨ta, tb, h1, h2, h3, h4, h5, h6⟩ := hp.customTest (A := A) hT (H := H) cur
          simp only [h1, h2, ← h3, h4, h5, hu, hu', Bool.false_and, Bool.false_eq_true, if_false, ne_eq, not_true]
          by_cases hterm : ta.term = true
          · simp only [hterm, if_true]
            exact .inl ⟨_, _, _, rfl, by rw [hfin h6], h6⟩
          · simp only [hterm, Bool.false_eq_true, if_false]
            refine .inr ⟨_, _, rfl, rfl, ?_⟩
            obtain ⟨hX, _, _, hcs, _⟩ := pop_spec (cfg := cfg) hI hn
            obtain ⟨k1, k2, _⟩ := hD.pop ok (cfg := cfg) hI hn
            obtain ⟨t', g1, g2, g3, _, _, _, _, g8, _⟩ := customTest_spec (A := A) T (popNode A cfg a cur o) cur
            rw [h1] at g1; cases g1
            have hXt : XInv A L cfg.start cur [] ta.st := by
              refine ⟨?_, ?_, ?_, ?_, ?_, ?_, ?_⟩
              · rw [g2]; exact hX.core
              · rw [g2, g3]; exact hX.openMem
              · rw [g2, g3]; exact hX.memReach
              · rw [g2]; exact hX.curOk
              · rw [g2]; exact hX.relaxed
              · intro v c hv; cases hv
              · intro x hx1
                rw [g2]
                rcases g8 x hx1 with h1 | h1
                · exact hX.cands x h1
                · rw [h1.1]; exact hX.curOk.1
            unfold expandNode
            rw [hg, hg']
            refine Sim.fold (M := M) (L := L) ok hz _ [] _ _ hXt (fun e he => he)
              (k1.congr g3 fun m => by rw [g2]; exact ⟨⟨rfl, rfl, rfl, rfl⟩, rfl⟩) ?_ h6
            intro v c hv
            rw [g2]
            exact k2 v c hv
    rcases hstep with ⟨r1, a1, b1, h1, h2, h3⟩ | ⟨a1, b1, h1, h2, h3⟩
    · rw [h1] at h
      rw [h2]
      simp only [Option.some.injEq, Prod.mk.injEq] at h
      obtain ⟨rfl, rfl⟩ := h
      exact ⟨b1, rfl, h3⟩
    · have hD' := customDij_pres ok hz hI hD hg h1
      rw [h1] at h hspec
      rw [h2]
      exact ih a1 b1 hspec.1 hD' hspec.2.1 h3 r st' h

theorem Sim.refl (a : SSt N C P) : Sim a a := ⟨rfl, rfl, rfl, rfl, rfl, rfl, fun _ => rfl, fun _ _ => rfl⟩

/-- **C76 (finding).**  The heuristic goal of a goal test has no effect at all (with a priority queue, without oversearch): replacing
it by any other one, or by none, changes neither the result nor the number of expansions, nor the candidates. -/
theorem heuristic_goal_no_effect (ok : CostOk A) (hz : ∀ a, A.add a A.zero = a) (L : Lawful P) (M : MinFirst P)
    (cfg : SCfg N C) (ht : TopOk cfg.top) (hu : cfg.useCands = false) (T : GoalTest N C P) {f : N → Option C × Bool}
    (hT : ∀ st n, T.terminate st n = f n) (H : Option (N → C)) {fuel : Nat} {r} {st' : SSt N C P}
    (hrun : findPathCustom A P cfg T (freshLabels A) fuel = some (r, st')) :
    ∃ st2, findPathCustom A P cfg (T.withGoal H) (freshLabels A) fuel = some (r, st2) ∧
      st2.expansions = st'.expansions ∧ st2.cands = st'.cands ∧ st2.touched = st'.touched ∧
      ∀ n, (st2.lab n).dist = (st'.lab n).dist := by
  obtain ⟨st2, h1, h2⟩ := sim_loop (M := M) ok hz (cfg := customCfg cfg T) rfl hu ht hT (H := H) (H' := H) fuel _ _
    (init_inv (L := L)) (DijInv.init hz L) (by intro x hx; rw [custom_init_cands L] at hx; cases hx) (Sim.refl _) r st' hrun
  exact ⟨st2, h1, h2.expansions.symm, h2.cands.symm, h2.touched.symm, fun n => (h2.fields n).1⟩

/-! ### Listing the candidates -/

theorem candidatePaths_spec {cfg : SCfg N C} (ht : TopOk cfg.top) {lab : Labels N C} (hc : Core A cfg.start lab) :
    ∀ (n : Nat) (cs : List (N × C)), cs.length = n → (∀ x ∈ cs, (lab x.1).closed = true) →
      ∃ ps qs, candidatePaths cfg lab n cs = .ok ps ∧ qs.Perm cs ∧ qs.Pairwise (fun x y => x.2 ≤ y.2) ∧
        PathsTo A cfg.start ps qs ∧ ∀ x, cfg.top cs = some x → ps.head? = (match backtrack lab cfg.start x.1 with
          | .ok p => some p
          | _ => none) := by
  intro n
  induction n with
  | zero =>
    intro cs hl _
    rw [List.length_eq_zero_iff] at hl
    subst hl
    refine ⟨[], [], rfl, .refl _, .nil, .nil, ?_⟩
    intro x hx
    rw [(ht.none_iff []).2 rfl] at hx; cases hx
  | succ n ih =>
    intro cs hl hcl
    rw [candidatePaths]
    cases htop : cfg.top cs with
    | none => rw [(ht.none_iff cs).1 htop] at hl; simp at hl
    | some x =>
      have hx := ht.mem _ _ htop
      obtain ⟨l, d, hb⟩ := hc.back x.1 ((hc.reach x.1).2 (.inr (hcl x hx)))
      have hbt := backtrack_ok hc.sp hb
      obtain ⟨ps, qs, h1, h2, h3, h4, _⟩ := ih (cs.erase x) (by rw [List.length_erase_of_mem hx]; omega)
        (fun y hy => hcl y (List.mem_of_mem_erase hy))
      refine ⟨l :: ps, x :: qs, ?_, ?_, ?_, .cons ⟨d, hb.walk⟩ h4, ?_⟩
      · simp only [hbt, CRes.ok_bind, h1, CRes.pure_eq]
      · exact (h2.cons x).trans (List.perm_cons_erase hx).symm
      · refine List.pairwise_cons.2 ⟨?_, h3⟩
        intro y hy
        exact ht.min _ _ htop y (List.mem_of_mem_erase (h2.subset hy))
      · intro y hy
        cases hy
        rw [hbt]; rfl

/-- **C77.**  After a search with a goal test `getPathCandidates` lists one path for every accepted node, each a walk of free nodes
from a start node to that node, in the order of increasing weights; the first one is the path the search returned. -/
theorem custom_candidates_listed (ok : CostOk A) (L : Lawful P) (cfg : SCfg N C) (ht : TopOk cfg.top)
    (T : GoalTest N C P) {fuel : Nat} {r} {st' : SSt N C P}
    (hrun : findPathCustom A P cfg T (freshLabels A) fuel = some (r, st')) :
    ∃ ps qs, getPathCandidates cfg st' = .ok ps ∧ qs.Perm st'.cands ∧ qs.Pairwise (fun x y => x.2 ≤ y.2) ∧
      PathsTo A cfg.start ps qs ∧ r = .ok (ps.head?.getD []) := by
  obtain ⟨f2, r2, st2, h1, h2, _⟩ :=
    searchLoop_spec (L := L) (cfg := customCfg cfg T) ok ht (customTest_ok (A := A) T cfg.start)
      (initSearch A P (customCfg cfg T) (freshLabels A)) init_inv (by
        intro x hx; rw [custom_init_cands L] at hx; cases hx)
  have := custom_result_unique hrun h1
  simp only [Prod.mk.injEq] at this
  obtain ⟨rfl, rfl⟩ := this
  obtain ⟨ps, qs, k1, k2, k3, k4, k5⟩ := candidatePaths_spec (cfg := cfg) ht h2.core st'.cands.length st'.cands rfl h2.closed
  refine ⟨ps, qs, k1, k2, k3, k4, ?_⟩
  obtain ⟨st1, hI, hi⟩ := run_last
    (I := fun st : SSt N C P => SInv A L cfg.start st ∧ ∀ x ∈ st.cands, Accepts T x.1 x.2) (by
      intro st st2 h hi
      have := iterate_spec ok (cfg := customCfg cfg T) ht (customTest_ok (A := A) T cfg.start) h.1 h.2
      rw [show iterate A (customCfg cfg T) (customTest A T) st = _ from hi] at this
      exact ⟨this.1, this.2.1⟩) fuel _ st' r hrun
    ⟨init_inv (cfg := customCfg cfg T), by intro x hx; rw [custom_init_cands L] at hx; cases hx⟩
  have hfin : r = finish (customCfg cfg T) st' := by
    rcases iterate_done hi with ⟨_, rfl, h⟩ | ⟨_, rfl, h⟩ | ⟨cur, o, hn, h⟩
    · exact h
    · exact h
    · obtain ⟨t, g1, _, _, _, g5, _⟩ :=
        customTest_spec (A := A) T (popNode A (customCfg cfg T) st1 cur o) cur
      rw [show customTest A T (popNode A { cfg with goal := [], heurGoal := T.heurGoal } st1 cur o) cur = _ from g1] at h
      rcases h with ⟨h, _⟩ | ⟨e, h, _⟩ | ⟨t', h, rfl, h3⟩
      · cases h
      · cases h
      · cases h
        rcases h3 with ⟨_, h5, _⟩ | ⟨_, _, h6⟩ | ⟨_, _, _, _, h6⟩
        · exact absurd g5 h5
        · exact h6
        · exact h6
  rw [hfin]
  unfold finish
  show (match cfg.top st'.cands with
    | some best => backtrack st'.lab cfg.start best.1
    | none => CRes.ok []) = _
  cases htop : cfg.top st'.cands with
  | none =>
    have hnil := (ht.none_iff _).1 htop
    rw [hnil] at k2
    have := k2.eq_nil
    subst this
    cases k4
    rfl
  | some x =>
    have hx := ht.mem _ _ htop
    obtain ⟨l, d, hb⟩ := h2.core.back x.1 ((h2.core.reach x.1).2 (.inr (h2.closed x hx)))
    have hbt : backtrack st'.lab cfg.start x.1 = .ok l := backtrack_ok h2.core.sp hb
    have := k5 x htop
    rw [hbt] at this
    simp only [hbt, this, Option.getD_some]

/-- **C77 for searches between poses.**  After a search between poses `getPathCandidates` lists one walk for every goal candidate, ordered by
the distance of the candidate to the goal. -/
theorem pose_candidates_listed (ok : CostOk A) (L : Lawful P) (cfg : SCfg N C) (ht : TopOk cfg.top) (hx : ExpansionOk cfg)
    {fuel : Nat} {r} {st' : SSt N C P} (hrun : findPathNodes A P cfg (freshLabels A) fuel = some (r, st')) :
    ∃ ps qs, getPathCandidates cfg st' = .ok ps ∧ qs.Perm st'.cands ∧ qs.Pairwise (fun x y => x.2 ≤ y.2) ∧
      PathsTo A cfg.start ps qs ∧ ∀ x ∈ qs, ∃ g ∈ cfg.goal, A.isGoal g x.1 = true ∧ x.2 = A.distTo g x.1 := by
  obtain ⟨f2, r2, st2, h1, h2, _⟩ :=
    searchLoop_spec (L := L) ok ht (poseTest_ok (A := A) (P := P) hx)
      (initSearch A P cfg (freshLabels A)) init_inv (by
        intro x hx; rw [custom_init_cands L] at hx; cases hx)
  have := search_result_unique hrun h1
  simp only [Prod.mk.injEq] at this
  obtain ⟨rfl, rfl⟩ := this
  obtain ⟨ps, qs, k1, k2, k3, k4, _⟩ := candidatePaths_spec (cfg := cfg) ht h2.core st'.cands.length st'.cands rfl h2.closed
  exact ⟨ps, qs, k1, k2, k3, k4, fun x hx => h2.good x (k2.subset hx)⟩

end PathPlanning
