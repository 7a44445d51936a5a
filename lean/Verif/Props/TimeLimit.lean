import Verif.Props.SearchHist
import Verif.Lemmas.DuringSearch
import Verif.Lemmas.KinHist
import Verif.Lemmas.KinCount
import Verif.Lemmas.KinCustom
import Verif.Lemmas.KinSearchRun
import Verif.Lemmas.SearchCount
import Verif.Model.HybridSearch

/-!
# The time limit: more time never loses a path (C128)

A search looks at the clock at the beginning of each round (SearchAlgorithm.hpp:386-394) and stops when the limit has passed.
Which round that is depends on the machine; a run under a limit is described by the predicate `abort` on the number of nodes
expanded so far.  Here two runs of the *same* search are compared, the second with a limit that strikes later, or never.
-/

namespace PathPlanning.TimeLimit
open Spec
set_option linter.unusedSectionVars false

/-- The limit of the second run strikes only when that of the first has struck: `setTimeLimit` was called with a larger value, or the
machine was faster. -/
def Later (soon late : Nat → Bool) : Prop := ∀ k, late k = true → soon k = true

variable {N C : Type} [DecidableEq N] [LinearOrder C] [Fintype N]
variable {A : Algo N C} {P : OpenList N C}

/-! ### The loop -/

section loop
variable {cfg : SCfg N C} {test : SSt N C P → N → CRes (TestOut N C P)} {soon late : Nat → Bool}

theorem iterate_clock (hsl : Later soon late) (st : SSt N C P) :
    iterate A { cfg with abort := soon } test st = iterate A { cfg with abort := late } test st ∨
      (soon st.expansions = true ∧ iterate A { cfg with abort := soon } test st = .done (finish cfg st) st) := by
  cases hn : P.next st.opn with
  | none => left; simp only [iterate, hn]; rfl
  | some co =>
    by_cases hs : soon st.expansions = true
    · right
      exact ⟨hs, by simp only [iterate, hn, hs, if_true]; rfl⟩
    · left
      have hl : ¬ late st.expansions = true := fun h => hs (hsl _ h)
      simp only [iterate, hn, hs, hl]
      rfl

/-- The run with the shorter limit is a beginning of the other. -/
theorem loop_clock (hsl : Later soon late) {I : SSt N C P → Prop}
    (pres : ∀ st st', I st → iterate A { cfg with abort := late } test st = .more st' → I st') :
    ∀ (f : Nat) (st : SSt N C P) (r t), searchLoop A { cfg with abort := soon } test f st = some (r, t) → I st →
      ∀ f' r' t', searchLoop A { cfg with abort := late } test f' st = some (r', t') →
        (r = r' ∧ t = t') ∨
        (soon t.expansions = true ∧ r = finish cfg t ∧ I t ∧
          ∃ n, searchLoop A { cfg with abort := late } test n t = some (r', t')) := by
  intro f
  induction f with
  | zero => intro st r t h; simp [searchLoop] at h
  | succ f ih =>
    intro st r t h hI f' r' t' h'
    rw [searchLoop] at h
    rcases iterate_clock (cfg := cfg) (test := test) (A := A) hsl st with e | ⟨hs, e⟩
    · rw [e] at h
      cases f' with
      | zero => simp [searchLoop] at h'
      | succ f' =>
        rw [searchLoop] at h'
        cases hi : iterate A { cfg with abort := late } test st with
        | done r1 st1 =>
          rw [hi] at h h'
          simp only [Option.some.injEq, Prod.mk.injEq] at h h'
          exact .inl ⟨h.1.symm.trans h'.1, h.2.symm.trans h'.2⟩
        | more st1 =>
          rw [hi] at h h'
          exact ih st1 r t h (pres _ _ hI hi) f' r' t' h'
    · rw [e] at h
      simp only [Option.some.injEq, Prod.mk.injEq] at h
      obtain ⟨rfl, rfl⟩ := h
      exact .inr ⟨hs, rfl, hI, f', h'⟩

/-- What holds at the beginning of a round and survives a round survives until the end, if it survives the goal test. -/
theorem loop_end {I J : SSt N C P → Prop}
    (pres : ∀ st st', I st → iterate A cfg test st = .more st' → I st')
    (last : ∀ st r st', I st → iterate A cfg test st = .done r st' → J st') :
    ∀ (f : Nat) (st : SSt N C P) (r t), searchLoop A cfg test f st = some (r, t) → I st → J t := by
  intro f st r t h hI
  obtain ⟨st1, h1, h2⟩ := run_last pres f st t r h hI
  exact last _ _ _ h1 h2

end loop

/-! ### What the search holds while it runs -/

theorem process_cands {goal : List N} {st : SSt N C P} {cur nb : N} {c : C} :
    (processNeighbor A goal st cur nb c).cands = st.cands := by
  unfold processNeighbor
  simp only
  split_ifs <;> rfl

theorem expand_cands {goal : List N} {cur : N} (st : SSt N C P) : (expandNode A goal st cur).cands = st.cands := by
  unfold expandNode
  generalize A.succ cur = es
  induction es generalizing st with
  | nil => rfl
  | cons e es ih => rw [List.foldl_cons, ih, process_cands]

theorem init_cands {cfg : SCfg N C} {lab : Labels N C} : (initSearch A P cfg lab).cands = [] := by
  unfold initSearch
  have : ∀ (ss : List N) (st : SSt N C P), st.cands = [] → (ss.foldl (addStart A) st).cands = [] := by
    intro ss
    induction ss with
    | nil => intro st h; exact h
    | cons s ss ih => intro st h; exact ih _ h
  exact this _ _ rfl

/-- A test that keeps the candidates found so far. -/
def Keeps (test : SSt N C P → N → CRes (TestOut N C P)) : Prop :=
  ∀ st cur t, test st cur = .ok t → ∀ x ∈ st.cands, x ∈ t.st.cands

theorem goalLoop_keeps {cfg : SCfg N C} {cur : N} : ∀ (gs : List N) (st : SSt N C P) (t : TestOut N C P),
    goalLoop A cfg cur gs st = .ok t → ∀ x ∈ st.cands, x ∈ t.st.cands := by
  intro gs
  induction gs with
  | nil => intro st t h x hx; cases h; exact hx
  | cons g gs ih =>
    intro st t h x hx
    rw [goalLoop] at h
    by_cases hg : A.isGoal g cur = true
    · simp only [hg, if_true] at h
      by_cases hu : cfg.useCands = true
      · simp only [hu, if_true] at h
        have hx' : x ∈ (addCandidate A st cur (A.distTo g cur)).cands := by simp [addCandidate, hx]
        cases ha : cfg.accept with
        | none => rw [ha] at h; exact ih _ _ h _ hx'
        | some F =>
          simp only [ha] at h
          obtain ⟨p, _, h⟩ := CRes.bind_eq_ok.1 h
          by_cases hF : F p = true
          · simp only [hF, if_true] at h; cases h; exact hx'
          · simp only [hF, if_false, Bool.false_eq_true] at h; exact ih _ _ h _ hx'
      · simp only [hu, if_false, Bool.false_eq_true] at h
        obtain ⟨p, _, h⟩ := CRes.bind_eq_ok.1 h
        cases h; exact hx
    · simp only [hg, if_false, Bool.false_eq_true] at h
      exact ih _ _ h _ hx

theorem poseTest_keeps {cfg : SCfg N C} : Keeps (P := P) (poseTest A cfg) := by
  intro st cur t h
  unfold poseTest at h
  obtain ⟨o, _, h⟩ := CRes.bind_eq_ok.1 h
  cases o with
  | some r => cases h; exact fun x hx => hx
  | none => exact goalLoop_keeps _ _ _ h

theorem customTest_keeps {T : GoalTest N C P} : Keeps (P := P) (customTest A T) := by
  intro st cur t h
  obtain ⟨t', h1, _, _, _, _, _, h7, _⟩ := customTest_spec (A := A) T st cur
  rw [h1] at h; cases h; exact h7

/-- Candidates are never dropped while a search runs. -/
theorem loop_keeps {cfg : SCfg N C} {test : SSt N C P → N → CRes (TestOut N C P)} (hk : Keeps test)
    {f : Nat} {st : SSt N C P} {p : List N} {t} (h : searchLoop A cfg test f st = some (.ok p, t)) :
    ∀ x ∈ st.cands, x ∈ t.cands := by
  intro x hx
  obtain ⟨st1, h1, h2⟩ := run_last (I := fun s => x ∈ s.cands) (fun s s' hs hi => by
    obtain ⟨cur, o, t, _, _, h3, _, _, h4⟩ := iterate_more hi
    rw [h4, expand_cands]
    exact hk _ _ _ h3 x hs) _ _ _ _ h hx
  rcases iterate_done h2 with ⟨_, e, _⟩ | ⟨_, e, _⟩ | ⟨cur, o, _, ⟨_, h4⟩ | ⟨e, _, h4⟩ | ⟨t', h4, e, _⟩⟩
  · rw [e]; exact h1
  · rw [e]; exact h1
  · cases h4
  · cases h4
  · rw [e]; exact hk _ _ _ h4 x h1

/-! ### Searches between poses -/

variable {cfg : SCfg N C} {lab : Labels N C} {soon late : Nat → Bool}

theorem poseTest_clock (b : Nat → Bool) (st : SSt N C P) (cur : N) :
    poseTest A { cfg with abort := b } st cur = poseTest A cfg st cur := by
  have h1 : ∀ gs, expansionLoop { cfg with abort := b } cur st gs = expansionLoop cfg cur st gs := by
    intro gs
    induction gs with
    | nil => rfl
    | cons g gs ih => rw [expansionLoop, expansionLoop, ih]
  have h2 : ∀ gs (s : SSt N C P), goalLoop A { cfg with abort := b } cur gs s = goalLoop A cfg cur gs s := by
    intro gs
    induction gs with
    | nil => intro s; rfl
    | cons g gs ih => intro s; simp only [goalLoop, ih]
  unfold poseTest
  rw [h1]
  simp only [h2]

theorem find_eq (b : Nat → Bool) (f : Nat) : findPathNodes A P { cfg with abort := b } lab f =
    searchLoop A { cfg with abort := b } (poseTest A cfg) f (initSearch A P cfg lab) := by
  have : (poseTest A { cfg with abort := b } : SSt N C P → N → _) = poseTest A cfg :=
    funext fun st => funext fun cur => poseTest_clock b st cur
  unfold findPathNodes
  rw [this]; rfl

theorem expansions_le {test : SSt N C P → N → CRes (TestOut N C P)} (hq : Quiet test) :
    ∀ (f : Nat) (st : SSt N C P) (r t), searchLoop A cfg test f st = some (r, t) → st.expansions ≤ t.expansions := by
  intro f
  induction f with
  | zero => intro st r t h; simp [searchLoop] at h
  | succ f ih =>
    intro st r t h
    rw [searchLoop] at h
    cases hi : iterate A cfg test st with
    | more st1 =>
      rw [hi] at h
      have h1 := ih _ _ _ h
      obtain ⟨cur, o, t1, _, _, h3, _, _, h4⟩ := iterate_more hi
      rw [h4, During.expandNode_expansions, (hq _ _ _ h3).2.2.1] at h1
      exact (Nat.le_succ _).trans h1
    | done r1 st1 =>
      rw [hi] at h
      simp only [Option.some.injEq, Prod.mk.injEq] at h
      obtain ⟨rfl, rfl⟩ := h
      unfold iterate at hi
      cases hn : P.next st.opn with
      | none => rw [hn] at hi; cases hi; exact le_rfl
      | some co =>
        obtain ⟨cur, o⟩ := co
        rw [hn] at hi
        have hp : st.expansions ≤ (popNode A cfg st cur o).expansions := Nat.le_succ _
        dsimp only at hi
        split_ifs at hi
        · cases hi; exact le_rfl
        · cases ht : test (popNode A cfg st cur o) cur with
          | throw e => rw [ht] at hi; cases hi; exact hp
          | ub => rw [ht] at hi; cases hi; exact hp
          | ok t =>
            rw [ht] at hi
            have hk : st.expansions ≤ t.st.expansions := by rw [(hq _ _ _ ht).2.2.1]; exact hp
            dsimp only at hi
            split_ifs at hi <;> cases hi <;> exact hk

/-- **C128 (in time).**  A limit that strikes only after the number of expansions at which the search without it has ended has no effect: same
result, same state. -/
theorem in_time (hsl : Later soon late) {f : Nat} {r : CRes (List N)} {t : SSt N C P}
    (h : findPathNodes A P { cfg with abort := late } lab f = some (r, t)) (hq : ∀ k ≤ t.expansions, soon k = false) :
    findPathNodes A P { cfg with abort := soon } lab f = some (r, t) := by
  rw [find_eq] at h ⊢
  have key : ∀ (f : Nat) (st : SSt N C P), searchLoop A { cfg with abort := late } (poseTest A cfg) f st = some (r, t) →
      searchLoop A { cfg with abort := soon } (poseTest A cfg) f st = some (r, t) := by
    intro f
    induction f with
    | zero => intro st h; simp [searchLoop] at h
    | succ f ih =>
      intro st h
      have hle := expansions_le (poseTest_quiet cfg) _ _ _ _ h
      rcases iterate_clock (A := A) (cfg := cfg) (test := poseTest A cfg) hsl st with e | ⟨e, _⟩
      · rw [searchLoop] at h ⊢
        rw [e]
        cases hi : iterate A { cfg with abort := late } (poseTest A cfg) st with
        | done r1 st1 => rw [hi] at h; exact h
        | more st1 => rw [hi] at h; exact ih _ h
      · rw [hq _ hle] at e; cases e
  exact key _ _ h

/-- **C128 (no time at all).**  If the limit has passed when the search begins, nothing is expanded, the result is "no path" and only the
start nodes have been changed. -/
theorem no_time (ht : TopOk cfg.top) (f : Nat) : findPathNodes A P { cfg with abort := fun _ => true } lab (f + 1) =
    some (.ok [], initSearch A P cfg lab) := by
  rw [find_eq, searchLoop]
  have hi : iterate A { cfg with abort := fun _ => true } (poseTest A cfg) (initSearch A P cfg lab) =
      .done (.ok []) (initSearch A P cfg lab) := by
    have hf : finish { cfg with abort := fun _ => true } (initSearch A P cfg lab) = .ok [] := by
      rw [finish, init_cands, (ht.none_iff _).2 rfl]
    unfold iterate
    rw [hf]
    cases P.next (initSearch A P cfg lab).opn <;> rfl
  rw [hi]

/-- **C128 (a limit that does not strike).**  If the shorter limit does not strike before the longer search has ended, both runs are the
same: same result, same state. -/
theorem unhurried (hsl : Later soon late) {f f' : Nat} {r r' : CRes (List N)} {t t' : SSt N C P}
    (h : findPathNodes A P { cfg with abort := soon } lab f = some (r, t))
    (h' : findPathNodes A P { cfg with abort := late } lab f' = some (r', t'))
    (hq : soon t.expansions = false) : r = r' ∧ t = t' := by
  rw [find_eq] at h h'
  rcases loop_clock (I := fun _ => True) hsl (fun _ _ _ _ => trivial) _ _ _ _ h trivial _ _ _ h' with e | ⟨e, _⟩
  · exact e
  · rw [hq] at e; cases e

/-- **C128 (searches between poses).**  Without goal candidates a time limit can only turn the result into "no path": whatever the stored
costs, the run with the shorter limit returns the empty path, or exactly what the run with the longer limit returns, and then it leaves the
same costs, the same open list and the same counters behind. -/
theorem more_time (ht : TopOk cfg.top) (hu : cfg.useCands = false) (hsl : Later soon late) {f f' : Nat}
    {r r' : CRes (List N)} {t t' : SSt N C P}
    (h : findPathNodes A P { cfg with abort := soon } lab f = some (r, t))
    (h' : findPathNodes A P { cfg with abort := late } lab f' = some (r', t')) :
    (r = r' ∧ t = t') ∨ (soon t.expansions = true ∧ r = .ok []) := by
  rw [find_eq] at h h'
  have hpt : ∀ (st : SSt N C P) cur o t, poseTest A cfg (popNode A { cfg with abort := late } st cur o) cur = .ok t →
      t.st.cands = st.cands := by
    intro st cur o t hp
    unfold poseTest at hp
    obtain ⟨q, _, hp⟩ := CRes.bind_eq_ok.1 hp
    cases q with
    | some r => cases hp; rfl
    | none =>
      have hp' : goalLoop A cfg cur cfg.goal (popNode A { cfg with abort := late } st cur o) = .ok t := hp
      have := goalLoop_nocands hu _ _ _ hp'
      exact this
  rcases loop_clock (I := fun s => s.cands = []) hsl (fun s s' hs hi => by
    obtain ⟨cur, o, t, _, _, h3, _, _, h4⟩ := iterate_more hi
    rw [h4, expand_cands, hpt _ _ _ _ h3]; exact hs) _ _ _ _ h init_cands _ _ _ h' with e | ⟨hs, e, hc, _⟩
  · exact .inl e
  · refine .inr ⟨hs, ?_⟩
    rw [e, finish, hc, (ht.none_iff _).2 rfl]

/-- A path found under the shorter limit is the path found under the longer one. -/
theorem path_stays (ht : TopOk cfg.top) (hu : cfg.useCands = false) (hsl : Later soon late) {f f' : Nat}
    {p : List N} {r' : CRes (List N)} {t t' : SSt N C P}
    (h : findPathNodes A P { cfg with abort := soon } lab f = some (.ok p, t))
    (h' : findPathNodes A P { cfg with abort := late } lab f' = some (r', t')) (hp : p ≠ []) : r' = .ok p := by
  rcases more_time ht hu hsl h h' with ⟨e, _⟩ | ⟨_, e⟩
  · exact e.symm
  · cases e; exact absurd rfl hp

/-! ### Goal candidates -/

theorem finish_nil {cfg' : SCfg N C} (ht : TopOk cfg'.top) {t : SSt N C P} {p : List N} (h : finish cfg' t = .ok p) (hp : p ≠ []) :
    t.cands ≠ [] := by
  intro hc
  rw [finish, hc, (ht.none_iff _).2 rfl] at h
  cases h; exact hp rfl

theorem hdone_nil {S : List N} {Good : N → C → Prop} {Res : List N → N → List N → Prop} {cfg' : SCfg N C} {p : List N} {t : SSt N C P}
    (h : HDone A S cfg' lab Good Res (.ok p) t) (hc : t.cands ≠ []) : p ≠ [] := by
  obtain ⟨q, e, h1 | ⟨_, _, _, h1, _⟩ | ⟨x, l, d, _, _, hb, _, h1⟩⟩ := h.res
  · exact absurd h1.2 hc
  · cases e; exact h1
  · cases e; rw [h1]; exact hb.ne_nil

/-- **C128 (goal candidates).**  With goal candidates the path may become another one, but a limit that strikes later still never turns a
path into "no path"; after any history of the search object. -/
theorem path_found (ok : CostOk A) (L : Lawful P) {S : List N} (hU : Used A P S lab) (ht : TopOk cfg.top) (hx : ExpansionOk cfg)
    (hsl : Later soon late) {f f' : Nat} {p : List N} {r' : CRes (List N)} {t t' : SSt N C P}
    (h : findPathNodes A P { cfg with abort := soon } lab f = some (.ok p, t))
    (h' : findPathNodes A P { cfg with abort := late } lab f' = some (r', t')) (hp : p ≠ []) :
    ∃ p', r' = .ok p' ∧ p' ≠ [] := by
  obtain ⟨f2, r2, t2, h2, hd⟩ := hist_find ok L (hU.histAt ok L cfg.start) { cfg with abort := late }
    (fun s hs => List.mem_append_left _ hs) ht ⟨hx.start, hx.nonempty⟩
  have e := searchLoop_fuel _ _ _ _ _ h' h2
  cases e
  rw [find_eq] at h h'
  obtain ⟨p', rfl, _⟩ := hd.res
  refine ⟨p', rfl, ?_⟩
  rcases loop_clock (I := fun _ => True) hsl (fun _ _ _ _ => trivial) _ _ _ _ h trivial _ _ _ h' with
    ⟨e, _⟩ | ⟨_, e, _, n, hn⟩
  · cases e; exact hp
  · have hc := finish_nil ht e.symm hp
    refine hdone_nil hd fun h0 => hc (List.eq_nil_iff_forall_not_mem.2 fun x hxm => ?_)
    have := loop_keeps poseTest_keeps hn x hxm
    rw [h0] at this; cases this

/-- **C128 (goal tests).**  The same for a search with any goal test that does not look at the clock, with any heuristic goal. -/
theorem custom_path_found (ok : CostOk A) (L : Lawful P) {S : List N} (hU : Used A P S lab) (ht : TopOk cfg.top)
    (T : GoalTest N C P) (hsl : Later soon late) {f f' : Nat} {p : List N} {r' : CRes (List N)} {t t' : SSt N C P}
    (h : findPathCustom A P { cfg with abort := soon } T lab f = some (.ok p, t))
    (h' : findPathCustom A P { cfg with abort := late } T lab f' = some (r', t')) (hp : p ≠ []) :
    ∃ p', r' = .ok p' ∧ p' ≠ [] := by
  obtain ⟨f2, r2, t2, h2, hd⟩ := hist_test ok L (hU.histAt ok L cfg.start) { cfg with abort := late }
    (fun s hs => List.mem_append_left _ hs) ht T
  have e := searchLoop_fuel _ _ _ _ _ h' h2
  cases e
  obtain ⟨p', rfl, _⟩ := hd.res
  refine ⟨p', rfl, ?_⟩
  rcases loop_clock (cfg := customCfg cfg T) (I := fun _ => True) hsl (fun _ _ _ _ => trivial) _ _ _ _ h trivial _ _ _ h' with
    ⟨e, _⟩ | ⟨_, e, _, n, hn⟩
  · cases e; exact hp
  · have hc := finish_nil (cfg' := customCfg cfg T) ht e.symm hp
    refine hdone_nil hd fun h0 => hc (List.eq_nil_iff_forall_not_mem.2 fun x hxm => ?_)
    have := loop_keeps customTest_keeps hn x hxm
    rw [h0] at this; cases this

/-- Every accepted node is stored with its distance to each goal node that accepts it. -/
def AllDists (A : Algo N C) (cfg : SCfg N C) (st : SSt N C P) : Prop :=
  ∀ x ∈ st.cands, ∀ g ∈ cfg.goal, A.isGoal g x.1 = true → (x.1, A.distTo g x.1) ∈ st.cands

theorem goalLoop_all (hu : cfg.useCands = true) (ha : cfg.accept = none) {cur : N} :
    ∀ (gs : List N) (st : SSt N C P), ∃ t, goalLoop A cfg cur gs st = .ok t ∧ t.term = false ∧ t.st.lab = st.lab ∧
      t.st.opn = st.opn ∧ (∀ x ∈ st.cands, x ∈ t.st.cands) ∧ (∀ x ∈ t.st.cands, x ∈ st.cands ∨ x.1 = cur) ∧
      (∀ x ∈ t.st.cands, x ∈ st.cands ∨ (x.1 = cur ∧ ∃ g ∈ gs, A.isGoal g cur = true ∧ x.2 = A.distTo g cur)) ∧
      (∀ g ∈ gs, A.isGoal g cur = true → (cur, A.distTo g cur) ∈ t.st.cands) := by
  intro gs
  induction gs with
  | nil => exact fun st => ⟨_, rfl, rfl, rfl, rfl, fun _ h => h, fun _ h => .inl h, fun _ h => .inl h, by simp⟩
  | cons g gs ih =>
    intro st
    rw [goalLoop]
    by_cases hg : A.isGoal g cur = true
    · simp only [hg, if_true, hu, ha]
      obtain ⟨t, h1, h2, h3, h4, h5, h6, h7, h8⟩ := ih (addCandidate A st cur (A.distTo g cur))
      refine ⟨t, h1, h2, h3, h4, fun x hx => h5 x (by simp [addCandidate, hx]), fun x hx => ?_, fun x hx => ?_, fun g' hg' hgg => ?_⟩
      · rcases h6 x hx with h | h
        · simp only [addCandidate, List.mem_append, List.mem_singleton] at h
          rcases h with h | h
          · exact .inl h
          · exact .inr (by rw [h])
        · exact .inr h
      · rcases h7 x hx with h | ⟨h, g', hg', h'⟩
        · simp only [addCandidate, List.mem_append, List.mem_singleton] at h
          rcases h with h | h
          · exact .inl h
          · exact .inr ⟨by rw [h], g, by simp, hg, by rw [h]⟩
        · exact .inr ⟨h, g', List.mem_cons_of_mem _ hg', h'⟩
      · rcases List.mem_cons.1 hg' with rfl | hg'
        · exact h5 _ (by simp [addCandidate])
        · exact h8 g' hg' hgg
    · simp only [hg, if_false, Bool.false_eq_true]
      obtain ⟨t, h1, h2, h3, h4, h5, h6, h7, h8⟩ := ih st
      refine ⟨t, h1, h2, h3, h4, h5, h6, fun x hx => (h7 x hx).imp id fun ⟨e, g', hg', h'⟩ =>
        ⟨e, g', List.mem_cons_of_mem _ hg', h'⟩, fun g' hg' hgg => ?_⟩
      rcases List.mem_cons.1 hg' with rfl | hg'
      · exact absurd hgg hg
      · exact h8 g' hg' hgg

theorem poseTest_all (hu : cfg.useCands = true) (ha : cfg.accept = none) (hno : ∀ k n g, cfg.canExpand k n g = none)
    (st : SSt N C P) (cur : N) :
    ∃ t, poseTest A cfg st cur = .ok t ∧ t.term = false ∧ t.st.lab = st.lab ∧ t.st.opn = st.opn ∧
      (∀ x ∈ t.st.cands, x ∈ st.cands ∨ (x.1 = cur ∧ GoodCand A cfg cur x.2)) ∧
      (AllDists A cfg st → AllDists A cfg t.st) := by
  have hx : ∀ gs, expansionLoop cfg cur st gs = .ok none := by
    intro gs
    induction gs with
    | nil => rfl
    | cons g gs ih => rw [expansionLoop, hno]; exact ih
  unfold poseTest
  rw [hx]
  obtain ⟨t, h1, h2, h3, h4, h5, h6, h7, h8⟩ := goalLoop_all (A := A) hu ha (cur := cur) cfg.goal st
  refine ⟨t, h1, h2, h3, h4, h7, fun hal x hx g hg hgg => ?_⟩
  rcases h6 x hx with h | h
  · exact h5 _ (hal x h g hg hgg)
  · rw [h] at hgg ⊢; exact h8 g hg hgg

/-- **C128 (the best candidate).**  When all nodes of the goal region are collected as candidates, without an acceptance test and
without an analytic expansion, more time can only make the end of the path better: the path found under the longer limit ends at
a node that is at most as far from a goal node that accepts it as the end of the other path is from any goal node that accepts that. -/
theorem nearer_end (ok : CostOk A) (L : Lawful P) {S : List N} (hU : Used A P S lab) (ht : TopOk cfg.top)
    (hu : cfg.useCands = true) (ha : cfg.accept = none) (hno : ∀ k n g, cfg.canExpand k n g = none)
    (hsl : Later soon late) {f f' : Nat} {p : List N} {r' : CRes (List N)} {t t' : SSt N C P} {e : N}
    (h : findPathNodes A P { cfg with abort := soon } lab f = some (.ok p, t))
    (h' : findPathNodes A P { cfg with abort := late } lab f' = some (r', t')) (he : p.getLast? = some e) :
    ∃ p' e', r' = .ok p' ∧ p'.getLast? = some e' ∧ ∃ g' ∈ cfg.goal, A.isGoal g' e' = true ∧
      ∀ g ∈ cfg.goal, A.isGoal g e = true → A.distTo g' e' ≤ A.distTo g e := by
  have htest : ∀ b : Nat → Bool, HTestOk A P cfg.start (GoodCand A cfg) (fun _ _ _ => False)
      (poseTest A { cfg with abort := b }) := by
    refine fun b => ⟨fun st cur l d _ _ => ?_⟩
    obtain ⟨t, h1, h2, h3, h4, h5, _⟩ := poseTest_all (A := A) hu ha hno st cur
    rw [poseTest_clock]
    exact ⟨t, h1, h3, h4, h5, fun h => by rw [h2] at h; cases h⟩
  have hend : ∀ (b : Nat → Bool) {f : Nat} {r : CRes (List N)} {t : SSt N C P},
      findPathNodes A P { cfg with abort := b } lab f = some (r, t) →
      HDone A (cfg.start ++ S) { cfg with abort := b } lab (GoodCand A cfg) (fun _ _ _ => False) r t ∧ AllDists A cfg t := by
    intro b f r t hr
    obtain ⟨i1, i2⟩ := hist_init (P := P) L { cfg with abort := b } (hU.histAt ok L cfg.start)
      (fun s hs => List.mem_append_left _ hs)
    obtain ⟨f2, r2, t2, h2, hd⟩ := hist_loop (cfg := { cfg with abort := b }) ok ht (htest b) _ i1 (by
      intro x hx; rw [i2] at hx; cases hx)
    have e := searchLoop_fuel _ _ _ _ _ hr h2
    cases e
    refine ⟨hd, ?_⟩
    rw [find_eq] at hr
    obtain ⟨st1, g1, g2⟩ := run_last (I := AllDists A cfg) (fun s s' hs hi => by
      obtain ⟨cur, o, t, _, _, h3, _, _, h4⟩ := iterate_more hi
      obtain ⟨t', k1, _, _, _, _, k6⟩ := poseTest_all (A := A) (P := P) hu ha hno (popNode A { cfg with abort := b } s cur o) cur
      rw [k1] at h3; cases h3
      have := k6 hs
      rw [h4]
      unfold AllDists
      rw [expand_cands]; exact this) _ _ _ _ hr (by
        intro x hx; rw [init_cands] at hx; cases hx)
    rcases iterate_done g2 with ⟨_, e, _⟩ | ⟨_, e, _⟩ | ⟨cur, o, _, ⟨_, h4⟩ | ⟨e, _, h4⟩ | ⟨t', h4, e, _⟩⟩
    · rw [e]; exact g1
    · rw [e]; exact g1
    · obtain ⟨q, hq, _⟩ := hd.res; rw [h4] at hq; cases hq
    · obtain ⟨q, hq, _⟩ := hd.res; rw [h4] at hq; cases hq
    · obtain ⟨t2, k1, _, _, _, _, k6⟩ := poseTest_all (A := A) (P := P) hu ha hno (popNode A { cfg with abort := b } st1 cur o) cur
      rw [k1] at h4; cases h4
      rw [e]; exact k6 g1
  obtain ⟨d1, a1⟩ := hend soon h
  obtain ⟨d2, _⟩ := hend late h'
  have hbest : ∀ {b : Nat → Bool} {q : List N} {s : SSt N C P},
      HDone A (cfg.start ++ S) { cfg with abort := b } lab (GoodCand A cfg) (fun _ _ _ => False) (.ok q) s → s.cands ≠ [] →
      ∃ x ∈ s.cands, q.getLast? = some x.1 ∧ ∀ y ∈ s.cands, x.2 ≤ y.2 := by
    intro b q s hd hc
    obtain ⟨q', hq, h1 | ⟨_, _, _, _, _, _, h1⟩ | ⟨x, l, d, hx, hm, hb, _, h1⟩⟩ := hd.res
    · exact absurd h1.2 hc
    · exact h1.elim
    · cases hq
      rw [h1]
      obtain ⟨l0, hl0, _⟩ := hb.last
      exact ⟨x, hx, by rw [hl0]; simp, hm⟩
  have hc1 : t.cands ≠ [] := by
    intro hc
    obtain ⟨q', hq, h1 | ⟨_, _, _, _, _, _, h1⟩ | ⟨x, l, d, hx, _⟩⟩ := d1.res
    · cases hq; rw [h1.1] at he; cases he
    · exact h1
    · rw [hc] at hx; cases hx
  have hsub : ∀ x ∈ t.cands, x ∈ t'.cands := by
    obtain ⟨q', hq, _⟩ := d2.res
    rw [hq] at h'
    rw [find_eq] at h h'
    rcases loop_clock (I := fun _ => True) hsl (fun _ _ _ _ => trivial) _ _ _ _ h trivial _ _ _ h' with
      ⟨_, e⟩ | ⟨_, _, _, n, hn⟩
    · rw [e]; exact fun _ h => h
    · exact loop_keeps poseTest_keeps hn
  obtain ⟨x, hx, hl, _⟩ := hbest d1 hc1
  have hc2 : t'.cands ≠ [] := fun hc => by have := hsub x hx; rw [hc] at this; cases this
  obtain ⟨q', hq, _⟩ := d2.res
  subst hq
  obtain ⟨y, hy, hl', hmin⟩ := hbest d2 hc2
  obtain ⟨g', hg', hgg', hw⟩ := d2.good y hy
  refine ⟨q', y.1, rfl, hl', g', hg', hgg', fun g hg hgg => ?_⟩
  rw [hl] at he
  cases he
  rw [← hw]
  exact hmin _ (hsub _ (a1 x hx g hg hgg))

/-- **C128 (all candidates).**  Every goal candidate reported after the run with the shorter limit is reported after the other, with the
same weight. -/
theorem candidates_stay (ok : CostOk A) (L : Lawful P) {S : List N} (hU : Used A P S lab) (ht : TopOk cfg.top) (hx : ExpansionOk cfg)
    (hsl : Later soon late) {f f' : Nat} {r r' : CRes (List N)} {t t' : SSt N C P}
    (h : findPathNodes A P { cfg with abort := soon } lab f = some (r, t))
    (h' : findPathNodes A P { cfg with abort := late } lab f' = some (r', t')) : ∀ x ∈ t.cands, x ∈ t'.cands := by
  obtain ⟨f2, r2, t2, h2, hd⟩ := hist_find ok L (hU.histAt ok L cfg.start) { cfg with abort := late }
    (fun s hs => List.mem_append_left _ hs) ht ⟨hx.start, hx.nonempty⟩
  have e := searchLoop_fuel _ _ _ _ _ h' h2
  cases e
  obtain ⟨p', rfl, _⟩ := hd.res
  rw [find_eq] at h h'
  rcases loop_clock (I := fun _ => True) hsl (fun _ _ _ _ => trivial) _ _ _ _ h trivial _ _ _ h' with
    ⟨_, e⟩ | ⟨_, _, _, n, hn⟩
  · rw [e]; exact fun _ h => h
  · exact loop_keeps poseTest_keeps hn

/-- **C128 (goal tests, the best candidate).**  With any goal test the path found under the longer limit ends at an accepted node whose weight is at
most that of every node accepted in the shorter run. -/
theorem custom_better_end (ok : CostOk A) (L : Lawful P) {S : List N} (hU : Used A P S lab) (ht : TopOk cfg.top)
    (T : GoalTest N C P) (hsl : Later soon late) {f f' : Nat} {r r' : CRes (List N)} {t t' : SSt N C P}
    (h : findPathCustom A P { cfg with abort := soon } T lab f = some (r, t))
    (h' : findPathCustom A P { cfg with abort := late } T lab f' = some (r', t')) :
    (∀ x ∈ t.cands, x ∈ t'.cands) ∧ (t.cands ≠ [] → ∃ p' e' w, r' = .ok p' ∧ p'.getLast? = some e' ∧ (e', w) ∈ t'.cands ∧
      ∀ x ∈ t.cands, w ≤ x.2) := by
  obtain ⟨f2, r2, t2, h2, hd⟩ := hist_test ok L (hU.histAt ok L cfg.start) { cfg with abort := late }
    (fun s hs => List.mem_append_left _ hs) ht T
  have e := searchLoop_fuel _ _ _ _ _ h' h2
  cases e
  obtain ⟨p', rfl, hc⟩ := hd.res
  have hsub : ∀ x ∈ t.cands, x ∈ t'.cands := by
    rcases loop_clock (cfg := customCfg cfg T) (I := fun _ => True) hsl (fun _ _ _ _ => trivial) _ _ _ _ h trivial _ _ _ h' with
      ⟨_, e⟩ | ⟨_, _, _, n, hn⟩
    · rw [e]; exact fun _ h => h
    · exact loop_keeps customTest_keeps hn
  refine ⟨hsub, fun hne => ?_⟩
  rcases hc with ⟨_, h0⟩ | ⟨_, _, _, _, _, _, h1⟩ | ⟨x, l, d, hx, hm, hb, _, rfl⟩
  · obtain ⟨x, hx⟩ := List.exists_mem_of_ne_nil _ hne
    have := hsub x hx
    rw [h0] at this; cases this
  · exact h1.elim
  · obtain ⟨l0, hl0, _⟩ := hb.last
    exact ⟨_, x.1, x.2, rfl, by rw [hl0]; simp, hx, fun y hy => hm y (hsub y hy)⟩

end PathPlanning.TimeLimit
