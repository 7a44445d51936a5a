import Verif.Lemmas.DuringSearch
import Verif.Props.SearchOpt

/-!
# Searches on a map that changes meanwhile (C116): the general search
-/

namespace PathPlanning.During
open PathPlanning
set_option linter.unusedSectionVars false

variable {N C : Type} [DecidableEq N] [LinearOrder C] [Fintype N]
variable {A : Algo N C} {P : OpenList N C} {I U : N → List (N × C)} {maps : Nat → N → List (N × C)}

theorem loop_withSucc (U : N → List (N × C)) (maps : Nat → N → List (N × C)) (cfg : SCfg N C) :
    ∀ fuel (st : SSt N C P), searchLoopDuring (A.withSucc U) maps cfg fuel st = searchLoopDuring A maps cfg fuel st := by
  intro fuel
  induction fuel with
  | zero => intro st; rfl
  | succ fuel ih =>
    intro st
    unfold searchLoopDuring
    simp only [ih]
    rfl

theorem init_withSucc (U : N → List (N × C)) (P : OpenList N C) (cfg : SCfg N C) (lab : Labels N C) :
    initSearch (A.withSucc U) P cfg lab = initSearch A P cfg lab := rfl

/-- An invariant along a run: it holds at the beginning of the last iteration, and no iteration counts expansions down. -/
theorem run_last {cfg : SCfg N C} {Inv : SSt N C P → Prop} {E : Nat}
    (pres : ∀ st st', st.expansions < E → Inv st →
      iterate (A.withSucc (maps st.expansions)) cfg (poseTest A cfg) st = .more st' → Inv st') :
    ∀ (f : Nat) (st st' : SSt N C P) (p : List N), searchLoopDuring A maps cfg f st = some (.ok p, st') → st'.expansions ≤ E →
      Inv st → st.expansions ≤ st'.expansions ∧ ∃ st1, Inv st1 ∧
        iterate (A.withSucc (maps st1.expansions)) cfg (poseTest A cfg) st1 = .done (.ok p) st' := by
  intro f
  induction f with
  | zero => intro st st' p h; simp [searchLoopDuring] at h
  | succ f ih =>
    intro st st' p h hE hI
    rw [searchLoopDuring, poseTest_withSucc] at h
    cases hi : iterate (A.withSucc (maps st.expansions)) cfg (poseTest A cfg) st with
    | done r1 st1 =>
      rw [hi] at h
      simp only [Option.some.injEq, Prod.mk.injEq] at h
      obtain ⟨rfl, rfl⟩ := h
      exact ⟨done_expansions (A := A.withSucc (maps st.expansions)) (by rw [poseTest_withSucc]; exact hi), st, hI, hi⟩
    | more st1 =>
      rw [hi] at h
      have hm := more_expansions (A := A.withSucc (maps st.expansions)) (by rw [poseTest_withSucc]; exact hi)
      -- the count at the end is at least the one after this iteration
      have hmono : st1.expansions ≤ st'.expansions := by
        clear ih hI hE hi hm
        induction f generalizing st1 with
        | zero => simp [searchLoopDuring] at h
        | succ f ihf =>
          simp only at h
          rw [searchLoopDuring] at h
          cases hi : iterate (A.withSucc (maps st1.expansions)) cfg (poseTest (A.withSucc (maps st1.expansions)) cfg) st1 with
          | done r2 st2 =>
            rw [hi] at h
            simp only [Option.some.injEq, Prod.mk.injEq] at h
            obtain ⟨rfl, rfl⟩ := h
            exact done_expansions hi
          | more st2 =>
            rw [hi] at h
            have := ihf st2 h
            have := more_expansions hi
            omega
      obtain ⟨_, h2⟩ := ih st1 st' p h hE (pres st st1 (by omega) hI hi)
      exact ⟨by omega, h2⟩

/-- As `ends`, from any state with the invariant. -/
theorem loop_ends (U : N → List (N × C)) (ok : CostOk (A.withSucc U)) (L : Lawful P) (cfg : SCfg N C) (ht : TopOk cfg.top)
    (hx : ExpansionOk cfg) (hU : ∀ k u, ∀ e ∈ maps k u, e ∈ U u) (st : SSt N C P)
    (h : VLoop (A.withSucc U) (fun _ => []) L cfg st) :
    ∃ fuel p st', searchLoopDuring A maps cfg fuel st = some (.ok p, st') := by
  cases hi : iterate (A.withSucc (maps st.expansions)) cfg (poseTest A cfg) st with
  | done r st' =>
    have hi' := hi
    rw [← poseTest_withSucc (A := A) U] at hi'
    obtain ⟨p, rfl, _⟩ := h.done (s := maps st.expansions) ht hx hi'
    refine ⟨1, p, st', ?_⟩
    rw [searchLoopDuring, poseTest_withSucc, hi]
  | more st' =>
    have hi' := hi
    rw [← poseTest_withSucc (A := A) U] at hi'
    obtain ⟨h1, h2⟩ := h.more (s := maps st.expansions) ok hx (hU _) (by intro u e he; cases he) hi'
    obtain ⟨fuel, p, st2, h5⟩ := loop_ends U ok L cfg ht hx hU st' h1
    refine ⟨fuel + 1, p, st2, ?_⟩
    rw [searchLoopDuring, poseTest_withSucc, hi]
    exact h5
termination_by (potential (A.withSucc U) st.lab, L.size st.opn)
decreasing_by
  rcases h2 with h2 | ⟨h2, h3⟩
  · exact Prod.Lex.left _ _ h2
  · rw [h2]; exact Prod.Lex.right _ h3

/-- **C116 (end).**  The search ends normally however the callback changes the map, as long as all neighbours that ever occur
are among finitely many with non-negative costs. -/
theorem ends (U : N → List (N × C)) (ok : CostOk (A.withSucc U)) (L : Lawful P) (cfg : SCfg N C) (ht : TopOk cfg.top)
    (hx : ExpansionOk cfg) (hU : ∀ k u, ∀ e ∈ maps k u, e ∈ U u) :
    ∃ fuel p st', findPathDuring A maps P cfg (freshLabels A) fuel = some (.ok p, st') :=
  loop_ends U ok L cfg ht hx hU _ VLoop.init

/-- All neighbours during the first `E` expansions. -/
def seen (maps : Nat → N → List (N × C)) (E : Nat) (u : N) : List (N × C) := (List.range E).flatMap fun k => maps k u

theorem seen_ok (h : ∀ k, CostOk (A.withSucc (maps k))) (E : Nat) : CostOk (A.withSucc (seen maps E)) where
  infl u v c hm a := by
    obtain ⟨k, _, hk⟩ := List.mem_flatMap.1 hm
    exact (h k).infl u v c hk a
  mono := (h 0).mono

/-- The invariant at the last iteration of a run. -/
theorem last_inv (ok : ∀ k, CostOk (A.withSucc (maps k))) (L : Lawful P) (cfg : SCfg N C)
    (hx : ExpansionOk cfg) {fuel : Nat} {p : List N} {st' : SSt N C P}
    (hrun : findPathDuring A maps P cfg (freshLabels A) fuel = some (.ok p, st')) (I : N → List (N × C))
    (hI : ∀ k < st'.expansions, ∀ u, ∀ e ∈ I u, e ∈ maps k u) :
    ∃ st1, VLoop (A.withSucc (seen maps st'.expansions)) I L cfg st1 ∧
      iterate (A.withSucc (maps st1.expansions)) cfg (poseTest (A.withSucc (seen maps st'.expansions)) cfg) st1 = .done (.ok p) st' := by
  obtain ⟨_, st1, h1, h2⟩ := run_last (A := A) (maps := maps) (Inv := VLoop (A.withSucc (seen maps st'.expansions)) I L cfg)
    (E := st'.expansions) (fun st st2 hk h hi => (h.more (seen_ok ok _) hx (s := maps st.expansions)
      (fun u e he => List.mem_flatMap.2 ⟨st.expansions, List.mem_range.2 hk, he⟩) (hI _ hk)
      (by rw [poseTest_withSucc]; exact hi)).1) fuel _ st' p hrun (le_refl _) VLoop.init
  exact ⟨st1, h1, by rw [poseTest_withSucc]; exact h2⟩

/-- **C116 (result).**  A non-empty result is a path along neighbours each of which was free in some of the maps the search
has seen. -/
theorem sound (ok : ∀ k, CostOk (A.withSucc (maps k))) (L : Lawful P) (cfg : SCfg N C) (ht : TopOk cfg.top)
    (hx : ExpansionOk cfg) {fuel : Nat} {p : List N} {st' : SSt N C P}
    (hrun : findPathDuring A maps P cfg (freshLabels A) fuel = some (.ok p, st')) :
    p = [] ∨ ValidPath (A.withSucc (seen maps st'.expansions)) cfg p := by
  obtain ⟨st1, h1, h2⟩ := last_inv ok L cfg hx hrun (fun _ => []) (by intro k _ u e he; cases he)
  obtain ⟨q, e, h, _⟩ := h1.done (s := maps st1.expansions) ht hx h2
  cases e
  exact h

theorem closed_of_none {U : Algo N C} (ok : CostOk U) {L : Lawful P} {start : List N} {st : SSt N C P}
    (h : VInv U I L start st) (hn : P.next st.opn = none) {n : N} {d : C}
    (hr : Reach (U.withSucc I) start n d) : (st.lab n).closed = true ∧ (st.lab n).dist ≤ (d : WithTop C) := by
  have hop : ∀ n, (st.lab n).opn = false := by
    intro n
    by_contra hne
    exact (L.next_none _).1 hn n (h.openMem n (by simpa using hne))
  induction hr with
  | start hs =>
    have hd := h.core.s0 _ hs
    refine ⟨?_, hd.le⟩
    have := (h.core.reach _).1 (by rw [hd]; simp)
    rw [hop] at this; simpa using this
  | @step u v d c _ he ih =>
    have hle := h.relaxed u ih.1 (hop u) v c he
    have hle2 : (st.lab v).dist ≤ ((U.add d c : C) : WithTop C) := by
      refine hle.trans ?_
      rw [← addW_coe]
      exact addW_mono ok ih.2 c
    refine ⟨?_, hle2⟩
    have := (h.core.reach v).1 (ne_top_of_le_ne_top (by simp) hle2)
    rw [hop] at this; simpa using this

/-- **C116 (completeness).**  Without a time limit an empty result means: no way into the goal region was free all the time. -/
theorem complete (ok : ∀ k, CostOk (A.withSucc (maps k))) (L : Lawful P) (cfg : SCfg N C) (ht : TopOk cfg.top)
    (hx : ExpansionOk cfg) (hab : ∀ k, cfg.abort k = false) {fuel : Nat} {st' : SSt N C P}
    (hrun : findPathDuring A maps P cfg (freshLabels A) fuel = some (.ok [], st')) (I : N → List (N × C))
    (hI : ∀ k < st'.expansions, ∀ u, ∀ e ∈ I u, e ∈ maps k u) :
    ¬ ∃ n d, Reach (A.withSucc I) cfg.start n d ∧ InGoalRegion A cfg.goal n := by
  rintro ⟨n, d, hr, g, hg, hgg⟩
  obtain ⟨st1, h1, h2⟩ := last_inv ok L cfg hx hrun I hI
  obtain ⟨q, e, _, h⟩ := h1.done (s := maps st1.expansions) ht hx h2
  cases e
  obtain ⟨st, h3, h4, h5⟩ := h rfl hab
  have hc := (closed_of_none (U := A.withSucc (seen maps st'.expansions)) (I := I) (seen_ok ok _) h3.inv h4 hr).1
  have := (h3.goal n hc g hg hgg).2
  rw [h5] at this; cases this

end PathPlanning.During
