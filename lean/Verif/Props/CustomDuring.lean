import Verif.Lemmas.CustomDuring
import Verif.Props.SearchCustom3
import Verif.Props.DuringMoments

/-!
# Searches with a goal test on a map that changes meanwhile (C123): the general search
-/

namespace PathPlanning.CDur
open PathPlanning During Spec
set_option linter.unusedSectionVars false

variable {N C : Type} [DecidableEq N] [LinearOrder C] [Fintype N]
variable {A : Algo N C} {P : OpenList N C} {I : N → List (N × C)} {maps : Nat → N → List (N × C)}

/-- An invariant along a run, together with `CLoop` for the neighbours seen. -/
theorem run_last {cfg : SCfg N C} {T : GoalTest N C P} {L : Lawful P} {E : Nat}
    (ok : CostOk (A.withSucc (seen maps E))) (hI : ∀ k < E, ∀ u, ∀ e ∈ I u, e ∈ maps k u) {Inv : SSt N C P → Prop}
    (pres : ∀ st st', st.expansions < E → CLoop (A.withSucc (seen maps E)) I L cfg T st → Inv st →
      iterate (A.withSucc (maps st.expansions)) cfg (customTest A T) st = .more st' → Inv st') :
    ∀ (f : Nat) (st st' : SSt N C P) (r : CRes (List N)), searchLoopTDuring A maps cfg T f st = some (r, st') → st'.expansions ≤ E →
      CLoop (A.withSucc (seen maps E)) I L cfg T st → Inv st →
      ∃ st1, CLoop (A.withSucc (seen maps E)) I L cfg T st1 ∧ Inv st1 ∧
        iterate (A.withSucc (maps st1.expansions)) cfg (customTest A T) st1 = .done r st' := by
  -- the counter never decreases
  have mono : ∀ (f : Nat) (st st' : SSt N C P) (r : CRes (List N)), searchLoopTDuring A maps cfg T f st = some (r, st') →
      st.expansions ≤ st'.expansions := by
    intro f
    induction f with
    | zero => intro st st' r h; simp [searchLoopTDuring] at h
    | succ f ih =>
      intro st st' r h
      rw [searchLoopTDuring, customTest_withSucc] at h
      cases hi : iterate (A.withSucc (maps st.expansions)) cfg (customTest A T) st with
      | done r1 st1 =>
        rw [hi] at h
        simp only [Option.some.injEq, Prod.mk.injEq] at h
        obtain ⟨rfl, rfl⟩ := h
        rcases iterate_done hi with ⟨_, rfl, _⟩ | ⟨_, rfl, _⟩ | ⟨cur, o, hn, hh⟩
        · exact le_refl _
        · exact le_refl _
        · obtain ⟨t, g1, _, _, g4, _⟩ := customTest_spec (A := A) T (popNode (A.withSucc (maps st.expansions)) cfg st cur o) cur
          rw [g1] at hh
          rcases hh with ⟨hh, _⟩ | ⟨e, hh, _⟩ | ⟨t', hh, rfl, _⟩
          · cases hh
          · cases hh
          · cases hh
            rw [g4]
            exact Nat.le_succ _
      | more st1 =>
        rw [hi] at h
        obtain ⟨cur, o, t, hn, _, ht1, _, _, rfl⟩ := iterate_more hi
        have h2 := ih _ _ _ h
        obtain ⟨t', g1, _, _, g4, _⟩ := customTest_spec (A := A) T (popNode (A.withSucc (maps st.expansions)) cfg st cur o) cur
        rw [ht1] at g1; cases g1
        rw [expandNode_expansions, g4] at h2
        have : (popNode (A.withSucc (maps st.expansions)) cfg st cur o).expansions = st.expansions + 1 := rfl
        omega
  intro f
  induction f with
  | zero => intro st st' r h; simp [searchLoopTDuring] at h
  | succ f ih =>
    intro st st' r h hE hC hi0
    rw [searchLoopTDuring, customTest_withSucc] at h
    cases hi : iterate (A.withSucc (maps st.expansions)) cfg (customTest A T) st with
    | done r1 st1 =>
      rw [hi] at h
      simp only [Option.some.injEq, Prod.mk.injEq] at h
      obtain ⟨rfl, rfl⟩ := h
      exact ⟨st, hC, hi0, hi⟩
    | more st1 =>
      rw [hi] at h
      have hle := mono _ _ _ _ h
      obtain ⟨cur, o, t, hn, _, ht1, _, _, he⟩ := iterate_more hi
      have hx : st1.expansions = st.expansions + 1 := by
        obtain ⟨t', g1, _, _, g4, _⟩ := customTest_spec (A := A) T (popNode (A.withSucc (maps st.expansions)) cfg st cur o) cur
        rw [ht1] at g1; cases g1
        rw [he, expandNode_expansions, g4]
        rfl
      have hk : st.expansions < E := by omega
      have h1 := (hC.more (A := A.withSucc (seen maps E)) ok (s := maps st.expansions)
        (fun u e he => List.mem_flatMap.2 ⟨st.expansions, List.mem_range.2 hk, he⟩) (hI _ hk) hi).1
      exact ih st1 st' r h hE h1 (pres st st1 hk hC hi0 hi)

/-- As `ends`, from any state with the invariant. -/
theorem loop_ends (U : N → List (N × C)) (ok : CostOk (A.withSucc U)) (L : Lawful P) (cfg : SCfg N C) (ht : TopOk cfg.top)
    (T : GoalTest N C P) (hU : ∀ k u, ∀ e ∈ maps k u, e ∈ U u) (st : SSt N C P)
    (h : CLoop (A.withSucc U) (fun _ => []) L cfg T st) :
    ∃ fuel p st', searchLoopTDuring A maps cfg T fuel st = some (.ok p, st') := by
  cases hi : iterate (A.withSucc (maps st.expansions)) cfg (customTest A T) st with
  | done r st' =>
    obtain ⟨h1, _, h3, h4, _⟩ := h.done (A := A.withSucc U) (s := maps st.expansions) hi
    obtain ⟨p, hp⟩ : ∃ p, finish cfg st' = .ok p := by
      rcases finish_spec (A := A.withSucc U) ht h3 h4 with ⟨_, e⟩ | ⟨_, l, _, _, _, _, e⟩
      · exact ⟨_, e⟩
      · exact ⟨l, e⟩
    refine ⟨1, p, st', ?_⟩
    rw [searchLoopTDuring, customTest_withSucc, hi, h1, hp]
  | more st' =>
    obtain ⟨h1, _, h2⟩ := h.more (A := A.withSucc U) (s := maps st.expansions) ok (hU _) (by intro u e he; cases he) hi
    obtain ⟨fuel, p, st2, h5⟩ := loop_ends U ok L cfg ht T hU st' h1
    refine ⟨fuel + 1, p, st2, ?_⟩
    rw [searchLoopTDuring, customTest_withSucc, hi]
    exact h5
termination_by (potential (A.withSucc U) st.lab, L.size st.opn)
decreasing_by
  rcases h2 with h2 | ⟨h2, h3⟩
  · exact Prod.Lex.left _ _ h2
  · rw [h2]; exact Prod.Lex.right _ h3

/-- **C123 (end).**  The search ends normally, whatever the goal test answers and however the callback changes the map, as long as
all neighbours that ever occur are among finitely many with non-negative costs. -/
theorem ends (U : N → List (N × C)) (ok : CostOk (A.withSucc U)) (L : Lawful P) (cfg : SCfg N C) (ht : TopOk cfg.top)
    (T : GoalTest N C P) (hU : ∀ k u, ∀ e ∈ maps k u, e ∈ U u) :
    ∃ fuel p st', findPathCustomDuring A maps P cfg T (freshLabels A) fuel = some (.ok p, st') :=
  loop_ends U ok L (customCfg cfg T) ht T hU _ CLoop.init

/-- **C123 (result).**  The result is empty and no node was accepted; or it is a path along neighbours each of which was free in some
of the maps the search has seen, to an accepted node of smallest weight. -/
theorem sound (ok : ∀ k, CostOk (A.withSucc (maps k))) (L : Lawful P) (cfg : SCfg N C) (ht : TopOk cfg.top)
    (T : GoalTest N C P) {fuel : Nat} {p : List N} {st' : SSt N C P}
    (hrun : findPathCustomDuring A maps P cfg T (freshLabels A) fuel = some (.ok p, st')) :
    (∀ x ∈ st'.cands, Accepts T x.1 x.2) ∧
    ((p = [] ∧ st'.cands = []) ∨ ∃ t w d, WalkTo (A.withSucc (seen maps st'.expansions)) cfg.start t p d ∧ (t, w) ∈ st'.cands ∧
      ∀ y ∈ st'.cands, w ≤ y.2) := by
  obtain ⟨st1, h1, _, h2⟩ := run_last (A := A) (maps := maps) (I := fun _ => []) (L := L) (cfg := customCfg cfg T) (T := T)
    (E := st'.expansions) (seen_ok ok _) (by intro k _ u e he; cases he) (Inv := fun _ => True) (fun _ _ _ _ _ _ => trivial)
    fuel _ st' _ hrun (le_refl _) CLoop.init trivial
  obtain ⟨e, _, e3, e4, e5, _⟩ := h1.done (A := A.withSucc (seen maps st'.expansions)) h2
  refine ⟨e5, ?_⟩
  rcases finish_spec (A := A.withSucc (seen maps st'.expansions)) (cfg := customCfg cfg T) ht e3 e4 with ⟨q1, q2⟩ | ⟨x, l, d, q1, q2, q3, q4⟩
  · rw [q2] at e; cases e
    exact .inl ⟨rfl, q1⟩
  · rw [q4] at e; cases e
    exact .inr ⟨x.1, x.2, d, q3.walk, q1, q2⟩

/-- **C123 (completeness).**  Without a time limit, and if the goal test stops the search only at nodes it accepts, an empty result
means that no node the test would accept could be reached along neighbours that were free all the time. -/
theorem complete (ok : ∀ k, CostOk (A.withSucc (maps k))) (L : Lawful P) (cfg : SCfg N C) (ht : TopOk cfg.top)
    (hab : ∀ k, cfg.abort k = false) (T : GoalTest N C P) (hT : StopsOnlyAtCandidates T) {fuel : Nat} {st' : SSt N C P}
    (hrun : findPathCustomDuring A maps P cfg T (freshLabels A) fuel = some (.ok [], st')) (I : N → List (N × C))
    (hI : ∀ k < st'.expansions, ∀ u, ∀ e ∈ I u, e ∈ maps k u) :
    ¬ ∃ n d, Reach (A.withSucc I) cfg.start n d ∧ AlwaysAccepts T n := by
  rintro ⟨n, d, hr, ha⟩
  obtain ⟨st1, h1, _, h2⟩ := run_last (A := A) (maps := maps) (I := I) (L := L) (cfg := customCfg cfg T) (T := T)
    (E := st'.expansions) (seen_ok ok _) hI (Inv := fun _ => True) (fun _ _ _ _ _ _ => trivial)
    fuel _ st' _ hrun (le_refl _) CLoop.init trivial
  obtain ⟨e, _, e3, e4, _, _, e6⟩ := h1.done (A := A.withSucc (seen maps st'.expansions)) h2
  have hc : st'.cands = [] := finish_ne_nil (A := A.withSucc (seen maps st'.expansions)) (cfg := customCfg cfg T) ht e3 e4 e.symm
  obtain ⟨rfl, hn⟩ := e6 hc hab hT
  have hcl := (closed_of_none (U := A.withSucc (seen maps st'.expansions)) (I := I) (seen_ok ok _) h1.inv hn hr).1
  obtain ⟨x, hx, _⟩ := h1.seen n hcl ha
  rw [hc] at hx; cases hx

/-- **C123 (candidates).**  After the search `getPathCandidates` lists one path for every accepted node, along neighbours each free in
some of the maps, in the order of increasing weights; the first one is the path returned. -/
theorem candidates_listed (ok : ∀ k, CostOk (A.withSucc (maps k))) (L : Lawful P) (cfg : SCfg N C) (ht : TopOk cfg.top)
    (T : GoalTest N C P) {fuel : Nat} {r} {st' : SSt N C P}
    (hrun : findPathCustomDuring A maps P cfg T (freshLabels A) fuel = some (r, st')) :
    ∃ ps qs, getPathCandidates cfg st' = .ok ps ∧ qs.Perm st'.cands ∧ qs.Pairwise (fun x y => x.2 ≤ y.2) ∧
      PathsTo (A.withSucc (seen maps st'.expansions)) cfg.start ps qs ∧ r = .ok (ps.head?.getD []) := by
  obtain ⟨st1, h1, _, h2⟩ := run_last (A := A) (maps := maps) (I := fun _ => []) (L := L) (cfg := customCfg cfg T) (T := T)
    (E := st'.expansions) (seen_ok ok _) (by intro k _ u e he; cases he) (Inv := fun _ => True) (fun _ _ _ _ _ _ => trivial)
    fuel _ st' _ hrun (le_refl _) CLoop.init trivial
  obtain ⟨e, _, e3, e4, _⟩ := h1.done (A := A.withSucc (seen maps st'.expansions)) h2
  obtain ⟨ps, qs, k1, k2, k3, k4, k5⟩ := candidatePaths_spec (A := A.withSucc (seen maps st'.expansions)) (cfg := cfg) ht e3
    st'.cands.length st'.cands rfl e4
  refine ⟨ps, qs, k1, k2, k3, k4, ?_⟩
  rw [e]
  unfold finish
  show (match cfg.top st'.cands with
    | some best => backtrack st'.lab cfg.start best.1
    | none => CRes.ok []) = _
  cases htop : cfg.top st'.cands with
  | none =>
    have hnil := (ht.none_iff _).1 htop
    rw [hnil] at k2
    have := k2.eq_nil
    subst this
    cases k4
    rfl
  | some x =>
    have hx := ht.mem _ _ htop
    obtain ⟨l, d, hb⟩ := e3.back x.1 ((e3.reach x.1).2 (.inr (e4 x hx)))
    have hbt : backtrack st'.lab cfg.start x.1 = .ok l := backtrack_ok e3.sp hb
    have := k5 x htop
    rw [hbt] at this
    simp only [hbt, this, Option.getD_some]

/-- **C123 (moments).**  The steps of a returned path were free on the maps of distinct moments of the search. -/
theorem moments (ok : ∀ k, CostOk (A.withSucc (maps k))) (L : Lawful P) (cfg : SCfg N C) (ht : TopOk cfg.top)
    (T : GoalTest N C P) {fuel : Nat} {p : List N} {st' : SSt N C P}
    (hrun : findPathCustomDuring A maps P cfg T (freshLabels A) fuel = some (.ok p, st')) : ∃ J, SteppedAt maps st'.expansions p J := by
  obtain ⟨st1, h1, hM, h2⟩ := run_last (A := A) (maps := maps) (I := fun _ => []) (L := L) (cfg := customCfg cfg T) (T := T)
    (E := st'.expansions) (seen_ok ok _) (by intro k _ u e he; cases he) (Inv := Moments maps)
    (fun st st2 _ _ hM hi => Moments.moreQ (fun st cur t ht => by
      obtain ⟨t', g1, g2, _, g4, _⟩ := customTest_spec (A := A) T st cur
      rw [ht] at g1; cases g1
      exact ⟨g2, g4⟩) hM hi) fuel _ st' _ hrun (le_refl _) CLoop.init (Moments.init L _)
  obtain ⟨e, e2, e3, e4, _, e5, _⟩ := h1.done (A := A.withSucc (seen maps st'.expansions)) h2
  rcases finish_spec (A := A.withSucc (seen maps st'.expansions)) (cfg := customCfg cfg T) ht e3 e4 with ⟨q1, q2⟩ | ⟨x, l, d, q1, q2, q3, q4⟩
  · rw [q2] at e; cases e
    exact ⟨fun _ => 0, fun i y z hy => by simp at hy, fun i j hi => by simp at hi⟩
  · rw [q4] at e; cases e
    exact hM.path e2 e5 q3

/-- **C123.**  A map that does not change: the search of C75. -/
theorem constant (P : OpenList N C) (cfg : SCfg N C) (T : GoalTest N C P) (lab : Labels N C) (fuel : Nat) :
    findPathCustomDuring A (fun _ => A.succ) P cfg T lab fuel = findPathCustom A P cfg T lab fuel := by
  unfold findPathCustomDuring findPathCustom
  generalize initSearch A P _ lab = st
  induction fuel generalizing st with
  | zero => rfl
  | succ fuel ih =>
    unfold searchLoopTDuring searchLoop
    simp only [ih]
    rfl

end PathPlanning.CDur
