import Verif.Lemmas.KinMoments
import Verif.Props.KinCustomDuring

/-!
# Distinct steps of a path were accepted by the maps of distinct moments (C120, C122)
-/

namespace PathPlanning
open PathPlanning Spec
set_option linter.unusedSectionVars false

variable {N K C : Type} [DecidableEq N] [LinearOrder C] [Fintype N]
variable {A : KAlgo N K C} {cs : List C} {P : OpenList N C} {cfg : SCfg N C} {kin0 : N → K} {us : Nat → K → K → CRes Bool}

namespace KDur

/-- An iteration that ends the search changes neither predecessors nor poses. -/
theorem done_same {st st' : KSt N K C P} {r : CRes (List N)} (h : kIterate A cfg st = .done r st') :
    st'.kin = st.kin ∧ ∀ n, (st'.s.lab n).prev = (st.s.lab n).prev := by
  unfold kIterate at h
  cases hn : P.next st.s.opn with
  | none => rw [hn] at h; cases h; exact ⟨rfl, fun _ => rfl⟩
  | some co =>
    obtain ⟨cur, o⟩ := co
    rw [hn] at h
    simp only at h
    by_cases hab : cfg.abort st.s.expansions = true
    · rw [if_pos hab] at h; cases h; exact ⟨rfl, fun _ => rfl⟩
    rw [if_neg hab] at h
    have hpp : ∀ n, ((popNode (A.alg st.s.lab st.kin) cfg st.s cur o).lab n).prev = (st.s.lab n).prev := by
      intro n
      unfold popNode
      simp only
      by_cases e : n = cur
      · subst e; rw [setLab_self]
      · rw [setLab_ne _ _ e]
    cases ht : goalLoop (A.alg (popNode (A.alg st.s.lab st.kin) cfg st.s cur o).lab st.kin) (A.cfg cfg st.kin) cur cfg.goal
        (popNode (A.alg st.s.lab st.kin) cfg st.s cur o) with
    | throw e => rw [ht] at h; cases h; exact ⟨rfl, hpp⟩
    | ub => rw [ht] at h; cases h; exact ⟨rfl, hpp⟩
    | ok t =>
      have hlab := (goalLoop_quiet _ _ _ _ _ ht).1
      have hpp' : ∀ n, (t.st.lab n).prev = (st.s.lab n).prev := by rw [hlab]; exact hpp
      rw [ht] at h
      simp only at h
      split_ifs at h
      · cases h; exact ⟨rfl, hpp'⟩
      · cases h; exact ⟨rfl, hpp'⟩
      · cases h; exact ⟨rfl, hpp'⟩
      · cases hk : kExpand A cfg.goal cur A.moves { st with s := t.st } with
        | throw e => rw [hk] at h; cases h; exact ⟨rfl, hpp'⟩
        | ub => rw [hk] at h; cases h; exact ⟨rfl, hpp'⟩
        | ok s2 => rw [hk] at h; cases h

/-- One iteration more. -/
theorem Moments.iterate {E : Nat} {cs : List C} {L : Lawful P} {i : K → K → CRes Bool} {st st' : KSt N K C P}
    (hI : VKInv (onSome A us E) i cs L cfg kin0 nopend st) (h : Moments A us (onSome A us E) cfg.start kin0 st)
    (hi : kIterate (A.withUsable (us st.s.expansions)) cfg st = .more st') :
    Moments A us (onSome A us E) cfg.start kin0 st' := by
  obtain ⟨cur, o, hn, he, hs⟩ := more_stores hi
  have hd := hI.memReach cur (L.next_some _ _ _ hn).1
  refine h.more he hs (hI.reachable hd) ?_
  by_cases hc : cur ∈ cfg.start
  · exact .inl ⟨hc, hI.startKin cur hc⟩
  · exact .inr ⟨hc, (hI.edge cur hc hd).reachable.1⟩

/-- The end of a run. -/
theorem run_moments (ok : KCostOk A cs) (L : Lawful P) (ht : TopOk cfg.top) {fuel : Nat} {r : CRes (List N)} {st' : KSt N K C P}
    (hrun : kLoopDuring A us cfg fuel (kInit A P cfg kin0) = some (r, st')) :
    Moments A us (onSome A us st'.s.expansions) cfg.start kin0 st' := by
  have okU : KCostOk (onSome A us st'.s.expansions) cs := costOk_wu ok _
  obtain ⟨h1, h2⟩ := vkInit_inv (A := onSome A us st'.s.expansions) (i := all us st'.s.expansions) (cs := cs) (L := L)
    (cfg := cfg) (kin0 := kin0)
  have hup : ∀ j < st'.s.expansions, ∀ k k', us j k k' = .ok true →
      (onSome A us st'.s.expansions).usable k k' = .ok true := fun j hj k k' e => onSome_iff.2 ⟨j, hj, e⟩
  have hlo : ∀ j < st'.s.expansions, ∀ k k', all us st'.s.expansions k k' = .ok true → us j k k' = .ok true :=
    fun j hj k k' e => all_iff.1 e j hj
  obtain ⟨st1, ⟨_, _, g3⟩, h3⟩ := run_last (A := A) (us := us) (cfg := cfg)
    (Inv := fun st => VKInv (onSome A us st'.s.expansions) (all us st'.s.expansions) cs L cfg kin0 nopend st ∧
      (cfg.useCands = false → st.s.cands = []) ∧ Moments A us (onSome A us st'.s.expansions) cfg.start kin0 st)
    (E := st'.s.expansions)
    (fun st st2 hk h hi => by
      have hs := vkIterate_spec (a := us st.s.expansions) okU (hup _ hk) (hlo _ hk) ht h.1 h.2.1
      rw [show (onSome A us st'.s.expansions).withUsable (us st.s.expansions) = A.withUsable (us st.s.expansions) from rfl,
        hi] at hs
      exact ⟨hs.1, hs.2.1, Moments.iterate h.1 h.2.2 hi⟩) fuel _ st' r hrun (le_refl _) ⟨h1, fun _ => h2, Moments.init L _⟩
  obtain ⟨e1, e2⟩ := done_same h3
  exact g3.same (done_expansions h3) e2 e1

/-- **C120 (moments).**  The steps of a returned path were accepted by the maps of distinct moments of the search. -/
theorem moments (ok : KCostOk A cs) (L : Lawful P) (ht : TopOk cfg.top) {fuel : Nat} {q : List K} {E : Nat}
    (h : kFindPathDuring A us P cfg kin0 fuel = some (.ok q, E)) : ∃ J, TakenAt A us E cfg.start kin0 q J := by
  unfold kFindPathDuring at h
  cases hk : kLoopDuring A us cfg fuel (kInit A P cfg kin0) with
  | none => rw [hk] at h; simp at h
  | some x =>
    obtain ⟨r0, st'⟩ := x
    rw [hk] at h
    simp only [Option.map_some, Option.some.injEq, Prod.mk.injEq] at h
    obtain ⟨e1, rfl⟩ := h
    cases r0 with
    | throw e => cases e1
    | ub => cases e1
    | ok p =>
      cases e1
      obtain ⟨j, hd, _⟩ := run_done ok L ht hk
      have okU : KCostOk (onSome A us st'.s.expansions) cs := costOk_wu ok _
      obtain ⟨hc, hsk, hedge, hcase⟩ := hd.ok p rfl
      rcases hcase with ⟨rfl, _⟩ | ⟨n, d, hnd, hb, _⟩
      · exact ⟨fun _ => 0, fun i _ _ hi => by simp at hi, fun i j hi => by simp at hi⟩
      · exact (run_moments ok L ht hk).path (le_refl _) hb hsk
          (fun v hv hvs => (hedge v hvs (hb.reached okU hc hedge hnd v hv)).reachable.1)

end KDur

/-- Steps of distinct moments before `k`: there are at most `k` of them. -/
theorem Spec.TakenAt.length {E : Nat} {start : List N} {q : List K} {J : Nat → Nat} (h : TakenAt A us E start kin0 q J) {k : Nat}
    (hno : ∀ j, k ≤ j → ∀ x c y, ¬ LegalStep (A.withUsable (us j)) x c y) : q.length ≤ k + 1 := by
  by_contra hlt
  have hlt : k + 1 < q.length := by omega
  have hJ : ∀ i ∈ Finset.range (k + 1), J i ∈ Finset.range k := by
    intro i hi
    rw [Finset.mem_range] at hi ⊢
    have hi' : i + 1 < q.length := by omega
    obtain ⟨_, x, c, _, _, h4⟩ := h.1 i q[i] q[i + 1] (List.getElem?_eq_getElem (by omega)) (List.getElem?_eq_getElem hi')
    by_contra hk
    exact hno (J i) (by omega) x c q[i + 1] h4
  obtain ⟨i, hi, j, hj, hne, e⟩ := Finset.exists_ne_map_eq_of_card_lt_of_maps_to (by simp) hJ
  rw [Finset.mem_range] at hi hj
  exact hne (h.2 i j (by omega) (by omega) e)

/-- **C120.**  If no step is accepted any more from moment `k` on, a returned path has at most `k` steps. -/
theorem KDur.frozen (ok : KCostOk A cs) (L : Lawful P) (ht : TopOk cfg.top) {fuel : Nat} {q : List K} {E k : Nat}
    (hno : ∀ j, k ≤ j → ∀ x c y, ¬ LegalStep (A.withUsable (us j)) x c y)
    (h : kFindPathDuring A us P cfg kin0 fuel = some (.ok q, E)) : q.length ≤ k + 1 := by
  obtain ⟨J, hJ⟩ := moments ok L ht h
  exact hJ.length hno

namespace TDur
variable {T : KGoalTest N K C P}

/-- An iteration that ends the search changes neither predecessors nor poses. -/
theorem done_same {st st' : KSt N K C P} {r : CRes (List N)} (h : kIterateT A cfg T st = .done r st') :
    st'.kin = st.kin ∧ ∀ n, (st'.s.lab n).prev = (st.s.lab n).prev := by
  unfold kIterateT at h
  cases hn : P.next st.s.opn with
  | none => rw [hn] at h; cases h; exact ⟨rfl, fun _ => rfl⟩
  | some co =>
    obtain ⟨cur, o⟩ := co
    rw [hn] at h
    simp only at h
    by_cases hab : cfg.abort st.s.expansions = true
    · rw [if_pos hab] at h; cases h; exact ⟨rfl, fun _ => rfl⟩
    rw [if_neg hab] at h
    obtain ⟨p1, p2, p3, p4, p5, p6⟩ := kTest_parts (A := A) (T := T) (popT A cfg T st cur o) cur
    change (if (T.terminate (popT A cfg T st cur o) cur).2 = true then
        KIter.done _ (kTest A T (popT A cfg T st cur o) cur) else
      if (cfg.useCands && !(kTest A T (popT A cfg T st cur o) cur).s.cands.isEmpty && _) = true then
        KIter.done _ (kTest A T (popT A cfg T st cur o) cur) else
        match kExpand A [] cur A.moves (kTest A T (popT A cfg T st cur o) cur) with
        | .throw e => .done (.throw e) (kTest A T (popT A cfg T st cur o) cur)
        | .ub => .done .ub (kTest A T (popT A cfg T st cur o) cur)
        | .ok st' => .more st') = _ at h
    have hst : st' = kTest A T (popT A cfg T st cur o) cur := by
      split at h
      · injection h with _ e; exact e.symm
      · split at h
        · injection h with _ e; exact e.symm
        · split at h
          · injection h with _ e; exact e.symm
          · injection h with _ e; exact e.symm
          · cases h
    rw [hst]
    refine ⟨p1, fun n => ?_⟩
    rw [p2]
    show ((popNode (A.alg st.s.lab st.kin) (tCfg cfg T st.kin) st.s cur o).lab n).prev = _
    unfold popNode
    simp only
    by_cases e : n = cur
    · subst e; rw [setLab_self]
    · rw [setLab_ne _ _ e]

/-- The end of a run. -/
theorem run_moments (ok : KCostOk A cs) (L : Lawful P) (ht : TopOk cfg.top) {fuel : Nat} {r : CRes (List N)} {st' : KSt N K C P}
    (hrun : kLoopTDuring A us cfg T fuel (kInit A P cfg kin0) = some (r, st')) :
    KDur.Moments A us (onSome A us st'.s.expansions) cfg.start kin0 st' := by
  have okU : KCostOk (onSome A us st'.s.expansions) cs := KDur.costOk_wu ok _
  have h1 := KDur.vtInit_inv (A := onSome A us st'.s.expansions) (i := KDur.all us st'.s.expansions) (cs := cs) (L := L)
    (cfg := cfg) (kin0 := kin0) (T := T)
  have hup : ∀ j < st'.s.expansions, ∀ k k', us j k k' = .ok true →
      (onSome A us st'.s.expansions).usable k k' = .ok true := fun j hj k k' e => KDur.onSome_iff.2 ⟨j, hj, e⟩
  have hlo : ∀ j < st'.s.expansions, ∀ k k', KDur.all us st'.s.expansions k k' = .ok true → us j k k' = .ok true :=
    fun j hj k k' e => KDur.all_iff.1 e j hj
  have hwu : ∀ u, (onSome A us st'.s.expansions).withUsable u = A.withUsable u := fun _ => rfl
  obtain ⟨st1, ⟨_, g3⟩, h3⟩ := run_last (A := A) (us := us) (cfg := cfg) (T := T)
    (Inv := fun st => KDur.VTInv (onSome A us st'.s.expansions) (KDur.all us st'.s.expansions) cs L cfg T kin0 st ∧
      KDur.Moments A us (onSome A us st'.s.expansions) cfg.start kin0 st)
    (E := st'.s.expansions)
    (fun st st2 hk h hi => by
      refine ⟨(h.1.more (a := us st.s.expansions) okU (hup _ hk) (hlo _ hk) ht (by rw [hwu]; exact hi)).1, ?_⟩
      obtain ⟨cur, o, _, _, hsim, _⟩ := kIterateT_more hi
      have := KDur.Moments.iterate (st := st.bare) (st' := st2.bare) (E := st'.s.expansions) (cfg := tCfg cfg T st.kin)
        (h.1.inv.recfg rfl rfl) h.2 hsim
      exact this)
    fuel _ st' r hrun (le_refl _) ⟨h1, KDur.Moments.init L _⟩
  obtain ⟨e1, e2⟩ := done_same h3
  refine g3.same ?_ e2 e1
  rcases done_cases h3 with ⟨_, e, _⟩ | e
  · rw [e]
  · exact e.le

/-- **C122 (moments).**  The steps of a returned path were accepted by the maps of distinct moments of the search. -/
theorem moments (ok : KCostOk A cs) (L : Lawful P) (ht : TopOk cfg.top) {fuel : Nat} {q : List K} {st' : KSt N K C P}
    (h : kFindTestDuring A us P cfg T kin0 fuel = some (.ok q, st')) : ∃ J, TakenAt A us st'.s.expansions cfg.start kin0 q J := by
  obtain ⟨r0, j, hrun, hd, _, hq, _⟩ := find_done ok L ht h
  obtain ⟨p, rfl, rfl⟩ := hq q rfl
  have okU : KCostOk (onSome A us st'.s.expansions) cs := KDur.costOk_wu ok _
  obtain ⟨he, hfin, _⟩ := hd.ok p rfl
  have hC := he.core st'.s.lab st'.kin
  rcases finish_spec (A := (onSome A us st'.s.expansions).full cs st'.s.lab st'.kin) (st := st'.s) ht hC he.closed with
    ⟨_, h2⟩ | ⟨x, l, d, h1, h2, hb, h4⟩
  · rw [h2] at hfin
    cases hfin
    exact ⟨fun _ => 0, fun i _ _ hi => by simp at hi, fun i j hi => by simp at hi⟩
  · rw [h4] at hfin
    cases hfin
    have hnd : (st'.s.lab x.1).dist ≠ ⊤ := (hC.reach _).2 (.inr (he.closed x h1))
    exact (run_moments ok L ht hrun).path (le_refl _) hb he.startKin
      (fun v hv hvs => (he.edge v hvs (hb.reached okU he.core he.edge hnd v hv)).reachable.1)

/-- **C122.**  If no step is accepted any more from moment `k` on, a returned path has at most `k` steps. -/
theorem frozen (ok : KCostOk A cs) (L : Lawful P) (ht : TopOk cfg.top) {fuel : Nat} {q : List K} {st' : KSt N K C P} {k : Nat}
    (hno : ∀ j, k ≤ j → ∀ x c y, ¬ LegalStep (A.withUsable (us j)) x c y)
    (h : kFindTestDuring A us P cfg T kin0 fuel = some (.ok q, st')) : q.length ≤ k + 1 := by
  obtain ⟨J, hJ⟩ := moments ok L ht h
  exact hJ.length hno

end TDur
end PathPlanning
