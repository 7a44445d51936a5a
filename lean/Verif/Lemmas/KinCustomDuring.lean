import Verif.Lemmas.KinCustom
import Verif.Lemmas.KinDuringMono
import Verif.Model.KinCustomDuring

/-!
# Invariants of the search with a goal test on a map that changes (C122)
-/

namespace PathPlanning.KDur
open PathPlanning Spec
set_option linter.unusedSectionVars false

variable {N K C : Type} [DecidableEq N] [LinearOrder C] [Fintype N]
variable {P : OpenList N C}
variable {A : KAlgo N K C} {i a : K → K → CRes Bool} {cs : List C} {L : Lawful P} {cfg : SCfg N C} {kin0 : N → K}
  {T : KGoalTest N K C P}

/-- The invariant uses only the start and goal nodes of the settings. -/
theorem VKInv.recfg {cfg' : SCfg N C} {pend} {st : KSt N K C P} (h : VKInv A i cs L cfg kin0 pend st)
    (e1 : cfg'.start = cfg.start) (e2 : cfg'.goal = cfg.goal) : VKInv A i cs L cfg' kin0 pend st := by
  obtain ⟨h1, h2, h3, h4, h5, h6, h7, h8, h9, h10⟩ := h
  refine ⟨?_, h2, h3, h4, ?_, h6, ?_, h8, ?_, ?_⟩
  · rw [e1]; exact h1
  · rw [e1]; exact h5
  · rw [e1]; exact h7
  · rw [e2]; exact h9
  · rw [e1, e2]; exact h10

/-- Invariant of a search with a goal test. -/
structure VTInv (A : KAlgo N K C) (i : K → K → CRes Bool) (cs : List C) (L : Lawful P) (cfg : SCfg N C) (T : KGoalTest N K C P) (kin0 : N → K)
    (st : KSt N K C P) : Prop where
  inv : VKInv A i cs L { cfg with goal := [] } kin0 nopend st.bare
  closed : ∀ x ∈ st.s.cands, (st.s.lab x.1).closed = true
  good : ∀ x ∈ st.s.cands, ∃ k, Reachable A cfg.start kin0 k ∧ PoseAccepted T k x.2 ∧
    (k = st.kin x.1 ∨ (x.1 ∉ cfg.start ∧ A.lookup k = .ok (some x.1)))
  seen : ∀ n, (st.s.lab n).closed = true → (st.s.lab n).opn = false → PoseAlwaysAccepted T (st.kin n) →
    st.s.cands ≠ []

theorem VTInv.toEnd {st : KSt N K C P} (h : VTInv A i cs L cfg T kin0 st) : TEnd A cs cfg T kin0 st :=
  ⟨h.inv.core, h.inv.startKin, h.inv.edge, h.closed, h.good⟩

/-- What the search knows when the goal test has been asked about `cur`. -/
theorem VTInv.tested {st : KSt N K C P} (h : VTInv A i cs L cfg T kin0 st) {cur : N} {o : P.O}
    (hn : P.next st.s.opn = some (cur, o)) :
    TEnd A cs cfg T kin0 (kTest A T (popT A cfg T st cur o) cur) ∧
      (∀ w, (T.terminate (popT A cfg T st cur o) cur).1 = some w →
        (cur, w) ∈ (kTest A T (popT A cfg T st cur o) cur).s.cands) ∧
      (∀ n, n ≠ cur → (popT A cfg T st cur o).s.lab n = st.s.lab n) ∧
      ((popT A cfg T st cur o).s.lab cur).closed = true ∧
      st.s.cands ⊆ (kTest A T (popT A cfg T st cur o) cur).s.cands := by
  obtain ⟨p1, p2, p3, p4, p5, p6⟩ := kTest_parts (A := A) (T := T) (popT A cfg T st cur o) cur
  obtain ⟨hx, hd, hp, hoth, hcs, hf, he, hopn1⟩ :=
    vkpop_spec (cfg := tCfg cfg T st.kin) (st := st.bare) (h.inv.recfg rfl rfl) hn (B := A.alg st.s.lab st.kin)
  have hC := hx.core st.s.lab st.kin
  have hsub : st.s.cands ⊆ (kTest A T (popT A cfg T st cur o) cur).s.cands := by
    rw [p6]
    exact fun x hx => List.mem_append_left _ hx
  refine ⟨⟨?_, ?_, ?_, ?_, ?_⟩, ?_, hoth, hx.curOk.1, hsub⟩
  · rw [p2]; exact hx.core
  · rw [p1]; exact hx.startKin
  · rw [p1, p2]; exact hx.edge
  · intro x hx1
    rw [p2]
    rw [p6] at hx1
    have key : x.1 = cur ∨ (st.s.lab x.1).closed = true := by
      rcases List.mem_append.1 hx1 with h1 | h1
      · exact .inr (h.closed x h1)
      · left
        cases hT : (T.terminate (popT A cfg T st cur o) cur).1 with
        | none => rw [hT] at h1; cases h1
        | some w => rw [hT] at h1; rw [List.mem_singleton] at h1; rw [h1]
    by_cases e : x.1 = cur
    · rw [e]; exact hx.curOk.1
    · rcases key with h1 | h1
      · exact absurd h1 e
      · rw [show (popT A cfg T st cur o).s.lab x.1 = st.s.lab x.1 from hoth _ e]; exact h1
  · intro x hx1
    rw [p1]
    rw [p6] at hx1
    rcases List.mem_append.1 hx1 with h1 | h1
    · exact h.good x h1
    · cases hT : (T.terminate (popT A cfg T st cur o) cur).1 with
      | none => rw [hT] at h1; cases h1
      | some w =>
        rw [hT, List.mem_singleton] at h1
        subst h1
        refine ⟨st.kin cur, h.inv.reachable (n := cur) ?_, ⟨popT A cfg T st cur o, cur, rfl, hT⟩, .inl rfl⟩
        exact h.inv.memReach cur (L.next_some _ _ _ hn).1
  · intro w hw
    rw [p6, hw]
    simp

/-- An iteration that goes on keeps the invariant and makes progress. -/
theorem VTInv.more (ok : KCostOk A cs) (hup : ∀ k k', a k k' = .ok true → A.usable k k' = .ok true)
    (hlo : ∀ k k', i k k' = .ok true → a k k' = .ok true) (ht : TopOk cfg.top) {st st' : KSt N K C P} (h : VTInv A i cs L cfg T kin0 st)
    (hi : kIterateT (A.withUsable a) cfg T st = .more st') :
    VTInv A i cs L cfg T kin0 st' ∧
      (potential (A.full cs (fun _ => Label.fresh A.zero) kin0) st'.s.lab <
          potential (A.full cs (fun _ => Label.fresh A.zero) kin0) st.s.lab ∨
        (potential (A.full cs (fun _ => Label.fresh A.zero) kin0) st'.s.lab =
            potential (A.full cs (fun _ => Label.fresh A.zero) kin0) st.s.lab ∧
          L.size st'.s.opn < L.size st.s.opn)) := by
  obtain ⟨cur, o, hn, hT, hsim, hcands, hexp⟩ : ∃ cur o, P.next st.s.opn = some (cur, o) ∧
      (T.terminate (popT A cfg T st cur o) cur).2 = false ∧
      kIterate (A.withUsable a) (tCfg cfg T st.kin) st.bare = .more st'.bare ∧
      st'.s.cands = (kTest A T (popT A cfg T st cur o) cur).s.cands ∧
      kExpand (A.withUsable a) [] cur A.moves (kTest A T (popT A cfg T st cur o) cur) = .ok st' := kIterateT_more hi
  have hs := vkIterate_spec (a := a) (L := L) (cfg := tCfg cfg T st.kin) (kin0 := kin0) ok hup hlo ht (st := st.bare)
    (h.inv.recfg rfl rfl) (fun _ => rfl)
  rw [hsim] at hs
  obtain ⟨hinv, _, _, hprog⟩ := hs
  obtain ⟨hend, hadd, hoth, hcl, hsub⟩ := h.tested hn
  obtain ⟨p1, p2, p3, p4, p5, p6⟩ := kTest_parts (A := A) (T := T) (popT A cfg T st cur o) cur
  have hfr := kExpand_frame _ _ _ hexp
  refine ⟨⟨hinv.recfg rfl rfl, ?_, ?_, ?_⟩, hprog _ _⟩
  · intro x hx
    rw [hcands] at hx
    rw [(hfr x.1).1]; exact hend.closed x hx
  · intro x hx
    rw [hcands] at hx
    obtain ⟨k, h1, h2, h3⟩ := hend.good x hx
    refine ⟨k, h1, h2, ?_⟩
    rcases h3 with h3 | h3
    swap
    · exact .inr h3
    by_cases e : st'.kin x.1 = st.kin x.1
    · left; rw [h3, p1, e]; rfl
    · right
      have hns : x.1 ∉ cfg.start := fun hs => e ((hinv.startKin x.1 hs).trans (h.inv.startKin x.1 hs).symm)
      have hd : ((kTest A T (popT A cfg T st cur o) cur).s.lab x.1).dist ≠ ⊤ :=
        ((hend.core st.s.lab st.kin).reach x.1).2 (.inr (hend.closed x hx))
      refine ⟨hns, ?_⟩
      rw [h3]
      exact (hend.edge x.1 hns hd).reachable.1
  · intro n h1 h2 h3
    rw [hcands]
    obtain ⟨f1, f2⟩ := hfr n
    obtain ⟨f3, f4⟩ := f2 h2
    rw [f1, p2] at h1
    rw [p2] at f3
    rw [f4, p1] at h3
    by_cases e : n = cur
    · subst e
      obtain ⟨w, hw⟩ := Option.ne_none_iff_exists'.1 (h3 (popT A cfg T st n o) n rfl)
      exact List.ne_nil_of_mem (hadd w hw)
    · rw [hoth n e] at h1 f3
      obtain ⟨x, hx⟩ := List.exists_mem_of_ne_nil _ (h.seen n h1 f3 h3)
      exact List.ne_nil_of_mem (hsub hx)

/-- What is known when a search with a goal test has ended. -/
structure VTDone (A : KAlgo N K C) (i a : K → K → CRes Bool) (cs : List C) (L : Lawful P) (cfg : SCfg N C) (T : KGoalTest N K C P) (kin0 : N → K)
    (r : CRes (List N)) (st : KSt N K C P) : Prop where
  throw : ∀ e, r = .throw e → Thrown A a cfg.start kin0 e
  ub : r = .ub → Misbehaves A a cfg.start kin0
  ok : ∀ p, r = .ok p → TEnd A cs cfg T kin0 st ∧ finish cfg st.s = .ok p ∧
    ((VTInv A i cs L cfg T kin0 st ∧ P.next st.s.opn = none) ∨ cfg.abort st.s.expansions = true ∨ st.s.cands ≠ [] ∨
      ∃ st1 n, (T.terminate st1 n).2 = true ∧ (T.terminate st1 n).1 = none)

theorem VTInv.done (ok : KCostOk A cs) (hup : ∀ k k', a k k' = .ok true → A.usable k k' = .ok true)
    (hlo : ∀ k k', i k k' = .ok true → a k k' = .ok true) (ht : TopOk cfg.top) {st st' : KSt N K C P} {r : CRes (List N)}
    (h : VTInv A i cs L cfg T kin0 st) (hi : kIterateT (A.withUsable a) cfg T st = .done r st') : VTDone A i a cs L cfg T kin0 r st' := by
  unfold kIterateT at hi
  cases hn : P.next st.s.opn with
  | none =>
    rw [hn] at hi
    cases hi
    obtain ⟨p, hp⟩ : ∃ p, finish cfg st.s = .ok p := by
      rcases finish_spec (A := A.full cs st.s.lab st.kin) (st := st.s) ht (h.inv.core st.s.lab st.kin) h.closed with
        ⟨_, h2⟩ | ⟨_, l, _, _, _, _, h4⟩
      · exact ⟨_, h2⟩
      · exact ⟨_, h4⟩
    rw [hp]
    exact ⟨by simp, by simp, fun q hq => by cases hq; exact ⟨h.toEnd, hp, .inl ⟨h, hn⟩⟩⟩
  | some co =>
    obtain ⟨cur, o⟩ := co
    rw [hn] at hi
    simp only at hi
    have hfin : ∀ st2 : KSt N K C P, TEnd A cs cfg T kin0 st2 → ∃ p, finish cfg st2.s = .ok p := by
      intro st2 he
      rcases finish_spec (A := A.full cs st2.s.lab st2.kin) ht (he.core st2.s.lab st2.kin) he.closed with
        ⟨_, h2⟩ | ⟨_, l, _, _, _, _, h4⟩
      · exact ⟨_, h2⟩
      · exact ⟨_, h4⟩
    by_cases hab : cfg.abort st.s.expansions = true
    · rw [if_pos hab] at hi
      cases hi
      obtain ⟨p, hp⟩ := hfin st h.toEnd
      rw [hp]
      exact ⟨by simp, by simp, fun q hq => by cases hq; exact ⟨h.toEnd, hp, .inr (.inl hab)⟩⟩
    rw [if_neg hab] at hi
    obtain ⟨hend, hadd, hoth, hcl, hsub⟩ := h.tested hn
    obtain ⟨p1, p2, p3, p4, p5, p6⟩ := kTest_parts (A := A) (T := T) (popT A cfg T st cur o) cur
    change (if (T.terminate (popT A cfg T st cur o) cur).2 = true then
        KIter.done (finish cfg (kTest A T (popT A cfg T st cur o) cur).s) (kTest A T (popT A cfg T st cur o) cur) else
      if (cfg.useCands && !(kTest A T (popT A cfg T st cur o) cur).s.cands.isEmpty && _) = true then
        KIter.done (finish cfg (kTest A T (popT A cfg T st cur o) cur).s) (kTest A T (popT A cfg T st cur o) cur) else
        match kExpand (A.withUsable a) [] cur A.moves (kTest A T (popT A cfg T st cur o) cur) with
        | .throw e => .done (.throw e) (kTest A T (popT A cfg T st cur o) cur)
        | .ub => .done .ub (kTest A T (popT A cfg T st cur o) cur)
        | .ok st' => .more st') = _ at hi
    obtain ⟨p, hp⟩ := hfin _ hend
    by_cases hT : (T.terminate (popT A cfg T st cur o) cur).2 = true
    · rw [if_pos hT] at hi
      cases hi
      rw [hp]
      refine ⟨by simp, by simp, fun q hq => ?_⟩
      cases hq
      refine ⟨hend, hp, .inr (.inr ?_)⟩
      cases hw : (T.terminate (popT A cfg T st cur o) cur).1 with
      | none => exact .inr ⟨_, cur, hT, hw⟩
      | some w => exact .inl (List.ne_nil_of_mem (hadd w hw))
    rw [if_neg hT] at hi
    split at hi
    · rename_i hov
      cases hi
      rw [hp]
      refine ⟨by simp, by simp, fun q hq => ?_⟩
      cases hq
      refine ⟨hend, hp, .inr (.inr (.inl ?_))⟩
      intro e
      rw [e] at hov
      simp at hov
    · have hb : kExpand (A.withUsable a) [] cur A.moves (popT A cfg T st cur o).bare =
          (kExpand (A.withUsable a) [] cur A.moves (kTest A T (popT A cfg T st cur o) cur)).bind fun s => .ok s.bare := by
        rw [← p5]
        exact kExpand_withCands _ _ _ _ _ _
      obtain ⟨hx, _⟩ := vkpop_spec (cfg := tCfg cfg T st.kin) (st := st.bare) (h.inv.recfg rfl rfl) hn (B := A.alg st.s.lab st.kin)
      have hX : VKInv A i cs L (tCfg cfg T st.kin) kin0 (todo cur A.moves) (popT A cfg T st cur o).bare :=
        hx.afterTest (s2 := (popT A cfg T st cur o).bare.s) rfl rfl (fun x hx => hx) (by intro x hx; cases hx)
          (by intro x hx; cases hx) (by intro g hg; cases hg)
      have hE := vkExpand_spec (a := a) ok hup hlo A.moves (popT A cfg T st cur o).bare (fun m hm => hm) hX hx.curOk
      change (match kExpand (A.withUsable a) [] cur A.moves (popT A cfg T st cur o).bare with
        | .ok st' => _ | .throw e => Thrown A a cfg.start kin0 e | .ub => Misbehaves A a cfg.start kin0) at hE
      rw [hb] at hE
      cases hk : kExpand (A.withUsable a) [] cur A.moves (kTest A T (popT A cfg T st cur o) cur) with
      | throw e =>
        rw [hk] at hi hE
        cases hi
        exact ⟨fun e' he' => by cases he'; exact hE, by simp, by simp⟩
      | ub =>
        rw [hk] at hi hE
        cases hi
        exact ⟨by simp, fun _ => hE, by simp⟩
      | ok st2 => rw [hk] at hi; cases hi

theorem vtInit_inv : VTInv A i cs L cfg T kin0 (kInit A P cfg kin0) := by
  obtain ⟨h1, h2⟩ := vkInit_inv (A := A) (i := i) (cs := cs) (L := L) (cfg := { cfg with goal := [] }) (kin0 := kin0)
  have e : (kInit A P { cfg with goal := [] } kin0) = kInit A P cfg kin0 := rfl
  rw [e] at h1 h2
  have hb : VKInv A i cs L { cfg with goal := [] } kin0 nopend (kInit A P cfg kin0).bare :=
    h1.same (s' := (kInit A P cfg kin0).bare.s) (fun m => ⟨rfl, rfl, rfl, rfl⟩) rfl h2.symm
      (fun u mv _ _ _ hp => .inl hp)
  refine ⟨hb, ?_, ?_, ?_⟩
  · intro x hx; rw [h2] at hx; cases hx
  · intro x hx; rw [h2] at hx; cases hx
  · intro n hn
    obtain ⟨k1, k2, _⟩ :=
      init_facts (A := A.full cs (fun _ => Label.fresh A.zero) kin0) (L := L) (cfg := cfg)
    have hs : (kInit A P cfg kin0).s = initSearch (A.full cs (fun _ => Label.fresh A.zero) kin0) P cfg
        (freshLabels (A.full cs (fun _ => Label.fresh A.zero) kin0)) := rfl
    rw [hs] at hn
    by_cases hu : n ∈ cfg.start
    · rw [k1 n hu] at hn; cases hn
    · rw [k2 n hu] at hn; cases hn


/-! ### Without heuristic -/

variable {M : MinFirst P}

theorem VKMono.recfg {cfg' : SCfg N C} {pend} {st : KSt N K C P} (h : VKMono A a M cfg kin0 pend st)
    (e1 : cfg'.start = cfg.start) (e2 : cfg'.goal = cfg.goal) : VKMono A a M cfg' kin0 pend st := by
  obtain ⟨h1, h2, h3, h4, h5, h6, h7, h8, h9⟩ := h
  refine ⟨h1, h2, h3, h4, h5, h6, ?_, h8, ?_⟩
  · rw [e1]; exact h7
  · rw [e1, e2]; exact h9

/-- Invariant of a search with a goal test and without heuristic. -/
structure VTMono (A : KAlgo N K C) (a : K → K → CRes Bool) (M : MinFirst P) (cfg : SCfg N C) (T : KGoalTest N K C P) (kin0 : N → K)
    (st : KSt N K C P) : Prop where
  mono : VKMono A a M { cfg with goal := [] } kin0 nopend st.bare
  exact : ∀ x ∈ st.s.cands, PoseAccepted T (st.kin x.1) x.2

theorem VTMono.more {L : Lawful P} (ok : KCostOk A cs) (hup : ∀ k k', a k k' = .ok true → A.usable k k' = .ok true)
    (hlo : ∀ k k', i k k' = .ok true → a k k' = .ok true) (ht : TopOk cfg.top) (hheur : ∀ k g, A.heur k g = A.zero)
    (hhg : T.heurGoal = none) (hadd : ∀ a, A.add a A.zero = a) {st st' : KSt N K C P} (h : VTInv A i cs L cfg T kin0 st)
    (hM : VTMono A a M cfg T kin0 st) (hi : kIterateT (A.withUsable a) cfg T st = .more st') : VTMono A a M cfg T kin0 st' := by
  obtain ⟨cur, o, hn, hT, hsim, hcands, hexp⟩ : ∃ cur o, P.next st.s.opn = some (cur, o) ∧
      (T.terminate (popT A cfg T st cur o) cur).2 = false ∧
      kIterate (A.withUsable a) (tCfg cfg T st.kin) st.bare = .more st'.bare ∧
      st'.s.cands = (kTest A T (popT A cfg T st cur o) cur).s.cands ∧
      kExpand (A.withUsable a) [] cur A.moves (kTest A T (popT A cfg T st cur o) cur) = .ok st' := kIterateT_more hi
  have hs := vkIterate_mono (a := a) (M := M) (cfg := tCfg cfg T st.kin) (kin0 := kin0) ok hup hlo ht hheur
    (by simp [tCfg, hhg]) hadd (st := st.bare) (h.inv.recfg rfl rfl) (hM.mono.recfg rfl rfl)
  rw [hsim] at hs
  have hs : VKMono A a M (tCfg cfg T st.kin) kin0 nopend st'.bare := hs
  obtain ⟨hend, _, _, _, _⟩ := h.tested hn
  obtain ⟨p1, p2, p3, p4, p5, p6⟩ := kTest_parts (A := A) (T := T) (popT A cfg T st cur o) cur
  refine ⟨hs.recfg rfl rfl, fun x hx => ?_⟩
  rw [hcands] at hx
  obtain ⟨f1, f2⟩ := kExpand_frame _ _ _ hexp x.1
  have hcl : (st'.s.lab x.1).closed = true := by rw [f1]; exact hend.closed x hx
  obtain ⟨_, f4⟩ := f2 (hs.sep x.1 hcl)
  rw [f4, p1]
  rw [p6] at hx
  rcases List.mem_append.1 hx with h1 | h1
  · exact hM.exact x h1
  · cases hw : (T.terminate (popT A cfg T st cur o) cur).1 with
    | none => rw [hw] at h1; cases h1
    | some w =>
      rw [hw, List.mem_singleton] at h1
      subst h1
      exact ⟨popT A cfg T st cur o, cur, rfl, hw⟩

/-- The end of such a search. -/
theorem VTMono.done {L : Lawful P} (hheur : ∀ k g, A.heur k g = A.zero)
    (hhg : T.heurGoal = none) {st st' : KSt N K C P} {r : CRes (List N)}
    (h : VTInv A i cs L cfg T kin0 st) (hM : VTMono A a M cfg T kin0 st) (hi : kIterateT (A.withUsable a) cfg T st = .done r st') :
    (∃ p, r = .ok p) → (∀ n, n ∉ cfg.start → (st'.s.lab n).dist ≠ ⊤ → XEdge A st'.s.lab st'.kin n) ∧
      ∀ x ∈ st'.s.cands, PoseAccepted T (st'.kin x.1) x.2 := by
  unfold kIterateT at hi
  cases hn : P.next st.s.opn with
  | none =>
    rw [hn] at hi
    cases hi
    exact fun _ => ⟨hM.mono.edge, hM.exact⟩
  | some co =>
    obtain ⟨cur, o⟩ := co
    rw [hn] at hi
    simp only at hi
    by_cases hab : cfg.abort st.s.expansions = true
    · rw [if_pos hab] at hi
      cases hi
      exact fun _ => ⟨hM.mono.edge, hM.exact⟩
    rw [if_neg hab] at hi
    obtain ⟨p1, p2, p3, p4, p5, p6⟩ := kTest_parts (A := A) (T := T) (popT A cfg T st cur o) cur
    change (if (T.terminate (popT A cfg T st cur o) cur).2 = true then
        KIter.done _ (kTest A T (popT A cfg T st cur o) cur) else
      if (cfg.useCands && !(kTest A T (popT A cfg T st cur o) cur).s.cands.isEmpty && _) = true then
        KIter.done _ (kTest A T (popT A cfg T st cur o) cur) else
        match kExpand (A.withUsable a) [] cur A.moves (kTest A T (popT A cfg T st cur o) cur) with
        | .throw e => .done (.throw e) (kTest A T (popT A cfg T st cur o) cur)
        | .ub => .done .ub (kTest A T (popT A cfg T st cur o) cur)
        | .ok st' => .more st') = _ at hi
    have hst : st' = kTest A T (popT A cfg T st cur o) cur := by
      split at hi
      · injection hi with _ e; exact e.symm
      · split at hi
        · injection hi with _ e; exact e.symm
        · split at hi
          · injection hi with _ e; exact e.symm
          · injection hi with _ e; exact e.symm
          · cases hi
    intro _
    rw [hst]
    have hpm := vkpop_mono (a := a) (M := M) (cfg := tCfg cfg T st.kin) (kin0 := kin0) (cs := cs) (L := L) hheur
      (by simp [tCfg, hhg]) (st := st.bare) (h.inv.recfg rfl rfl) (hM.mono.recfg rfl rfl) hn
    refine ⟨?_, ?_⟩
    · rw [p1, p2]
      rcases hpm with ⟨_, q⟩ | q
      · exact q.edge
      · exact q.edge
    · intro x hx
      rw [p1]
      rw [p6] at hx
      rcases List.mem_append.1 hx with h1 | h1
      · exact hM.exact x h1
      · cases hw : (T.terminate (popT A cfg T st cur o) cur).1 with
        | none => rw [hw] at h1; cases h1
        | some w =>
          rw [hw, List.mem_singleton] at h1
          subst h1
          exact ⟨popT A cfg T st cur o, cur, rfl, hw⟩


/-- A map that accepts less. -/
theorem VTMono.weaken {a' : K → K → CRes Bool} (hle : ∀ k k', a' k k' = .ok true → a k k' = .ok true) {st : KSt N K C P}
    (h : VTMono A a M cfg T kin0 st) : VTMono A a' M cfg T kin0 st := ⟨h.mono.weaken hle, h.exact⟩

theorem vtInit_mono (L : Lawful P) (hadd : ∀ x, A.add x A.zero = x) : VTMono A a M cfg T kin0 (kInit A P cfg kin0) := by
  have h1 := vkInit_mono (A := A) (a := a) (M := M) (cfg := { cfg with goal := [] }) (kin0 := kin0) L hadd
  have h2 : (kInit A P cfg kin0).s.cands = [] :=
    (vkInit_inv (A := A) (i := fun _ _ => .ok false) (cs := []) (L := L) (cfg := cfg) (kin0 := kin0)).2
  refine ⟨?_, ?_⟩
  · exact VKMono.same (st := kInit A P cfg kin0) h1 (s' := (kInit A P cfg kin0).bare.s)
      (fun m => ⟨rfl, rfl, rfl, rfl⟩) h1.hz rfl h2.symm (fun u mv _ _ hp => .inl hp)
  · intro x hx; rw [h2] at hx; cases hx

end PathPlanning.KDur
