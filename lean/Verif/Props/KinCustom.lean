import Verif.Lemmas.KinCustom
import Verif.Props.KinSearch

/-!
# C94: searches with a goal test over nodes with stored poses
-/

namespace PathPlanning
open Spec
set_option linter.unusedSectionVars false

variable {N K C : Type} [DecidableEq N] [LinearOrder C] [Fintype N]
variable {P : OpenList N C} {A : KAlgo N K C} {cs : List C} {cfg : SCfg N C} {kin0 : N → K} {T : KGoalTest N K C P}

/-- A finished run, taken apart. -/
theorem kFindTest_done (ok : KCostOk A cs) (L : Lawful P) (ht : TopOk cfg.top) {fuel : Nat} {r : CRes (List K)}
    {st' : KSt N K C P} (h : kFindTest A P cfg T kin0 fuel = some (r, st')) :
    ∃ r0, TDone A cs L cfg T kin0 r0 st' ∧ kLoopT A cfg T fuel (kInit A P cfg kin0) = some (r0, st') ∧
      (∀ q, r = .ok q → ∃ p, r0 = .ok p ∧ q = p.map st'.kin) := by
  obtain ⟨f, r1, st1, h3, h4⟩ := kLoopT_spec (L := L) (T := T) ok ht _ (tInit_inv (A := A) (cs := cs) (cfg := cfg) (kin0 := kin0))
  unfold kFindTest at h
  cases hk : kLoopT A cfg T fuel (kInit A P cfg kin0) with
  | none => rw [hk] at h; simp at h
  | some x =>
    have hx := kLoopT_fuel _ _ _ _ _ hk h3
    subst hx
    rw [hk] at h
    simp only [Option.map_some, Option.some.injEq, Prod.mk.injEq] at h
    obtain ⟨ha, rfl⟩ := h
    refine ⟨r1, h4, rfl, fun q hq => ?_⟩
    subst hq
    cases r1 with
    | ok p => simp only [CRes.ok.injEq] at ha; exact ⟨p, rfl, ha.symm⟩
    | throw e => simp at ha
    | ub => simp at ha

/-- The search always ends, whatever the goal test does; it throws or misbehaves only if the map does. -/
theorem kin_custom_ends (ok : KCostOk A cs) (L : Lawful P) (ht : TopOk cfg.top) (T : KGoalTest N K C P) :
    ∃ fuel r st', kFindTest A P cfg T kin0 fuel = some (r, st') ∧ (∀ e, r = .throw e → MapThrows A cfg.start kin0 e) ∧
      (r = .ub → MapUb A cfg.start kin0) := by
  obtain ⟨fuel, r, st', h3, h4⟩ := kLoopT_spec (L := L) (T := T) ok ht _ (tInit_inv (A := A) (cs := cs) (cfg := cfg) (kin0 := kin0))
  cases r with
  | ok p => exact ⟨fuel, .ok (p.map st'.kin), st', by simp [kFindTest, h3], by simp, by simp⟩
  | throw e =>
    exact ⟨fuel, .throw e, st', by simp [kFindTest, h3], fun e' he => by cases he; exact h4.throw e rfl, by simp⟩
  | ub => exact ⟨fuel, .ub, st', by simp [kFindTest, h3], by simp, fun _ => h4.ub rfl⟩

/-- Every fuel that gives a result gives the same one. -/
theorem kin_custom_unique {f g : Nat} {x y} (h1 : kFindTest A P cfg T kin0 f = some x)
    (h2 : kFindTest A P cfg T kin0 g = some y) : x = y := by
  unfold kFindTest at h1 h2
  cases hf : kLoopT A cfg T f (kInit A P cfg kin0) with
  | none => rw [hf] at h1; simp at h1
  | some a =>
    cases hg : kLoopT A cfg T g (kInit A P cfg kin0) with
    | none => rw [hg] at h2; simp at h2
    | some b =>
      have := kLoopT_fuel _ _ _ _ _ hf hg
      subst this
      rw [hf] at h1
      rw [hg] at h2
      simp only [Option.map_some, Option.some.injEq] at h1 h2
      exact h1.symm.trans h2

/-- **A returned path** begins at a start pose, takes only legal steps, each from a reachable pose in the cell of the
previous one, every pose of it can be reached, it has at most as many poses as there are cells, and it ends in a node the
goal test has handed to the search - none of those had a smaller weight - for the pose shown or another one of the same
cell. -/
theorem kin_custom_path (ok : KCostOk A cs) (L : Lawful P) (ht : TopOk cfg.top) {fuel : Nat} {q : List K}
    {st' : KSt N K C P} (h : kFindTest A P cfg T kin0 fuel = some (.ok q, st')) (hne : q ≠ []) :
    (∃ d, CellTrace A cfg.start kin0 q d) ∧ (∃ s ∈ cfg.start, q.head? = some (kin0 s)) ∧
      (∀ k ∈ q, Reachable A cfg.start kin0 k) ∧ q.length ≤ Fintype.card N ∧
      ∃ n w kl k, q.getLast? = some kl ∧ (n, w) ∈ st'.s.cands ∧ (∀ y ∈ st'.s.cands, w ≤ y.2) ∧
        Reachable A cfg.start kin0 k ∧ PoseAccepted T k w ∧ (k = kl ∨ SameCell A k kl) := by
  obtain ⟨r0, hd, _, hq⟩ := kFindTest_done ok L ht h
  obtain ⟨p, rfl, rfl⟩ := hq q rfl
  obtain ⟨he, hfin, _⟩ := hd.ok p rfl
  have hC := he.core st'.s.lab st'.kin
  rcases finish_spec (A := A.full cs st'.s.lab st'.kin) (st := st'.s) ht hC he.closed with
    ⟨_, h2⟩ | ⟨x, l, d, h1, h2, hb, h4⟩
  · rw [h2] at hfin; cases hfin; exact absurd rfl hne
  · rw [h4] at hfin
    cases hfin
    have hnd : (st'.s.lab x.1).dist ≠ ⊤ := (hC.reach _).2 (.inr (he.closed x h1))
    obtain ⟨d', t1, _, s, hs, t2⟩ := hb.cellTrace ok he.core he.startKin he.edge hnd
    obtain ⟨l', hl, _⟩ := hb.last
    obtain ⟨k, g1, g2, g3⟩ := he.good x h1
    refine ⟨⟨d', t1⟩, ⟨s, hs, t2⟩, ?_, ?_, x.1, x.2, st'.kin x.1, k, ?_, h1, h2, g1, g2, ?_⟩
    · intro k hk
      obtain ⟨v, hv, rfl⟩ := List.mem_map.1 hk
      have hvd := hb.reached ok he.core he.edge hnd v hv
      by_cases hvs : v ∈ cfg.start
      · rw [he.startKin v hvs]; exact .start hvs
      · exact (he.edge v hvs hvd).reachable.2
    · rw [List.length_map, ← List.toFinset_card_of_nodup hb.nodup]
      exact Finset.card_le_univ _
    · rw [hl]; simp
    · rcases g3 with g3 | ⟨g3, g4⟩
      · exact .inl g3
      · exact .inr ⟨x.1, g4, (he.edge x.1 g3 hnd).reachable.1⟩

/-- **Giving up**: without a time limit, and if the goal test stops the search only at nodes it hands to the search, an
empty result means that the poses the search has stored cannot be left by a legal move, and that none of them is one the
goal test always accepts. -/
theorem kin_custom_complete (ok : KCostOk A cs) (L : Lawful P) (ht : TopOk cfg.top) (hab : ∀ i, cfg.abort i = false)
    (hT : StopsAtAccepted T) {fuel : Nat} {st' : KSt N K C P} (h : kFindTest A P cfg T kin0 fuel = some (.ok [], st')) :
    ∃ κ, Saturated A cfg.start kin0 κ ∧ ∀ n k, κ n = some k → ¬ PoseAlwaysAccepted T k := by
  obtain ⟨r0, hd, _, hq⟩ := kFindTest_done ok L ht h
  obtain ⟨p, rfl, hp⟩ := hq [] rfl
  have hp : p = [] := by
    cases p with
    | nil => rfl
    | cons a l => simp at hp
  subst hp
  obtain ⟨he, hfin, hwhy⟩ := hd.ok [] rfl
  have hC := he.core st'.s.lab st'.kin
  have hcands : st'.s.cands = [] := by
    rcases finish_spec (A := A.full cs st'.s.lab st'.kin) (st := st'.s) ht hC he.closed with
      ⟨h1, _⟩ | ⟨x, l, d, _, _, hb, h4⟩
    · exact h1
    · rw [h4] at hfin
      cases hfin
      exact absurd rfl hb.ne_nil
  rcases hwhy with ⟨hI, hnone⟩ | hwhy | hwhy | ⟨st1, n, h1, h2⟩
  · have hnomem := (L.next_none _).1 hnone
    have hnopen : ∀ n, (st'.s.lab n).opn = false := by
      intro n
      rw [← Bool.not_eq_true]
      intro ho
      exact hnomem n (hI.inv.openMem n ho)
    have hclosed : ∀ n, (st'.s.lab n).dist ≠ ⊤ → (st'.s.lab n).closed = true := by
      intro n hn
      rcases (hC.reach n).1 hn with h1 | h1
      · rw [hnopen n] at h1; cases h1
      · exact h1
    classical
    refine ⟨fun n => if (st'.s.lab n).dist = ⊤ then none else some (st'.kin n), ⟨?_, ?_, ?_, ?_⟩, ?_⟩
    · intro s hs
      simp [hC.s0 s hs, he.startKin s hs]
    · intro n k hk
      try simp only at hk
      split_ifs at hk with hdn
      cases hk
      by_cases hns : n ∈ cfg.start
      · exact .inl hns
      · exact .inr (he.edge n hns hdn).reachable.1
    · intro n k hk mv hmv
      try simp only at hk
      split_ifs at hk with hdn
      cases hk
      rcases hI.inv.relaxed n (hclosed n hdn) (hnopen n) mv hmv with h1 | ⟨ps, h1⟩
      · exact h1.elim
      · refine ⟨ps, fun c k' v e1 e2 e3 => ?_⟩
        have := h1 c k' v e1 e2 e3
        have hv : (st'.s.lab v).dist ≠ ⊤ :=
          ne_top_of_le_ne_top (by rw [Ne, A.addW_eq_top]; exact hdn) this
        simp [hv]
    · intro n k hk
      try simp only at hk
      split_ifs at hk with hdn
      cases hk
      exact hI.inv.reachable hdn
    · intro n k hk ha
      try simp only at hk
      split_ifs at hk with hdn
      cases hk
      exact hI.seen n (hclosed n hdn) (hnopen n) ha hcands
  · rw [hab] at hwhy; cases hwhy
  · exact absurd hcands hwhy
  · exact absurd h2 (hT st1 n h1)

/-! ### Without heuristic -/

variable {M : MinFirst P}

theorem KMono.recfg {cfg' : SCfg N C} {pend} {st : KSt N K C P} (h : KMono A M cfg kin0 pend st)
    (e1 : cfg'.start = cfg.start) (e2 : cfg'.goal = cfg.goal) : KMono A M cfg' kin0 pend st := by
  obtain ⟨h1, h2, h3, h4, h5, h6, h7, h8, h9⟩ := h
  refine ⟨h1, h2, h3, h4, h5, h6, ?_, h8, ?_⟩
  · rw [e1]; exact h7
  · rw [e1, e2]; exact h9

/-- Invariant of a search with a goal test and without heuristic. -/
structure TMono (A : KAlgo N K C) (M : MinFirst P) (cfg : SCfg N C) (T : KGoalTest N K C P) (kin0 : N → K)
    (st : KSt N K C P) : Prop where
  mono : KMono A M { cfg with goal := [] } kin0 nopend st.bare
  exact : ∀ x ∈ st.s.cands, PoseAccepted T (st.kin x.1) x.2

theorem TMono.more {L : Lawful P} (ok : KCostOk A cs) (ht : TopOk cfg.top) (hheur : ∀ k g, A.heur k g = A.zero)
    (hhg : T.heurGoal = none) (hadd : ∀ a, A.add a A.zero = a) {st st' : KSt N K C P} (h : TInv A cs L cfg T kin0 st)
    (hM : TMono A M cfg T kin0 st) (hi : kIterateT A cfg T st = .more st') : TMono A M cfg T kin0 st' := by
  obtain ⟨cur, o, hn, hT, hsim, hcands, hexp⟩ := kIterateT_more hi
  have hs := kIterate_mono (M := M) (cfg := tCfg cfg T st.kin) (kin0 := kin0) ok ht hheur
    (by simp [tCfg, hhg]) hadd (st := st.bare) (h.inv.recfg rfl rfl) (hM.mono.recfg rfl rfl)
  rw [hsim] at hs
  have hs : KMono A M (tCfg cfg T st.kin) kin0 nopend st'.bare := hs
  obtain ⟨hend, _, _, _, _⟩ := h.tested hn
  obtain ⟨p1, p2, p3, p4, p5, p6⟩ := kTest_parts (A := A) (T := T) (popT A cfg T st cur o) cur
  refine ⟨hs.recfg rfl rfl, fun x hx => ?_⟩
  rw [hcands] at hx
  obtain ⟨f1, f2⟩ := kExpand_frame _ _ _ hexp x.1
  have hcl : (st'.s.lab x.1).closed = true := by rw [f1]; exact hend.closed x hx
  obtain ⟨_, f4⟩ := f2 (hs.sep x.1 hcl)
  rw [f4, p1]
  rw [p6] at hx
  rcases List.mem_append.1 hx with h1 | h1
  · exact hM.exact x h1
  · cases hw : (T.terminate (popT A cfg T st cur o) cur).1 with
    | none => rw [hw] at h1; cases h1
    | some w =>
      rw [hw, List.mem_singleton] at h1
      subst h1
      exact ⟨popT A cfg T st cur o, cur, rfl, hw⟩

/-- The end of such a search. -/
theorem TMono.done {L : Lawful P} (hheur : ∀ k g, A.heur k g = A.zero)
    (hhg : T.heurGoal = none) {st st' : KSt N K C P} {r : CRes (List N)}
    (h : TInv A cs L cfg T kin0 st) (hM : TMono A M cfg T kin0 st) (hi : kIterateT A cfg T st = .done r st') :
    (∃ p, r = .ok p) → (∀ n, n ∉ cfg.start → (st'.s.lab n).dist ≠ ⊤ → XEdge A st'.s.lab st'.kin n) ∧
      ∀ x ∈ st'.s.cands, PoseAccepted T (st'.kin x.1) x.2 := by
  unfold kIterateT at hi
  cases hn : P.next st.s.opn with
  | none =>
    rw [hn] at hi
    cases hi
    exact fun _ => ⟨hM.mono.edge, hM.exact⟩
  | some co =>
    obtain ⟨cur, o⟩ := co
    rw [hn] at hi
    simp only at hi
    by_cases hab : cfg.abort st.s.expansions = true
    · rw [if_pos hab] at hi
      cases hi
      exact fun _ => ⟨hM.mono.edge, hM.exact⟩
    rw [if_neg hab] at hi
    obtain ⟨p1, p2, p3, p4, p5, p6⟩ := kTest_parts (A := A) (T := T) (popT A cfg T st cur o) cur
    change (if (T.terminate (popT A cfg T st cur o) cur).2 = true then
        KIter.done _ (kTest A T (popT A cfg T st cur o) cur) else
      if (cfg.useCands && !(kTest A T (popT A cfg T st cur o) cur).s.cands.isEmpty && _) = true then
        KIter.done _ (kTest A T (popT A cfg T st cur o) cur) else
        match kExpand A [] cur A.moves (kTest A T (popT A cfg T st cur o) cur) with
        | .throw e => .done (.throw e) (kTest A T (popT A cfg T st cur o) cur)
        | .ub => .done .ub (kTest A T (popT A cfg T st cur o) cur)
        | .ok st' => .more st') = _ at hi
    have hst : st' = kTest A T (popT A cfg T st cur o) cur := by
      split at hi
      · injection hi with _ e; exact e.symm
      · split at hi
        · injection hi with _ e; exact e.symm
        · split at hi
          · injection hi with _ e; exact e.symm
          · injection hi with _ e; exact e.symm
          · cases hi
    intro _
    rw [hst]
    have hpm := kpop_mono (M := M) (cfg := tCfg cfg T st.kin) (kin0 := kin0) (cs := cs) (L := L) hheur
      (by simp [tCfg, hhg]) (st := st.bare) (h.inv.recfg rfl rfl) (hM.mono.recfg rfl rfl) hn
    refine ⟨?_, ?_⟩
    · rw [p1, p2]
      rcases hpm with ⟨_, q⟩ | q
      · exact q.edge
      · exact q.edge
    · intro x hx
      rw [p1]
      rw [p6] at hx
      rcases List.mem_append.1 hx with h1 | h1
      · exact hM.exact x h1
      · cases hw : (T.terminate (popT A cfg T st cur o) cur).1 with
        | none => rw [hw] at h1; cases h1
        | some w =>
          rw [hw, List.mem_singleton] at h1
          subst h1
          exact ⟨popT A cfg T st cur o, cur, rfl, hw⟩

theorem kLoopT_mono {L : Lawful P} (ok : KCostOk A cs) (ht : TopOk cfg.top) (hheur : ∀ k g, A.heur k g = A.zero)
    (hhg : T.heurGoal = none) (hadd : ∀ a, A.add a A.zero = a) :
    ∀ (fuel : Nat) (st : KSt N K C P), TInv A cs L cfg T kin0 st → TMono A M cfg T kin0 st →
      ∀ p st', kLoopT A cfg T fuel st = some (.ok p, st') →
        (∀ n, n ∉ cfg.start → (st'.s.lab n).dist ≠ ⊤ → XEdge A st'.s.lab st'.kin n) ∧
          ∀ x ∈ st'.s.cands, PoseAccepted T (st'.kin x.1) x.2 := by
  intro fuel
  induction fuel with
  | zero => intro st _ _ p st' h; simp [kLoopT] at h
  | succ fuel ih =>
    intro st hI hM p st' h
    rw [kLoopT] at h
    cases hi : kIterateT A cfg T st with
    | done r1 st1 =>
      rw [hi] at h
      simp only [Option.some.injEq, Prod.mk.injEq] at h
      obtain ⟨rfl, rfl⟩ := h
      exact hM.done hheur hhg hI hi ⟨p, rfl⟩
    | more st1 =>
      rw [hi] at h
      exact ih st1 (hI.more ok ht hi).1 (hM.more ok ht hheur hhg hadd hI hi) p st' h

/-- **Without heuristic** (and with a priority queue as open list) a returned path is a drive from a start pose, and its last
pose itself was accepted by the goal test. -/
theorem kin_custom_exact (ok : KCostOk A cs) (L : Lawful P) (M : MinFirst P) (ht : TopOk cfg.top)
    (hheur : ∀ k g, A.heur k g = A.zero) (hhg : T.heurGoal = none) (hadd : ∀ a, A.add a A.zero = a) {fuel : Nat}
    {q : List K} {st' : KSt N K C P} (h : kFindTest A P cfg T kin0 fuel = some (.ok q, st')) (hne : q ≠ []) :
    (∃ d, Drive A q d) ∧ (∃ s ∈ cfg.start, q.head? = some (kin0 s)) ∧
      ∃ kl w, q.getLast? = some kl ∧ PoseAccepted T kl w ∧ ∀ y ∈ st'.s.cands, w ≤ y.2 := by
  obtain ⟨r0, hd, hrun, hq⟩ := kFindTest_done ok L ht h
  obtain ⟨p, rfl, rfl⟩ := hq q rfl
  obtain ⟨he, hfin, _⟩ := hd.ok p rfl
  have hC := he.core st'.s.lab st'.kin
  have hM0 : TMono A M cfg T kin0 (kInit A P cfg kin0) := by
    have h1 := kInit_mono (A := A) (M := M) (cfg := { cfg with goal := [] }) (kin0 := kin0) L hadd
    have h2 : (kInit A P cfg kin0).s.cands = [] := (kInit_inv (A := A) (cs := cs) (L := L) (cfg := cfg) (kin0 := kin0)).2
    refine ⟨?_, ?_⟩
    · exact KMono.same (st := kInit A P cfg kin0) h1 (s' := (kInit A P cfg kin0).bare.s)
        (fun m => ⟨rfl, rfl, rfl, rfl⟩) h1.hz rfl h2.symm (fun u mv _ _ hp => .inl hp)
    · intro x hx; rw [h2] at hx; cases hx
  obtain ⟨hedge, hex⟩ := kLoopT_mono ok ht hheur hhg hadd fuel _ (tInit_inv (L := L)) hM0 p st' hrun
  rcases finish_spec (A := A.full cs st'.s.lab st'.kin) (st := st'.s) ht hC he.closed with
    ⟨_, h2⟩ | ⟨x, l, d, h1, h2, hb, h4⟩
  · rw [h2] at hfin; cases hfin; exact absurd rfl hne
  · rw [h4] at hfin
    cases hfin
    have hnd : (st'.s.lab x.1).dist ≠ ⊤ := (hC.reach _).2 (.inr (he.closed x h1))
    obtain ⟨l', d', e1, e2, _, s, hs, e4⟩ := hb.drive hC.sp hedge hnd
    rw [e1] at e4 ⊢
    exact ⟨⟨d', e2⟩, ⟨s, hs, by rw [e4, he.startKin s hs]⟩, st'.kin x.1, x.2, by simp, hex x h1, h2⟩

end PathPlanning
