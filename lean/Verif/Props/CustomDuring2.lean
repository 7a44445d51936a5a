import Verif.Props.CustomDuring
import Verif.Props.SearchCustom2

/-!
# Searches with a goal test on a map that changes meanwhile (C123): a region is entered on a path that is at least as short as every
path that was free all the time

On a changing map a node may be taken from the queue a second time, then with a newly freed neighbour, so nodes do not leave the queue in
the order of their distances.  What remains is a bound for the distance a node had when it was taken for the first time (`G`).
-/

namespace PathPlanning.CDur
open PathPlanning During Spec
set_option linter.unusedSectionVars false

variable {N C : Type} [DecidableEq N] [LinearOrder C] [Fintype N]
variable {A : Algo N C} {P : OpenList N C} {I : N → List (N × C)} {maps : Nat → N → List (N × C)}

/-- The keys of the nodes that have not been taken from the queue are their distances. -/
structure Keys (A : Algo N C) (M : MinFirst P) (st : SSt N C P) : Prop where
  hz : ∀ n, (st.lab n).closed = false → (st.lab n).h = A.zero
  low : ∀ n k, (st.lab n).closed = false → M.ent st.opn n k → (st.lab n).dist ≤ k
  upp : ∀ n, (st.lab n).closed = false → (st.lab n).opn = true → M.ent st.opn n (st.lab n).dist

theorem Keys.process (hz : ∀ a, A.add a A.zero = a) {M : MinFirst P} {start : List N} {st : SSt N C P}
    (h : Keys A M st) (hc : Core A start st.lab) {cur nb : N} {c : C} (hu : (st.lab cur).dist ≠ ⊤) :
    Keys A M (processNeighbor A [] st cur nb c) ∧ ∀ n, ((processNeighbor A [] st cur nb c).lab n).dist ≤ (st.lab n).dist := by
  obtain ⟨_, _, _, hcase⟩ := process_cases (goal := []) hc (nb := nb) (c := c) hu
  have hh := fun m => process_h_nil (A := A) st cur nb m c
  rcases hcase with ⟨_, hop, hsame⟩ | ⟨hcl, hop, ⟨hv1, _, hv3⟩, hvc, _, hother⟩
  · generalize processNeighbor A [] st cur nb c = st' at *
    refine ⟨⟨fun n hn => ?_, fun n k hn hk => ?_, fun n hn ho => ?_⟩, fun n => (hsame n).1.1.le⟩
    · rw [(hsame n).1.2.2.2] at hn
      rw [(hsame n).2]; exact h.hz n hn
    · rw [(hsame n).1.2.2.2] at hn
      rw [hop] at hk
      rw [(hsame n).1.1]; exact h.low n k hn hk
    · rw [(hsame n).1.2.2.2] at hn
      rw [(hsame n).1.2.2.1] at ho
      rw [(hsame n).1.1, hop]; exact h.upp n hn ho
  · generalize processNeighbor A [] st cur nb c = st' at *
    have hclosed : ∀ n, (st'.lab n).closed = (st.lab n).closed := by
      intro n
      by_cases e : n = nb
      · rw [e, hvc]
      · rw [hother n e]
    have hdle : ∀ n, (st'.lab n).dist ≤ (st.lab n).dist := by
      intro n
      by_cases e : n = nb
      · rw [e, hv1]; exact hcl.le
      · rw [hother n e]
    have htot : (st.lab nb).closed = false → A.total (st'.lab nb) = (st'.lab nb).dist := fun hn => by
      rw [Algo.total, hh nb, h.hz nb hn, addW_zero' hz]
    refine ⟨⟨fun n hn => ?_, fun n k hn hk => ?_, fun n hn ho => ?_⟩, hdle⟩
    · rw [hclosed] at hn
      rw [hh]; exact h.hz n hn
    · rw [hclosed] at hn
      rw [hop] at hk
      rcases (M.add_ent _ _ _ _ _).1 hk with ⟨rfl, rfl⟩ | hk
      · rw [htot hn]
      · exact (hdle n).trans (h.low n k hn hk)
    · rw [hclosed] at hn
      rw [hop]
      by_cases e : n = nb
      · subst e; exact (M.add_ent _ _ _ _ _).2 (.inl ⟨rfl, (htot hn).symm⟩)
      · rw [hother n e] at ho ⊢
        exact (M.add_ent _ _ _ _ _).2 (.inr (h.upp n hn ho))

theorem Keys.fold (ok : CostOk A) (hz : ∀ a, A.add a A.zero = a) {L : Lawful P} {M : MinFirst P}
    {start : List N} {cur : N} :
    ∀ (es done : List (N × C)) (st : SSt N C P), VXInv A I L start cur done st →
      (∀ e ∈ es, e ∈ A.succ cur) → Keys A M st →
      Keys A M (es.foldl (fun s e => processNeighbor A [] s cur e.1 e.2) st) ∧
      ∀ n, ((es.foldl (fun s e => processNeighbor A [] s cur e.1 e.2) st).lab n).dist ≤ (st.lab n).dist := by
  intro es
  induction es with
  | nil => intro done st _ _ h; exact ⟨h, fun n => le_refl _⟩
  | cons e es ih =>
    intro done st hX hes h
    have hu : (st.lab cur).dist ≠ ⊤ := (hX.core.reach cur).2 (.inr hX.curOk.1)
    have h1 := hX.process (goal := []) ok (nb := e.1) (c := e.2) (hes e (by simp))
    obtain ⟨h2, h3⟩ := h.process hz hX.core hu (nb := e.1) (c := e.2)
    obtain ⟨h4, h5⟩ := ih _ _ h1.1 (fun x hx => hes x (List.mem_cons_of_mem _ hx)) h2
    exact ⟨h4, fun n => (h5 n).trans (h3 n)⟩

/-- Invariant of a search for a region. -/
structure Region (A : Algo N C) (I : N → List (N × C)) (M : MinFirst P) (start : List N) (R : N → Prop) (G : N → WithTop C)
    (st : SSt N C P) : Prop where
  keys : Keys A M st
  out : ∀ n, (st.lab n).closed = true → ¬ R n
  rel : ∀ u, (st.lab u).closed = true → ∀ v c, (v, c) ∈ I u → (st.lab v).dist ≤ A.addW (G u) c
  bound : ∀ n d, (st.lab n).closed = true → Reach (A.withSucc I) start n d → G n ≤ (d : WithTop C)

/-- A walk that was free all the time meets an open node that has not been taken yet. -/
theorem Region.frontier (okI : CostOk (A.withSucc I)) {M : MinFirst P} {start : List N} {R : N → Prop} {G : N → WithTop C}
    {st : SSt N C P} (h : Region A I M start R G st) (hc : Core A start st.lab) {n : N} {d : C}
    (hr : Reach (A.withSucc I) start n d) :
    (st.lab n).closed = true ∨ ∃ m, (st.lab m).closed = false ∧ (st.lab m).opn = true ∧ (st.lab m).dist ≤ (d : WithTop C) := by
  induction hr with
  | @start s hs =>
    have hd := hc.s0 _ hs
    rcases (hc.reach s).1 (by rw [hd]; simp) with h1 | h1
    · by_cases h2 : (st.lab s).closed = true
      · exact .inl h2
      · exact .inr ⟨s, by simpa using h2, h1, hd.le⟩
    · exact .inl h1
  | @step u v d c hr' he ih =>
    by_cases h2 : (st.lab v).closed = true
    · exact .inl h2
    right
    rcases ih with h1 | ⟨m, h1, h3, h4⟩
    · have hle : (st.lab v).dist ≤ ((A.add d c : C) : WithTop C) := by
        refine (h.rel u h1 v c he).trans ?_
        rw [← addW_coe]
        exact addW_mono (A := A.withSucc I) okI (h.bound u d h1 hr') c
      refine ⟨v, by simpa using h2, ?_, hle⟩
      rcases (hc.reach v).1 (ne_top_of_le_ne_top (by simp) hle) with h3 | h3
      · exact h3
      · exact absurd h3 h2
    · exact ⟨m, h1, h3, h4.trans (WithTop.coe_le_coe.2 (okI.infl u v c he d))⟩

/-- A node taken for the first time is the nearest of the open nodes that have not been taken. -/
theorem Keys.first {M : MinFirst P} {st : SSt N C P} (h : Keys A M st) {cur : N} {o : P.O} (hn : P.next st.opn = some (cur, o))
    (hcl : (st.lab cur).closed = false) {m : N} (hm : (st.lab m).closed = false) (ho : (st.lab m).opn = true) :
    (st.lab cur).dist ≤ (st.lab m).dist := by
  obtain ⟨k, hk, hmin, _, _⟩ := M.next_some _ _ _ hn
  exact (h.low cur k hcl hk).trans (hmin m _ (h.upp m hm ho))

theorem Region.more (ok : CostOk A) (okI : CostOk (A.withSucc I)) (hz : ∀ a, A.add a A.zero = a) {L : Lawful P} {M : MinFirst P}
    {cfg : SCfg N C} (hg : cfg.goal = []) {T : GoalTest N C P} {R : N → Prop} (hT : TestsRegion T R) {G : N → WithTop C}
    {s : N → List (N × C)} (hU : ∀ u, ∀ e ∈ s u, e ∈ A.succ u) (hI : ∀ u, ∀ e ∈ I u, e ∈ s u) {st st' : SSt N C P}
    (hC : CLoop A I L cfg T st) (h : Region A I M cfg.start R G st)
    (hi : iterate (A.withSucc s) cfg (customTest A T) st = .more st') : ∃ G', Region A I M cfg.start R G' st' := by
  obtain ⟨cur, o, t, hn, _, ht1, hterm, _, rfl⟩ := iterate_more hi
  obtain ⟨t', g1, g2, g3, g4, g5, g6, g7, g8, g9, g10, g11, g12⟩ := hC.tested hn
  change customTest A T (popNode A cfg st cur o) cur = .ok t at ht1
  rw [ht1] at g1; cases g1
  have hnx := hn
  obtain ⟨k, hk, hmin, hsub, hsup⟩ := M.next_some _ _ _ hn
  have hoth : ∀ n, n ≠ cur → t.st.lab n = st.lab n := fun n hne => by rw [g5]; exact setLab_ne _ _ hne
  have hclt : (t.st.lab cur).closed = true := g7.curOk.1
  have hK : Keys A M t.st := by
    refine ⟨fun n hc => ?_, fun n k' hc hk' => ?_, fun n hc ho => ?_⟩
    · by_cases e : n = cur
      · rw [e, hclt] at hc; cases hc
      · rw [hoth n e] at hc ⊢; exact h.keys.hz n hc
    · by_cases e : n = cur
      · rw [e, hclt] at hc; cases hc
      · rw [hoth n e] at hc ⊢
        rw [g6] at hk'
        exact h.keys.low n k' hc (hsub n k' hk')
    · by_cases e : n = cur
      · rw [e, hclt] at hc; cases hc
      · rw [hoth n e] at hc ho ⊢
        rw [g6]
        rcases hsup n _ (h.keys.upp n hc ho) with ⟨e', _⟩ | h3
        · exact absurd e' e
        · exact h3
  obtain ⟨hX, hdone⟩ := VXInv.fold (A := A) (goal := []) ok (s cur) [] t.st g7 (hU cur)
  obtain ⟨hKf, hdle⟩ := hK.fold (A := A) (I := I) ok hz (s cur) [] t.st g7 (hU cur)
  have hexp : expandNode (A.withSucc s) cfg.goal t.st cur = (s cur).foldl (fun s e => processNeighbor A [] s cur e.1 e.2) t.st := by
    rw [hg]; rfl
  rw [hexp]
  generalize (s cur).foldl (fun s e => processNeighbor A [] s cur e.1 e.2) t.st = st2 at *
  have hcl2 : ∀ n, (st2.lab n).closed = (t.st.lab n).closed := hdone.1
  have hnR : ¬ R cur := by
    intro hr
    obtain ⟨w, hw⟩ := (hT (popNode A cfg st cur o) cur).1 hr
    rw [hw] at g3
    rw [g3] at hterm; cases hterm
  by_cases hc0 : (st.lab cur).closed = true
  · -- taken again
    have hcl3 : ∀ n, (st2.lab n).closed = (st.lab n).closed := by
      intro n
      rw [hcl2 n]
      by_cases e : n = cur
      · rw [e, hclt, hc0]
      · rw [hoth n e]
    refine ⟨G, hKf, fun n hn => h.out n (by rw [← hcl3]; exact hn), fun u hu v c hv => ?_, fun n d hn hr => h.bound n d (by rw [← hcl3]; exact hn) hr⟩
    refine (hdle v).trans ?_
    rw [g10]
    exact h.rel u (by rw [← hcl3]; exact hu) v c hv
  · have hc0' : (st.lab cur).closed = false := by simpa using hc0
    refine ⟨Function.update G cur (st.lab cur).dist, hKf, fun n hn => ?_, fun u hu v c hv => ?_, fun n d hn hr => ?_⟩
    · rw [hcl2] at hn
      by_cases e : n = cur
      · rw [e]; exact hnR
      · rw [hoth n e] at hn; exact h.out n hn
    · rw [hcl2] at hu
      by_cases e : u = cur
      · subst e
        rw [Function.update_self]
        refine (hX.done v c (by simpa using hI u _ hv)).trans ?_
        refine addW_mono ok ?_ c
        rw [← g10 u]
        exact hdle u
      · rw [Function.update_of_ne e]
        rw [hoth u e] at hu
        refine (hdle v).trans ?_
        rw [g10]
        exact h.rel u hu v c hv
    · rw [hcl2] at hn
      by_cases e : n = cur
      · subst e
        rw [Function.update_self]
        rcases h.frontier okI hC.inv.core hr with h1 | ⟨m, h1, h2, h3⟩
        · exact absurd h1 hc0
        · exact (h.keys.first hnx hc0' h1 h2).trans h3
      · rw [Function.update_of_ne e]
        rw [hoth n e] at hn
        exact h.bound n d hn hr

/-- **C123 (shortest).**  A search for a region with a priority queue returns a path that is at least as short as every path into the
region that was free all the time, for every heuristic goal, however the callback changes the map. -/
theorem region_shortest (ok : ∀ k, CostOk (A.withSucc (maps k))) (hz : ∀ a, A.add a A.zero = a) (L : Lawful P) (M : MinFirst P)
    (cfg : SCfg N C) (ht : TopOk cfg.top) (T : GoalTest N C P) {R : N → Prop} (hT : TestsRegion T R) {fuel : Nat}
    {p : List N} {st' : SSt N C P} (hrun : findPathCustomDuring A maps P cfg T (freshLabels A) fuel = some (.ok p, st'))
    (hp : p ≠ []) (I : N → List (N × C)) (okI : CostOk (A.withSucc I))
    (hI : ∀ k < st'.expansions, ∀ u, ∀ e ∈ I u, e ∈ maps k u) :
    ∃ t d, WalkTo (A.withSucc (seen maps st'.expansions)) cfg.start t p d ∧ R t ∧
      ∀ n e, Reach (A.withSucc I) cfg.start n e → R n → d ≤ e := by
  have hinit : (initSearch A P (customCfg cfg T) (freshLabels A)).cands = [] ∧
      ∃ G, Region (A.withSucc (seen maps st'.expansions)) I M cfg.start R G (initSearch A P (customCfg cfg T) (freshLabels A)) := by
    obtain ⟨k1, k2, _, _, k5⟩ := init_facts (A := A) (L := L) (cfg := customCfg cfg T)
    have hD := DijInv.init (A := A) hz (M := M) (cfg := customCfg cfg T) L
    have hncl : ∀ n, ((initSearch A P (customCfg cfg T) (freshLabels A)).lab n).closed = true → False := by
      intro n hn
      by_cases h : n ∈ cfg.start
      · simp [k1 n h] at hn
      · simp [k2 n h] at hn
    exact ⟨k5, fun _ => ⊤, ⟨hD.hz, fun n k _ hk => hD.low n k hk, fun n _ ho => hD.upp n ho⟩, fun n hn => (hncl n hn).elim,
      fun n hn => (hncl n hn).elim, fun n _ hn => (hncl n hn).elim⟩
  obtain ⟨st1, hC, ⟨hc, G, hR⟩, hi⟩ := run_last (A := A) (maps := maps) (I := I) (L := L) (cfg := customCfg cfg T) (T := T)
    (E := st'.expansions) (seen_ok ok _) hI
    (Inv := fun st => st.cands = [] ∧ ∃ G, Region (A.withSucc (seen maps st'.expansions)) I M cfg.start R G st)
    (fun st st2 hk hC h hi => by
      obtain ⟨hc, G, hR⟩ := h
      have hU : ∀ u, ∀ e ∈ maps st.expansions u, e ∈ (A.withSucc (seen maps st'.expansions)).succ u :=
        fun u e he => List.mem_flatMap.2 ⟨st.expansions, List.mem_range.2 hk, he⟩
      refine ⟨?_, hR.more (A := A.withSucc (seen maps st'.expansions)) (cfg := customCfg cfg T) (seen_ok ok _) okI hz rfl hT hU (hI _ hk) hC hi⟩
      obtain ⟨cur, o, t, hn, _, ht1, hterm, _, rfl⟩ := iterate_more hi
      obtain ⟨t', g1, g2, g3, g4, g5, g6, g7, g8, g9, g10, g11, g12⟩ := hC.tested hn
      change customTest (A.withSucc (seen maps st'.expansions)) T (popNode (A.withSucc (seen maps st'.expansions)) (customCfg cfg T) st cur o) cur = .ok t at ht1
      rw [g1] at ht1
      cases ht1
      obtain ⟨_, _, e4, _⟩ := g7.expand (goal := (customCfg cfg T).goal) (seen_ok ok _) hU (hI _ hk)
      refine e4.trans ?_
      by_contra hne
      obtain ⟨x, hx⟩ := List.exists_mem_of_ne_nil _ hne
      rcases g11 x hx with h1 | ⟨_, h1⟩
      · rw [hc] at h1; cases h1
      · by_cases hr : R cur
        · obtain ⟨w, hw⟩ := (hT _ cur).1 hr
          rw [hw] at g3
          rw [g3] at hterm; cases hterm
        · rw [(hT _ cur).2 hr] at h1; cases h1)
    fuel _ st' _ hrun (le_refl _) CLoop.init hinit
  have okS : CostOk (A.withSucc (seen maps st'.expansions)) := seen_ok ok _
  generalize st'.expansions = E at *
  have hfin0 : finish (customCfg cfg T) st1 = .ok [] := by
    rcases finish_spec (A := A.withSucc (seen maps E)) (cfg := customCfg cfg T) ht hC.inv.core hC.inv.cands with ⟨_, h⟩ | ⟨x, _, _, h, _⟩
    · exact h
    · rw [hc] at h; cases h
  rcases iterate_done hi with ⟨_, rfl, h⟩ | ⟨_, rfl, h⟩ | ⟨cur, o, hn, h⟩
  · rw [hfin0] at h; cases h; exact absurd rfl hp
  · rw [hfin0] at h; cases h; exact absurd rfl hp
  · obtain ⟨t, g1, g2, g3, g4, g5, g6, g7, g8, g9, g10, g11, g12⟩ := hC.tested hn
    change (customTest (A.withSucc (seen maps E)) T (popNode (A.withSucc (seen maps E)) (customCfg cfg T) st1 cur o) cur = .ub ∧ _) ∨
      (∃ e, customTest (A.withSucc (seen maps E)) T (popNode (A.withSucc (seen maps E)) (customCfg cfg T) st1 cur o) cur = .throw e ∧ _) ∨
      ∃ t, customTest (A.withSucc (seen maps E)) T (popNode (A.withSucc (seen maps E)) (customCfg cfg T) st1 cur o) cur = .ok t ∧ _ at h
    rw [g1] at h
    have main : .ok p = finish (customCfg cfg T) t.st →
        ∃ t d, WalkTo (A.withSucc (seen maps E)) cfg.start t p d ∧ R t ∧ ∀ n e, Reach (A.withSucc I) cfg.start n e → R n → d ≤ e := fun h6 => by
      rcases finish_spec (A := A.withSucc (seen maps E)) (cfg := customCfg cfg T) ht g7.core g7.cands with
        ⟨_, h7⟩ | ⟨x, l, d, h7, _, hb, h8⟩
      · rw [h7] at h6; cases h6; exact absurd rfl hp
      · rw [h8] at h6; cases h6
        obtain ⟨hxc, hxw⟩ := (g11 x h7).resolve_left (by rw [hc]; exact List.not_mem_nil)
        rw [hxc] at hb
        have hRc : R cur := by
          by_contra hno
          rw [(hT _ cur).2 hno] at hxw; cases hxw
        refine ⟨cur, d, hb.walk, hRc, ?_⟩
        intro n e hr hRn
        have hcost := hb.cost_le okS g7.core.s0
        rw [g10] at hcost
        rw [← WithTop.coe_le_coe]
        refine hcost.trans ?_
        have hnc : (st1.lab cur).closed = false := by
          by_contra hne
          exact hR.out cur (by simpa using hne) hRc
        rcases hR.frontier (A := A.withSucc (seen maps E)) (I := I) okI hC.inv.core hr with h1 | ⟨m, h1, h2, h3⟩
        · exact absurd hRn (hR.out n h1)
        · exact (hR.keys.first hn hnc h1 h2).trans h3
    rcases h with ⟨h, _⟩ | ⟨e, h, _⟩ | ⟨t', h, rfl, h3⟩
    · cases h
    · cases h
    · cases h
      rcases h3 with ⟨_, h5, _⟩ | ⟨_, _, h6⟩ | ⟨_, _, _, _, h6⟩
      · exact absurd g2 h5
      · exact main h6
      · exact main h6

end PathPlanning.CDur
