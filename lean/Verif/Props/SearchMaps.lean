import Verif.Lemmas.SearchHistMaps
import Verif.Spec.SearchMaps
import Verif.Props.SearchHist
import Verif.Props.CustomDuring
import Verif.Props.DuringGrid
import Verif.Props.SearchHistory

/-!
# Later searches on a map that has changed (C126)
-/

namespace PathPlanning.Maps
open PathPlanning
set_option linter.unusedSectionVars false

variable {N C : Type} [DecidableEq N] [LinearOrder C] [Fintype N]
variable {A : Algo N C} {P : OpenList N C}
variable {S start : List N} {lab0 lab : Labels N C} {W U : N → List (N × C)} {maps : Nat → N → List (N × C)}

theorem hist_fresh : Hist A W S (freshLabels A) where
  low n := by simp [freshLabels, Label.fresh]
  reach n := by simp [freshLabels, Label.fresh]
  nself n := by simp [freshLabels, Label.fresh]
  cost n := by simp [freshLabels, Label.fresh]

/-- A search between poses on any labels. -/
theorem hist_find (ok : CostOk (A.withSucc U)) (L : Lawful P) (h : Hist A W S lab) (cfg : SCfg N C) (hS : ∀ s ∈ cfg.start, s ∈ S)
    (hW : ∀ u, ∀ e ∈ U u, e ∈ W u) (hU : ∀ k u, ∀ e ∈ maps k u, e ∈ U u) (ht : TopOk cfg.top) (hx : ExpansionOk cfg) :
    ∃ fuel r st', findPathDuring A maps P cfg lab fuel = some (r, st') ∧
      HDone (A.withSucc U) W S cfg lab (GoodCand A cfg) (PoseRes A cfg) r st' := by
  obtain ⟨h1, h2⟩ := hist_init (A := A.withSucc U) (P := P) L cfg (h.other U) hS hW
  exact hist_loopG (A := A.withSucc U) (maps := maps) hU ok ht (hist_pose_ok hx) (F := searchLoopDuring A maps cfg)
    (fun f st => by rw [searchLoopDuring, PathPlanning.poseTest_withSucc, PathPlanning.poseTest_withSucc]; rfl) _ h1 (by
      intro x hx
      have hx' : x ∈ (initSearch (A.withSucc U) P cfg lab).cands := hx
      rw [h2] at hx'; cases hx')

/-- A search with a goal test on any labels. -/
theorem hist_test (ok : CostOk (A.withSucc U)) (L : Lawful P) (h : Hist A W S lab) (cfg : SCfg N C) (hS : ∀ s ∈ cfg.start, s ∈ S)
    (hW : ∀ u, ∀ e ∈ U u, e ∈ W u) (hU : ∀ k u, ∀ e ∈ maps k u, e ∈ U u) (ht : TopOk cfg.top) (T : GoalTest N C P) :
    ∃ fuel r st', findPathCustomDuring A maps P cfg T lab fuel = some (r, st') ∧
      HDone (A.withSucc U) W S (customCfg cfg T) lab (Accepts T) (fun _ _ _ => False) r st' := by
  obtain ⟨h1, h2⟩ := hist_init (A := A.withSucc U) (P := P) L (customCfg cfg T) (h.other U) hS hW
  exact hist_loopG (A := A.withSucc U) (cfg := customCfg cfg T) (maps := maps) hU ok ht (hist_custom_ok T cfg.start)
    (F := searchLoopTDuring A maps (customCfg cfg T) T) (fun f st => rfl) _ h1 (by
      intro x hx
      have hx' : x ∈ (initSearch (A.withSucc U) P (customCfg cfg T) lab).cands := hx
      rw [h2] at hx'; cases hx')

theorem find_fuel {cfg : SCfg N C} {f g : Nat} {x y} (hx : findPathDuring A maps P cfg lab f = some x)
    (hy : findPathDuring A maps P cfg lab g = some y) : x = y :=
  loopG_fuel (A := A) (maps := maps) (cfg := cfg) (test := poseTest A cfg) (F := searchLoopDuring A maps cfg) (fun _ => rfl)
    (fun f st => by rw [searchLoopDuring, PathPlanning.poseTest_withSucc]; rfl) _ _ _ _ _ hx hy

theorem test_fuel {cfg : SCfg N C} {T : GoalTest N C P} {f g : Nat} {x y} (hx : findPathCustomDuring A maps P cfg T lab f = some x)
    (hy : findPathCustomDuring A maps P cfg T lab g = some y) : x = y :=
  loopG_fuel (A := A) (maps := maps) (cfg := customCfg cfg T) (test := customTest A T)
    (F := searchLoopTDuring A maps (customCfg cfg T) T) (fun _ => rfl) (fun f st => rfl) _ _ _ _ _ hx hy

/-- The invariant holds after every history. -/
theorem _root_.PathPlanning.UsedOn.hist (L : Lawful P) (h : UsedOn A P W S lab) : Hist A W S lab := by
  induction h with
  | setMap => exact hist_fresh
  | @find W S lab maps U cfg fuel r st _ hU ok ht hx hrun ih =>
    obtain ⟨f, r', st', h1, h2⟩ := hist_find (W := fun u => W u ++ U u) (S := cfg.start ++ S) ok L
      (ih.mono (fun s hs => List.mem_append_right _ hs) fun u e he => List.mem_append_left _ he) cfg
      (fun s hs => List.mem_append_left _ hs) (fun u e he => List.mem_append_right _ he) hU ht hx
    have := find_fuel hrun h1
    simp only [Prod.mk.injEq] at this
    rw [this.2]; exact h2.core.toHist.back
  | @test W S lab maps U cfg fuel r st T _ hU ok ht hrun ih =>
    obtain ⟨f, r', st', h1, h2⟩ := hist_test (W := fun u => W u ++ U u) (S := cfg.start ++ S) ok L
      (ih.mono (fun s hs => List.mem_append_right _ hs) fun u e he => List.mem_append_left _ he) cfg
      (fun s hs => List.mem_append_left _ hs) (fun u e he => List.mem_append_right _ he) hU ht T
    have := test_fuel hrun h1
    simp only [Prod.mk.injEq] at this
    rw [this.2]; exact h2.core.toHist.back

theorem histAt (L : Lawful P) (h : UsedOn A P W S lab) (U : N → List (N × C)) (ss : List N) :
    Hist A (fun u => W u ++ U u) (ss ++ S) lab :=
  (h.hist L).mono (fun s hs => List.mem_append_right _ hs) fun u e he => List.mem_append_left _ he

/-- **C126 (stored costs).**  After any history the cost stored at a node is infinite or the cost of a walk, from a start node of one of
the searches, along neighbours that one of the searches could see. -/
theorem used_dist (L : Lawful P) (h : UsedOn A P W S lab) (n : N) (hn : (lab n).dist ≠ ⊤) :
    ∃ d, Reach (A.withSucc W) S n d ∧ (lab n).dist = (d : WithTop C) := (h.hist L).cost n hn

/-- A history on one map is one of these. -/
theorem _root_.PathPlanning.Used.on (ok : CostOk A) (h : Used A P S lab) : ∃ W, (∀ u, ∀ e ∈ W u, e ∈ A.succ u) ∧ UsedOn A P W S lab := by
  induction h with
  | setMap => exact ⟨fun _ => [], (by intro u e he; cases he), .setMap⟩
  | @find S lab cfg fuel r st _ ht hx hrun ih =>
    obtain ⟨W, h1, h2⟩ := ih
    refine ⟨fun u => W u ++ A.succ u, ?_, .find (maps := fun _ => A.succ) (U := A.succ) h2 (fun _ _ _ he => he) ok ht hx
      (by rw [During.constant]; exact hrun)⟩
    intro u e he
    rcases List.mem_append.1 he with he | he
    · exact h1 u e he
    · exact he
  | @test S lab cfg fuel r st T _ ht hrun ih =>
    obtain ⟨W, h1, h2⟩ := ih
    refine ⟨fun u => W u ++ A.succ u, ?_, .test (maps := fun _ => A.succ) (U := A.succ) h2 (fun _ _ _ he => he) ok ht
      (by rw [CDur.constant]; exact hrun)⟩
    intro u e he
    rcases List.mem_append.1 he with he | he
    · exact h1 u e he
    · exact he

/-- **C126 (searches between poses).**  After any history of searches on other maps, and while the map goes on changing, every further
search ends without undefined behaviour; its result is empty, or a walk from one of its own start nodes into its own goal region (or
continued by an analytic expansion), along neighbours that were free in a map *this* search could see, that comes to each of its nodes at
a cost smaller than the one left there by the searches before.  No stored cost grows. -/
theorem later_sound (ok : CostOk (A.withSucc U)) (L : Lawful P) (h : UsedOn A P W S lab) (cfg : SCfg N C) (ht : TopOk cfg.top)
    (hx : ExpansionOk cfg) (hU : ∀ k u, ∀ e ∈ maps k u, e ∈ U u) :
    ∃ fuel p st', findPathDuring A maps P cfg lab fuel = some (.ok p, st') ∧ (p = [] ∨ LaterPath (A.withSucc U) cfg lab p) ∧
      (∀ n, (st'.lab n).dist ≤ (lab n).dist) := by
  obtain ⟨fuel, r, st', h1, h2⟩ := hist_find ok L (histAt L h U cfg.start) cfg (fun s hs => List.mem_append_left _ hs)
    (fun u e he => List.mem_append_right _ he) hU ht hx
  obtain ⟨p, rfl, hcase⟩ := h2.res
  refine ⟨fuel, p, st', h1, ?_, h2.core.le0⟩
  rcases hcase with ⟨h3, _⟩ | ⟨cur, l, d, _, hb, htl, hr⟩ | ⟨x, l, d, hx1, _, hb, htl, rfl⟩
  · exact .inl h3
  · exact .inr ⟨cur, l, d, hb.closer ok h2.core.s0 htl, hr⟩
  · obtain ⟨g, hg, hgg, _⟩ := h2.good x hx1
    exact .inr ⟨x.1, p, d, hb.closer ok h2.core.s0 htl, .inl ⟨rfl, g, hg, hgg⟩⟩

/-- **C126 (searches with a goal test).** -/
theorem later_custom_sound (ok : CostOk (A.withSucc U)) (L : Lawful P) (h : UsedOn A P W S lab) (cfg : SCfg N C) (ht : TopOk cfg.top)
    (T : GoalTest N C P) (hU : ∀ k u, ∀ e ∈ maps k u, e ∈ U u) :
    ∃ fuel p st', findPathCustomDuring A maps P cfg T lab fuel = some (.ok p, st') ∧ (∀ x ∈ st'.cands, Accepts T x.1 x.2) ∧
      ((p = [] ∧ st'.cands = []) ∨
        ∃ t w d, CloserWalk (A.withSucc U) cfg.start lab t p d ∧ (t, w) ∈ st'.cands ∧ ∀ y ∈ st'.cands, w ≤ y.2) := by
  obtain ⟨fuel, r, st', h1, h2⟩ := hist_test ok L (histAt L h U cfg.start) cfg (fun s hs => List.mem_append_left _ hs)
    (fun u e he => List.mem_append_right _ he) hU ht T
  obtain ⟨p, rfl, hcase⟩ := h2.res
  refine ⟨fuel, p, st', h1, h2.good, ?_⟩
  rcases hcase with h3 | ⟨cur, l, d, _, hb, htl, hr⟩ | ⟨x, l, d, hx1, hx2, hb, htl, rfl⟩
  · exact .inl h3
  · exact hr.elim
  · exact .inr ⟨x.1, x.2, d, hb.closer ok h2.core.s0 htl, hx1, hx2⟩

theorem hist_candidatePaths {cfg : SCfg N C} (ht : TopOk cfg.top) {lab : Labels N C} (hc : HCore A W S cfg.start lab0 lab) :
    ∀ (n : Nat) (cs : List (N × C)), cs.length = n → (∀ x ∈ cs, Touched cfg.start lab0 lab x.1) →
      ∃ ps qs, candidatePaths cfg lab n cs = .ok ps ∧ qs.Perm cs ∧ qs.Pairwise (fun x y => x.2 ≤ y.2) ∧
        PathsTo A cfg.start ps qs := by
  intro n
  induction n with
  | zero =>
    intro cs hl _
    rw [List.length_eq_zero_iff] at hl
    subst hl
    exact ⟨[], [], rfl, .refl _, .nil, .nil⟩
  | succ n ih =>
    intro cs hl hcl
    rw [candidatePaths]
    cases htop : cfg.top cs with
    | none => rw [(ht.none_iff cs).1 htop] at hl; simp at hl
    | some x =>
      have hx := ht.mem _ _ htop
      obtain ⟨l, d, hb, _⟩ := hc.back x.1 (hcl x hx)
      have hbt := hb.backtrack hc.nself
      obtain ⟨ps, qs, h1, h2, h3, h4⟩ := ih (cs.erase x) (by rw [List.length_erase_of_mem hx]; omega)
        (fun y hy => hcl y (List.mem_of_mem_erase hy))
      refine ⟨l :: ps, x :: qs, ?_, ?_, ?_, .cons ⟨d, hb.walk⟩ h4⟩
      · simp only [hbt, CRes.ok_bind, h1, CRes.pure_eq]
      · exact (h2.cons x).trans (List.perm_cons_erase hx).symm
      · refine List.pairwise_cons.2 ⟨?_, h3⟩
        intro y hy
        exact ht.min _ _ htop y (List.mem_of_mem_erase (h2.subset hy))

/-- **C126 (candidates).**  `getPathCandidates` lists one path for every node the latest search accepted, along neighbours that
search could see. -/
theorem later_candidates (ok : CostOk (A.withSucc U)) (L : Lawful P) (h : UsedOn A P W S lab) (cfg : SCfg N C) (ht : TopOk cfg.top)
    (T : GoalTest N C P) (hU : ∀ k u, ∀ e ∈ maps k u, e ∈ U u) {fuel : Nat} {r} {st' : SSt N C P}
    (hrun : findPathCustomDuring A maps P cfg T lab fuel = some (r, st')) :
    ∃ ps qs, getPathCandidates cfg st' = .ok ps ∧ qs.Perm st'.cands ∧ qs.Pairwise (fun x y => x.2 ≤ y.2) ∧
      PathsTo (A.withSucc U) cfg.start ps qs := by
  obtain ⟨f, r', st2, h1, h2⟩ := hist_test ok L (histAt L h U cfg.start) cfg (fun s hs => List.mem_append_left _ hs)
    (fun u e he => List.mem_append_right _ he) hU ht T
  have := test_fuel hrun h1
  simp only [Prod.mk.injEq] at this
  obtain ⟨rfl, rfl⟩ := this
  exact hist_candidatePaths (A := A.withSucc U) (cfg := cfg) ht h2.core _ _ rfl h2.cands

/-! ### Which paths a later search finds -/

/-- Nodes entered by this search are waiting or have been expanded; expanded nodes were not in the goal region. -/
structure HAll (A : Algo N C) (W : N → List (N × C)) (L : Lawful P) (S : List N) (cfg : SCfg N C) (lab0 : Labels N C) (st : SSt N C P) : Prop
    extends HInv A W L S cfg.start lab0 st where
  all : ∀ n, Touched cfg.start lab0 st.lab n → L.mem st.opn n ∨
    (∀ v c, (v, c) ∈ A.succ n → (st.lab v).dist ≤ A.addW (st.lab n).dist c)
  done : ∀ n, Touched cfg.start lab0 st.lab n → L.mem st.opn n ∨ (InGoalRegion A cfg.goal n → st.cands ≠ [])

theorem hall_fold (ok : CostOk A) {L : Lawful P} {cfg : SCfg N C} {cur : N} :
    ∀ (es done : List (N × C)) (st : SSt N C P), HInv A W L S cfg.start lab0 st → Touched cfg.start lab0 st.lab cur →
      (∀ e ∈ es, e ∈ A.succ cur) →
      (∀ n, n ≠ cur → Touched cfg.start lab0 st.lab n → L.mem st.opn n ∨
        (∀ v c, (v, c) ∈ A.succ n → (st.lab v).dist ≤ A.addW (st.lab n).dist c)) →
      (∀ n, Touched cfg.start lab0 st.lab n → L.mem st.opn n ∨ (InGoalRegion A cfg.goal n → st.cands ≠ [])) →
      (∀ e ∈ done, (st.lab e.1).dist ≤ A.addW (st.lab cur).dist e.2) →
      let st' := es.foldl (fun s e => processNeighbor A cfg.goal s cur e.1 e.2) st
      (∀ n, n ≠ cur → Touched cfg.start lab0 st'.lab n → L.mem st'.opn n ∨
        (∀ v c, (v, c) ∈ A.succ n → (st'.lab v).dist ≤ A.addW (st'.lab n).dist c)) ∧
      (∀ n, Touched cfg.start lab0 st'.lab n → L.mem st'.opn n ∨ (InGoalRegion A cfg.goal n → st'.cands ≠ [])) ∧
      (∀ e ∈ done ++ es, (st'.lab e.1).dist ≤ A.addW (st'.lab cur).dist e.2) := by
  intro es
  induction es with
  | nil => intro done st _ _ _ h4 h5 h6; rw [List.append_nil]; exact ⟨h4, h5, h6⟩
  | cons e es ih =>
    intro done st h1 h2 h3 h4 h5 h6
    obtain ⟨g1, g2, g3, g4, _, _⟩ := h1.process (goal := cfg.goal) ok (nb := e.1) (c := e.2) h2 (h3 e List.mem_cons_self)
    obtain ⟨_, _, _, hcase⟩ := process_cases_of (A := A) (goal := cfg.goal) h1.core.reach (nb := e.1) (c := e.2) (h1.core.fin h2)
    have := ih (done ++ [e]) _ g1 g2 (fun x hx => h3 x (List.mem_cons_of_mem _ hx)) ?_ ?_ ?_
    · rw [List.append_assoc] at this; exact this
    · intro n hn ht
      rcases hcase with ⟨_, hop, hsame⟩ | ⟨hcl, hop, hv, _, _, hother⟩
      · have ht' : Touched cfg.start lab0 st.lab n := ht.le (hsame n).1.1.ge
        rw [hop]
        rcases h4 n hn ht' with h | h
        · exact .inl h
        · right; intro v c hv; rw [(hsame v).1.1, (hsame n).1.1]; exact h v c hv
      · rw [hop]
        by_cases e1 : n = e.1
        · exact .inl ((L.add_mem _ _ _ _).2 (.inl e1))
        · have ht' : Touched cfg.start lab0 st.lab n := ht.le (by rw [hother n e1])
          rcases h4 n hn ht' with h | h
          · exact .inl ((L.add_mem _ _ _ _).2 (.inr h))
          · right; intro v c hv'
            exact (g3 v).trans ((h v c hv').trans (by rw [hother n e1]))
    · intro n ht
      rw [g4]
      rcases hcase with ⟨_, hop, hsame⟩ | ⟨hcl, hop, hv, _, _, hother⟩
      · rw [hop]; exact h5 n (ht.le (hsame n).1.1.ge)
      · rw [hop]
        by_cases e1 : n = e.1
        · exact .inl ((L.add_mem _ _ _ _).2 (.inl e1))
        · rcases h5 n (ht.le (by rw [hother n e1])) with h | h
          · exact .inl ((L.add_mem _ _ _ _).2 (.inr h))
          · exact .inr h
    · have hcur : ((processNeighbor A cfg.goal st cur e.1 e.2).lab cur).dist = (st.lab cur).dist := by
        rcases hcase with ⟨_, _, hsame⟩ | ⟨hcl, _, _, _, _, hother⟩
        · exact (hsame cur).1.1
        · have : cur ≠ e.1 := by
            intro e1
            rw [← e1] at hcl
            exact absurd (le_addW ok (v := e.1) (c := e.2) (h3 e List.mem_cons_self) _) (not_le.2 hcl)
          rw [hother cur this]
      intro x hx
      rw [hcur]
      rcases List.mem_append.1 hx with hx | hx
      · exact (g3 _).trans (h6 x hx)
      · rw [List.mem_singleton.1 hx]
        rcases hcase with ⟨hncl, _, hsame⟩ | ⟨_, _, hv, _⟩
        · rw [(hsame e.1).1.1]; exact not_lt.1 hncl
        · rw [hv.1]

theorem HAll.pres (ok : CostOk A) {L : Lawful P} {cfg : SCfg N C} (hx : ExpansionOk cfg) {st st' : SSt N C P}
    (h : HAll A W L S cfg lab0 st) (hi : iterate A cfg (poseTest A cfg) st = .more st') : HAll A W L S cfg lab0 st' := by
  obtain ⟨cur, o, t, hn, _, ht1, hterm, _, rfl⟩ := iterate_more hi
  obtain ⟨hX, hcur, hd, hcs⟩ := h.toHInv.pop hn
  obtain ⟨_, hsub, hsup⟩ := L.next_some _ _ _ hn
  obtain ⟨l, d, hb, _⟩ := hX.core.back cur hcur
  obtain ⟨t', g1, g2, g3, g4, g5, _, g7⟩ := hist_poseTest (A := A) hx (popNode A cfg st cur o) cur hX.core.nself hb
  rw [ht1] at g1; cases g1
  have hopn : t.st.opn = o := g3
  have hT : HInv A W L S cfg.start lab0 t.st := by
    refine ⟨by rw [g2]; exact hX.core, by rw [g2, g3]; exact hX.mem, ?_⟩
    intro x hx1
    rw [g2]
    rcases g5 x hx1 with h1 | h1
    · exact hX.cands x h1
    · rw [h1.1]; exact hcur
  have hcur' : Touched cfg.start lab0 t.st.lab cur := by rw [g2]; exact hcur
  have hdt : ∀ n, (t.st.lab n).dist = (st.lab n).dist := fun n => by rw [g2]; exact hd n
  have hback : ∀ n, Touched cfg.start lab0 t.st.lab n → Touched cfg.start lab0 st.lab n := fun n hn => hn.le (hdt n).ge
  obtain ⟨k1, k2, k3⟩ := hall_fold ok (A.succ cur) [] t.st hT hcur' (fun e he => he) (by
      intro n hne htn
      rcases h.all n (hback n htn) with h1 | h1
      · rcases hsup n h1 with e | h2
        · exact absurd e hne
        · exact .inl (by rw [hopn]; exact h2)
      · right; intro v c hv; rw [hdt v, hdt n]; exact h1 v c hv) (by
      intro n htn
      by_cases e : n = cur
      · subst e; exact .inr (g7 hterm)
      · rcases h.done n (hback n htn) with h1 | h1
        · rcases hsup n h1 with e' | h2
          · exact absurd e' e
          · exact .inl (by rw [hopn]; exact h2)
        · right; intro hg hnil
          obtain ⟨x, hx1⟩ := List.exists_mem_of_ne_nil _ (h1 hg)
          have := g4 x (by rw [hcs]; exact hx1)
          rw [hnil] at this; cases this) (by simp)
  obtain ⟨f1, _⟩ := HInv.fold (goal := cfg.goal) ok (A.succ cur) _ hT hcur' (fun e he => he)
  refine ⟨f1, ?_, k2⟩
  intro n htn
  by_cases e : n = cur
  · subst e; right; intro v c hv; exact k3 (v, c) (by simpa using hv)
  · exact k1 n e htn

theorem HAll.init (L : Lawful P) (cfg : SCfg N C) (h : Hist A W S lab) (hS : ∀ s ∈ cfg.start, s ∈ S)
    (hW : ∀ u, ∀ e ∈ A.succ u, e ∈ W u) :
    HAll A W L S cfg lab (initSearch A P cfg lab) := by
  obtain ⟨h1, h2⟩ := hist_init (P := P) L cfg h hS hW
  have hm : ∀ n, Touched cfg.start lab (initSearch A P cfg lab).lab n → L.mem (initSearch A P cfg lab).opn n := by
    have key : ∀ (ss done : List N) (st : SSt N C P), (∀ n ∈ done, L.mem st.opn n) →
        (∀ n, n ∉ done → (st.lab n).dist = (lab n).dist) →
        (∀ n ∈ done ++ ss, L.mem (ss.foldl (addStart A) st).opn n) ∧
        (∀ n, n ∉ done ++ ss → ((ss.foldl (addStart A) st).lab n).dist = (lab n).dist) := by
      intro ss
      induction ss with
      | nil => intro done st h1 h2; simpa using ⟨h1, h2⟩
      | cons s ss ih =>
        intro done st h1 h2
        have := ih (done ++ [s]) (addStart A st s) ?_ ?_
        · simpa using this
        · intro n hn
          refine (L.add_mem _ _ _ _).2 ?_
          rcases List.mem_append.1 hn with hn | hn
          · exact .inr (h1 n hn)
          · exact .inl (List.mem_singleton.1 hn)
        · intro n hn
          simp only [List.mem_append, List.mem_singleton, not_or] at hn
          have : (addStart A st s).lab n = st.lab n := setLab_ne _ _ hn.2
          rw [this]; exact h2 n hn.1
    obtain ⟨k1, k2⟩ := key cfg.start []
      { lab := lab, opn := P.empty, cands := [], firstW := (A.zero : WithTop C),
        expansions := 0, multi := 0, touched := 0, updates := 0 } (by simp) (by intro n _; rfl)
    simp only [List.nil_append] at k1 k2
    intro n hn
    by_cases hs : n ∈ cfg.start
    · exact k1 n hs
    · rcases hn with hn | hn
      · exact absurd hn hs
      · exact absurd hn (k2 n hs).not_lt
  exact ⟨h1, fun n hn => .inl (hm n hn), fun n hn => .inl (hm n hn)⟩

/-- Without a time limit an empty result means that no closer walk ends in the goal region. -/
theorem hist_complete (ok : CostOk A) (L : Lawful P) (hH : Hist A W S lab) (cfg : SCfg N C) (hS : ∀ s ∈ cfg.start, s ∈ S)
    (hW : ∀ u, ∀ e ∈ A.succ u, e ∈ W u) (ht : TopOk cfg.top)
    (hx : ExpansionOk cfg) (hab : ∀ k, cfg.abort k = false) {fuel : Nat} {st' : SSt N C P}
    (hrun : findPathNodes A P cfg lab fuel = some (.ok [], st')) :
    ¬ ∃ t l d, CloserWalk A cfg.start lab t l d ∧ InGoalRegion A cfg.goal t := by
  rintro ⟨n, l, d, hw, hgn⟩
  obtain ⟨f, r, st2, hr, hD⟩ := hist_loopG (A := A) (maps := fun _ => A.succ) (fun _ _ _ he => he) ok ht (hist_pose_ok hx) (F := searchLoop A cfg (poseTest A cfg))
    (fun _ _ => rfl) _ (hist_init (P := P) L cfg hH hS hW).1 (by rw [(hist_init (P := P) L cfg hH hS hW).2]; simp)
  have := searchLoop_fuel _ _ _ _ _ hrun hr
  simp only [Prod.mk.injEq] at this
  obtain ⟨rfl, rfl⟩ := this
  obtain ⟨st1, hI, hi⟩ := run_last (I := HAll A W L S cfg lab) (fun st st2 h hi => HAll.pres ok hx h hi) fuel _ st' _ hrun
    (HAll.init L cfg hH hS hW)
  have hfin : ∀ st : SSt N C P, HInv A W L S cfg.start lab st → finish cfg st = .ok [] → st.cands = [] := by
    intro st hst hf
    by_contra hne
    unfold finish at hf
    cases htop : cfg.top st.cands with
    | none => exact hne ((ht.none_iff _).1 htop)
    | some x =>
      obtain ⟨l, d, hb, _⟩ := hst.core.back x.1 (hst.cands x (ht.mem _ _ htop))
      rw [htop] at hf
      simp only [hb.backtrack hst.core.nself] at hf
      cases hf
      exact hb.ne_nil rfl
  rcases iterate_done hi with ⟨hn, rfl, h3⟩ | ⟨h3, _⟩ | ⟨cur, o, hn, h3⟩
  · have hno : ∀ m, ¬ L.mem st'.opn m := (L.next_none _).1 hn
    have key : ∀ {n l d}, CloserWalk A cfg.start lab n l d →
        Touched cfg.start lab st'.lab n ∧ (st'.lab n).dist ≤ (d : WithTop C) := by
      intro n l d hw
      induction hw with
      | start hs => exact ⟨.inl hs, (hI.core.s0 _ hs).le⟩
      | @step u v l d c hw he hlt ih =>
        obtain ⟨h1, h2⟩ := ih
        have h4 : (st'.lab v).dist ≤ ((A.add d c : C) : WithTop C) :=
          ((hI.all u h1).resolve_left (hno u) v c he).trans (addW_mono ok h2 c)
        exact ⟨.inr (h4.trans_lt hlt), h4⟩
    exact (hI.done n (key hw).1).resolve_left (hno n) hgn (hfin _ hI.toHInv h3.symm)
  · rw [hab] at h3; cases h3
  · obtain ⟨hX, hcur, hd, hcs⟩ := hI.toHInv.pop hn
    obtain ⟨l, d, hb, _⟩ := hX.core.back cur hcur
    obtain ⟨t, g1, g2, g3, g4, g5, g6, g7⟩ := hist_poseTest (A := A) hx (popNode A cfg st1 cur o) cur hX.core.nself hb
    have hT : HInv A W L S cfg.start lab t.st := by
      refine ⟨by rw [g2]; exact hX.core, by rw [g2, g3]; exact hX.mem, ?_⟩
      intro x hx1
      rw [g2]
      rcases g5 x hx1 with h1 | h1
      · exact hX.cands x h1
      · rw [h1.1]; exact hcur
    rw [g1] at h3
    rcases h3 with ⟨h, _⟩ | ⟨e, h, _⟩ | ⟨t', h, rfl, h3⟩
    · cases h
    · cases h
    · cases h
      rcases h3 with ⟨_, h5, h6⟩ | ⟨h4, h5, _⟩ | ⟨_, _, h5, _, h6⟩
      · exact h5 (CRes.ok.inj h6).symm
      · exact (g6 h4).1 h5
      · exact h5 (hfin _ hT h6.symm)

/-- **C126 (exact condition).**  On a map that stays as it is during the search - whatever it was before - and without time limit and
analytic expansion, the search finds a path exactly if a walk of neighbours free *now* leads into the goal region and comes to each of its
nodes at a cost smaller than the one left there by searches on the earlier maps. -/
theorem later_iff (ok : CostOk (A.withSucc U)) (L : Lawful P) (h : UsedOn A P W S lab) (cfg : SCfg N C) (ht : TopOk cfg.top)
    (hx : ∀ k n g, cfg.canExpand k n g = none) (hab : ∀ k, cfg.abort k = false) :
    ∃ fuel p st', findPathNodes (A.withSucc U) P cfg lab fuel = some (.ok p, st') ∧
      (p ≠ [] ↔ ∃ t l d, CloserWalk (A.withSucc U) cfg.start lab t l d ∧ InGoalRegion A cfg.goal t) := by
  have hx' : ExpansionOk cfg := ⟨fun k s g _ => hx k s g, fun k n g e he => by rw [hx] at he; cases he⟩
  obtain ⟨fuel, p, st', h1, h2, _⟩ := later_sound ok L h cfg ht hx' (maps := fun _ => U) (fun _ _ _ he => he)
  have h1' : findPathNodes (A.withSucc U) P cfg lab fuel = some (.ok p, st') := by
    rw [← During.constant (A := A.withSucc U)]
    unfold findPathDuring
    rw [During.loop_withSucc]
    exact h1
  refine ⟨fuel, p, st', h1', fun hp => ?_, fun hw hp => ?_⟩
  · rcases h2 with h2 | ⟨t, l, d, hw, ⟨_, hg⟩ | ⟨g, _, k, e, he, _⟩⟩
    · exact absurd h2 hp
    · exact ⟨t, l, d, hw, hg⟩
    · rw [hx] at he; cases he
  · subst hp
    exact hist_complete ok L ((histAt L h U cfg.start).other U) cfg (fun s hs => List.mem_append_left _ hs)
      (fun u e he => List.mem_append_right _ he) ht hx' hab h1' hw

/-- **C126 (planning again from the same place).**  After any history, a search from a start node whose present neighbours all carry a
cost no greater than the step to them finds nothing, whatever else changed in the map. -/
theorem stuck_at_start (ok : CostOk (A.withSucc U)) (L : Lawful P) (h : UsedOn A P W S lab) (cfg : SCfg N C) (ht : TopOk cfg.top)
    (hx : ∀ k n g, cfg.canExpand k n g = none) (hab : ∀ k, cfg.abort k = false) {s : N} (hs : cfg.start = [s])
    (hng : ¬ InGoalRegion A cfg.goal s) (hnb : ∀ v c, (v, c) ∈ U s → (lab v).dist ≤ ((A.add A.zero c : C) : WithTop C)) :
    ∃ fuel st', findPathNodes (A.withSucc U) P cfg lab fuel = some (.ok [], st') := by
  obtain ⟨fuel, p, st', h1, h2⟩ := later_iff ok L h cfg ht hx hab
  have hp : p = [] := by
    by_contra hp
    obtain ⟨t, l, d, hw, hg⟩ := h2.1 hp
    have key : ∀ {n l d}, CloserWalk (A.withSucc U) cfg.start lab n l d → n = s ∧ d = A.zero := by
      intro n l d hw
      induction hw with
      | start hs' => rw [hs, List.mem_singleton] at hs'; exact ⟨hs', rfl⟩
      | @step u v l d c _ he hlt ih =>
        obtain ⟨rfl, rfl⟩ := ih
        exact absurd (hnb v c he) (not_le.2 hlt)
    exact hng ((key hw).1 ▸ hg)
  subst hp
  exact ⟨fuel, st', h1⟩

/-- **C126 (planning again).**  A search from `s` was made, then the map was changed in any way that adds no neighbour to `s` itself -
cells away from `s` may be freed, cells anywhere occupied - and `setMap` was not called: searching from `s` again finds nothing. -/
theorem replan_fails (ok : CostOk A) (ok2 : CostOk (A.withSucc U)) (L : Lawful P) (cfg cfg2 : SCfg N C) {s : N}
    (hs : cfg.start = [s]) (hs2 : cfg2.start = [s]) (ht : TopOk cfg.top) (ht2 : TopOk cfg2.top)
    (hx : ExpansionOk cfg) (hx2 : ∀ k n g, cfg2.canExpand k n g = none)
    (hng : ¬ InGoalRegion A cfg.goal s) (hng2 : ¬ InGoalRegion A cfg2.goal s)
    (hab : cfg.abort 0 = false) (hab2 : ∀ k, cfg2.abort k = false)
    (hU : ∀ e ∈ U s, e ∈ A.succ s) {fuel : Nat} {r} {st : SSt N C P}
    (hrun : findPathNodes A P cfg (freshLabels A) fuel = some (r, st)) :
    ∃ fuel2 st2, findPathNodes (A.withSucc U) P cfg2 st.lab fuel2 = some (.ok [], st2) := by
  have hset := first_search_settles ok L cfg hs ht hx hng hab hrun
  have hu : UsedOn A P (fun u => (fun _ => []) u ++ A.succ u) (cfg.start ++ []) st.lab :=
    .find (maps := fun _ => A.succ) .setMap (fun _ _ _ he => he) ok ht hx (by rw [During.constant]; exact hrun)
  refine stuck_at_start ok2 L hu cfg2 ht2 hx2 hab2 hs2 hng2 fun v c hv => ?_
  have := hset.relaxed v c (hU _ hv)
  rw [hset.core.s0 s (by simp)] at this
  exact this

end PathPlanning.Maps
