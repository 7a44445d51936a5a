import Verif.Lemmas.KinDuring
import Verif.Model.CustomHistory

/-!
# Invariants of later searches with a goal test
-/

namespace PathPlanning
open Spec
set_option linter.unusedSectionVars false

variable {N K C : Type} [DecidableEq N] [LinearOrder C] [Fintype N]
variable {P : OpenList N C}
variable {A : KAlgo N K C} {cs : List C} {L : Lawful P} {cfg : SCfg N C} {S : List N} {lab0 : Labels N C} {kin0 : N → K}
  {T : KGoalTest N K C P}

/-- What expanding a node leaves alone: the nodes that are not on the open list afterwards. -/
theorem kTry_off (L : Lawful P) {goal : List N} {cur : N} {mv} {st st' : KSt N K C P} (h : kTry A goal cur mv st = .ok st') :
    ∀ n, ¬ L.mem st'.s.opn n → ¬ L.mem st.s.opn n ∧ st'.kin n = st.kin n ∧ (st'.s.lab n).dist = (st.s.lab n).dist := by
  have hrefl : ∀ n, ¬ L.mem st.s.opn n → ¬ L.mem st.s.opn n ∧ st.kin n = st.kin n ∧ (st.s.lab n).dist = (st.s.lab n).dist :=
    fun n h => ⟨h, rfl, rfl⟩
  unfold kTry at h
  cases hm : mv (st.kin cur) (kPreds st.s.lab st.kin cur A.predDepth) with
  | none => rw [hm] at h; cases h; exact hrefl
  | some ck =>
    obtain ⟨c, k⟩ := ck
    rw [hm] at h
    simp only at h
    cases hu : A.usable (st.kin cur) k with
    | throw e => rw [hu] at h; cases h
    | ub => rw [hu] at h; cases h
    | ok b =>
      rw [hu] at h
      simp only [CRes.bind] at h
      cases b with
      | false => cases h; exact hrefl
      | true =>
        simp only [if_true] at h
        cases hl : A.lookup k with
        | throw e => rw [hl] at h; cases h
        | ub => rw [hl] at h; cases h
        | ok r =>
          rw [hl] at h
          simp only at h
          cases r with
          | none => cases h; exact hrefl
          | some nb =>
            simp only at h
            by_cases hn : nb = cur
            · by_cases ha : processAdds A st.s cur nb c = true
              · rw [if_pos ha, if_pos hn] at h; cases h
              · rw [if_neg ha] at h
                cases h
                subst hn
                intro n
                unfold processAdds at ha
                change ¬ (!((st.s.lab nb).closed && !decide ((A.alg st.s.lab st.kin).addW (st.s.lab nb).dist c < (st.s.lab nb).dist)) &&
                  (!(st.s.lab nb).opn || decide ((A.alg st.s.lab st.kin).addW (st.s.lab nb).dist c < (st.s.lab nb).dist))) = true at ha
                unfold processNeighbor
                simp only [setLab_self]
                have hlab : (setLab st.s.lab nb { st.s.lab nb with watched := true } n).dist = (st.s.lab n).dist := by
                  by_cases e : n = nb
                  · subst e; rw [setLab_self]
                  · rw [setLab_ne _ _ e]
                rw [Bool.and_eq_true, Bool.not_eq_true', ← Bool.not_eq_true] at ha
                by_cases h1 : ((st.s.lab nb).closed &&
                    !decide ((A.alg st.s.lab st.kin).addW (st.s.lab nb).dist c < (st.s.lab nb).dist)) = true
                · rw [if_pos h1]; exact fun hx => ⟨hx, trivial, hlab⟩
                · rw [if_neg h1, if_neg fun h2 => ha ⟨h1, h2⟩]
                  exact fun hx => ⟨hx, trivial, hlab⟩
            · have hcn : setLab st.s.lab nb { st.s.lab nb with watched := true } cur = st.s.lab cur := setLab_ne _ _ (Ne.symm hn)
              by_cases ha : processAdds A st.s cur nb c = true
              · rw [if_pos ha, if_neg hn] at h
                cases h
                intro n
                unfold processAdds at ha
                change (!((st.s.lab nb).closed && !decide ((A.alg st.s.lab st.kin).addW (st.s.lab cur).dist c < (st.s.lab nb).dist)) &&
                  (!(st.s.lab nb).opn || decide ((A.alg st.s.lab st.kin).addW (st.s.lab cur).dist c < (st.s.lab nb).dist))) = true at ha
                rw [Bool.and_eq_true, Bool.not_eq_true', ← Bool.not_eq_true] at ha
                unfold processNeighbor
                simp only [hcn]
                rw [if_neg ha.1, if_pos ha.2]
                intro hx
                simp only [L.add_mem, not_or] at hx
                simp only [hx.1, if_false]
                exact ⟨hx.2, trivial, by rw [setLab_ne _ _ hx.1, setLab_ne _ _ hx.1]⟩
              · rw [if_neg ha] at h
                cases h
                intro n
                unfold processAdds at ha
                change ¬ (!((st.s.lab nb).closed && !decide ((A.alg st.s.lab st.kin).addW (st.s.lab cur).dist c < (st.s.lab nb).dist)) &&
                  (!(st.s.lab nb).opn || decide ((A.alg st.s.lab st.kin).addW (st.s.lab cur).dist c < (st.s.lab nb).dist))) = true at ha
                unfold processNeighbor
                simp only [hcn]
                have hlab : (setLab st.s.lab nb { st.s.lab nb with watched := true } n).dist = (st.s.lab n).dist := by
                  by_cases e : n = nb
                  · subst e; rw [setLab_self]
                  · rw [setLab_ne _ _ e]
                rw [Bool.and_eq_true, Bool.not_eq_true', ← Bool.not_eq_true] at ha
                by_cases h1 : ((st.s.lab nb).closed &&
                    !decide ((A.alg st.s.lab st.kin).addW (st.s.lab cur).dist c < (st.s.lab nb).dist)) = true
                · rw [if_pos h1]; exact fun hx => ⟨hx, trivial, hlab⟩
                · rw [if_neg h1, if_neg fun h2 => ha ⟨h1, h2⟩]
                  exact fun hx => ⟨hx, trivial, hlab⟩

theorem kExpand_off (L : Lawful P) {goal : List N} {cur : N} :
    ∀ (ms : List (K → List K → Option (C × K))) (st st' : KSt N K C P), kExpand A goal cur ms st = .ok st' →
      ∀ n, ¬ L.mem st'.s.opn n → ¬ L.mem st.s.opn n ∧ st'.kin n = st.kin n ∧ (st'.s.lab n).dist = (st.s.lab n).dist := by
  intro ms
  induction ms with
  | nil => intro st st' h; cases h; exact fun n h => ⟨h, rfl, rfl⟩
  | cons mv ms ih =>
    intro st st' h n hn
    rw [kExpand] at h
    cases hk : kTry A goal cur mv st with
    | throw e => rw [hk] at h; cases h
    | ub => rw [hk] at h; cases h
    | ok st1 =>
      rw [hk] at h
      obtain ⟨b1, b2, b3⟩ := ih st1 st' h n hn
      obtain ⟨a1, a2, a3⟩ := kTry_off L hk n b1
      exact ⟨a1, b2.trans a2, b3.trans a3⟩

/-- The invariant uses only the start and goal nodes of the settings. -/
theorem KHInv.recfg {cfg' : SCfg N C} {pend pt} {st : KSt N K C P} (h : KHInv A cs L cfg S lab0 kin0 pend pt st)
    (e1 : cfg'.start = cfg.start) (e2 : cfg'.goal = cfg.goal) : KHInv A cs L cfg' S lab0 kin0 pend pt st := by
  obtain ⟨h1, h2, h3, h4, h5, h6, h7, h8, h9⟩ := h
  refine ⟨?_, ?_, ?_, ?_, ?_, ?_, ?_, ?_, ?_⟩
  · rw [e1]; exact h1
  · rw [e1]; exact h2
  · rw [e1]; exact h3
  · rw [e1]; exact h4
  · rw [e1]; exact h5
  · rw [e1]; exact h6
  · rw [e1]; exact h7
  · rw [e1, e2]; exact h8
  · rw [e1, e2]; exact h9

/-- What is known of a state in which a search may end. -/
structure THEnd (A : KAlgo N K C) (cs : List C) (cfg : SCfg N C) (T : KGoalTest N K C P) (S : List N) (lab0 : Labels N C)
    (kin0 : N → K) (st : KSt N K C P) : Prop where
  core : KHCore A cs S cfg.start lab0 st.s.lab
  startKin : ∀ s ∈ cfg.start, st.kin s = kin0 s
  newKin : ∀ n, ¬ Touched cfg.start lab0 st.s.lab n → st.kin n = kin0 n
  edge : ∀ n, n ∉ cfg.start → Touched cfg.start lab0 st.s.lab n → KEdge A cfg.start kin0 st.s.lab st.kin n
  cands : ∀ x ∈ st.s.cands, Touched cfg.start lab0 st.s.lab x.1
  good : ∀ x ∈ st.s.cands, ∃ k, Reachable A cfg.start kin0 k ∧ PoseAccepted T k x.2 ∧
    (k = st.kin x.1 ∨ (x.1 ∉ cfg.start ∧ A.lookup k = .ok (some x.1)))

/-- Invariant of a later search with a goal test. -/
structure THInv (A : KAlgo N K C) (cs : List C) (L : Lawful P) (cfg : SCfg N C) (T : KGoalTest N K C P) (S : List N)
    (lab0 : Labels N C) (kin0 : N → K) (st : KSt N K C P) : Prop where
  inv : KHInv A cs L { cfg with goal := [] } S lab0 kin0 noMove noTest st.bare
  cands : ∀ x ∈ st.s.cands, Touched cfg.start lab0 st.s.lab x.1
  good : ∀ x ∈ st.s.cands, ∃ k, Reachable A cfg.start kin0 k ∧ PoseAccepted T k x.2 ∧
    (k = st.kin x.1 ∨ (x.1 ∉ cfg.start ∧ A.lookup k = .ok (some x.1)))
  seen : ∀ n, Touched cfg.start lab0 st.s.lab n → ¬ L.mem st.s.opn n → PoseAlwaysAccepted T (st.kin n) → st.s.cands ≠ []

theorem THInv.toEnd {st : KSt N K C P} (h : THInv A cs L cfg T S lab0 kin0 st) : THEnd A cs cfg T S lab0 kin0 st :=
  ⟨h.inv.core, h.inv.startKin, h.inv.newKin, h.inv.edge, h.cands, h.good⟩

/-- What the search knows when the goal test has been asked about `cur`. -/
theorem THInv.tested {st : KSt N K C P} (h : THInv A cs L cfg T S lab0 kin0 st) {cur : N} {o : P.O}
    (hn : P.next st.s.opn = some (cur, o)) :
    THEnd A cs cfg T S lab0 kin0 (kTest A T (popT A cfg T st cur o) cur) ∧
      (∀ w, (T.terminate (popT A cfg T st cur o) cur).1 = some w →
        (cur, w) ∈ (kTest A T (popT A cfg T st cur o) cur).s.cands) ∧
      (∀ n, ((popT A cfg T st cur o).s.lab n).dist = (st.s.lab n).dist) ∧
      st.s.cands ⊆ (kTest A T (popT A cfg T st cur o) cur).s.cands := by
  obtain ⟨p1, p2, p3, p4, p5, p6⟩ := kTest_parts (A := A) (T := T) (popT A cfg T st cur o) cur
  obtain ⟨hx, hd, hcs, hopn1, hcurT⟩ :=
    khpop_spec (cfg := tCfg cfg T st.kin) (st := st.bare) (h.inv.recfg rfl rfl) hn (B := A.alg st.s.lab st.kin)
  have hd : ∀ n, ((popT A cfg T st cur o).s.lab n).dist = (st.s.lab n).dist := hd
  have hsub : st.s.cands ⊆ (kTest A T (popT A cfg T st cur o) cur).s.cands := by
    rw [p6]
    exact fun x hx => List.mem_append_left _ hx
  have hcr : Reachable A cfg.start kin0 (st.kin cur) := h.inv.reachable hcurT
  have hsplit : ∀ x ∈ (kTest A T (popT A cfg T st cur o) cur).s.cands, x ∈ st.s.cands ∨
      (x.1 = cur ∧ (T.terminate (popT A cfg T st cur o) cur).1 = some x.2) := by
    intro x hx1
    rw [p6] at hx1
    rcases List.mem_append.1 hx1 with h1 | h1
    · exact .inl h1
    · right
      cases hT : (T.terminate (popT A cfg T st cur o) cur).1 with
      | none => rw [hT] at h1; cases h1
      | some w => rw [hT] at h1; rw [List.mem_singleton] at h1; rw [h1]; exact ⟨rfl, rfl⟩
  refine ⟨⟨?_, ?_, ?_, ?_, ?_, ?_⟩, ?_, hd, hsub⟩
  · rw [p2]; exact hx.core
  · rw [p1]; exact hx.startKin
  · rw [p1, p2]; exact hx.newKin
  · rw [p1, p2]; exact hx.edge
  · intro x hx1
    rw [p2]
    refine (touched_congr (hd _)).2 ?_
    rcases hsplit x hx1 with h1 | ⟨h1, _⟩
    · exact h.cands x h1
    · rw [h1]; exact hcurT
  · intro x hx1
    rcases hsplit x hx1 with h1 | ⟨h1, h2⟩
    · obtain ⟨k, g1, g2, g3⟩ := h.good x h1
      exact ⟨k, g1, g2, by rw [p1]; exact g3⟩
    · exact ⟨st.kin cur, hcr, ⟨popT A cfg T st cur o, cur, rfl, h2⟩, .inl (by rw [p1, h1]; rfl)⟩
  · intro w hw
    rw [p6, hw]
    simp

theorem THInv.more (ok : KCostOk A cs) (ht : TopOk cfg.top) {st st' : KSt N K C P} (h : THInv A cs L cfg T S lab0 kin0 st)
    (hi : kIterateT A cfg T st = .more st') :
    THInv A cs L cfg T S lab0 kin0 st' ∧
      (potential (A.full cs (fun _ => Label.fresh A.zero) kin0) st'.s.lab <
          potential (A.full cs (fun _ => Label.fresh A.zero) kin0) st.s.lab ∨
        (potential (A.full cs (fun _ => Label.fresh A.zero) kin0) st'.s.lab =
            potential (A.full cs (fun _ => Label.fresh A.zero) kin0) st.s.lab ∧
          L.size st'.s.opn < L.size st.s.opn)) := by
  obtain ⟨cur, o, hn, hT, hsim, hcands, hexp⟩ := kIterateT_more hi
  have hs := khIterate_spec (L := L) (cfg := tCfg cfg T st.kin) (kin0 := kin0) ok ht (st := st.bare) (h.inv.recfg rfl rfl) (fun _ => rfl)
  rw [hsim] at hs
  obtain ⟨hinv, _, hprog⟩ := hs
  obtain ⟨hend, hadd, hoth, hsub⟩ := h.tested hn
  obtain ⟨p1, p2, p3, p4, p5, p6⟩ := kTest_parts (A := A) (T := T) (popT A cfg T st cur o) cur
  have hfr := kExpand_off L _ _ _ hexp
  obtain ⟨_, hsubm, hsup⟩ := L.next_some _ _ _ hn
  have hle : ∀ n, (st'.s.lab n).dist ≤ ((kTest A T (popT A cfg T st cur o) cur).s.lab n).dist := by
    have hx := (khpop_spec (cfg := tCfg cfg T st.kin) (st := st.bare) (h.inv.recfg rfl rfl) hn (B := A.alg st.s.lab st.kin)).1
    have hct := (khpop_spec (cfg := tCfg cfg T st.kin) (st := st.bare) (h.inv.recfg rfl rfl) hn (B := A.alg st.s.lab st.kin)).2.2.2.2
    have hX : KHInv A cs L (tCfg cfg T st.kin) S lab0 kin0 (todo cur A.moves) noTest (popT A cfg T st cur o).bare := by
      refine hx.same (s' := (popT A cfg T st cur o).bare.s) (fun m => ⟨rfl, rfl, Iff.rfl⟩) (fun n hn' => hn') hx.cands hx.candGood ?_ ?_
      · intro u hu
        rcases hx.relaxed u hu with h1 | h1
        · exact .inl h1
        · right
          intro mv hmv
          rcases h1 mv hmv with h2 | h2
          · exact .inl ⟨h2, hmv⟩
          · exact .inr h2
      · intro _ u _
        right; right
        intro g hg
        cases hg
    have hE := khExpand_spec ok A.moves (popT A cfg T st cur o).bare (fun m hm => hm) hX
      ((touched_congr (hoth cur)).2 hct)
    have hb : kExpand A [] cur A.moves (popT A cfg T st cur o).bare = .ok st'.bare := by
      rw [← p5]
      show kExpand A [] cur A.moves ((kTest A T (popT A cfg T st cur o) cur).withCands [] ⊤) = _
      rw [kExpand_withCands, hexp]; rfl
    change (match kExpand A [] cur A.moves (popT A cfg T st cur o).bare with
        | .ok st' => _ | .throw e => _ | .ub => _) at hE
    rw [hb] at hE
    intro n
    rw [p2]
    exact hE.2.dist n
  refine ⟨⟨hinv.recfg rfl rfl, ?_, ?_, ?_⟩, hprog _ _⟩
  · intro x hx
    rw [hcands] at hx
    exact (hend.cands x hx).le (hle x.1)
  · intro x hx
    rw [hcands] at hx
    obtain ⟨k, h1, h2, h3⟩ := hend.good x hx
    refine ⟨k, h1, h2, ?_⟩
    rcases h3 with h3 | h3
    swap
    · exact .inr h3
    by_cases e : st'.kin x.1 = st.kin x.1
    · left; rw [h3, p1, e]; rfl
    · right
      have hns : x.1 ∉ cfg.start := fun hs => e ((hinv.startKin x.1 hs).trans (h.inv.startKin x.1 hs).symm)
      refine ⟨hns, ?_⟩
      rw [h3]
      exact (hend.edge x.1 hns (hend.cands x hx)).reachable.1
  · intro n h1 h2 h3
    rw [hcands]
    obtain ⟨f1, f2, f3⟩ := hfr n h2
    rw [p3] at f1
    rw [f2, p1] at h3
    have hTn : Touched cfg.start lab0 st.s.lab n := by
      refine (touched_congr ?_).1 h1
      rw [f3, p2]; exact hoth n
    by_cases e : n = cur
    · subst e
      obtain ⟨w, hw⟩ := Option.ne_none_iff_exists'.1 (h3 (popT A cfg T st n o) n rfl)
      exact List.ne_nil_of_mem (hadd w hw)
    · have hnm : ¬ L.mem st.s.opn n := by
        intro hm
        rcases hsup n hm with h4 | h4
        · exact e h4
        · exact f1 h4
      obtain ⟨x, hx⟩ := List.exists_mem_of_ne_nil _ (h.seen n hTn hnm h3)
      exact List.ne_nil_of_mem (hsub hx)

/-- What is known when a later search with a goal test has ended. -/
structure THDone (A : KAlgo N K C) (cs : List C) (L : Lawful P) (cfg : SCfg N C) (T : KGoalTest N K C P) (S : List N)
    (lab0 : Labels N C) (kin0 : N → K) (r : CRes (List N)) (st : KSt N K C P) : Prop where
  throw : ∀ e, r = .throw e → MapThrows A cfg.start kin0 e
  ub : r = .ub → MapUb A cfg.start kin0
  ok : ∀ p, r = .ok p → THEnd A cs cfg T S lab0 kin0 st ∧ finish cfg st.s = .ok p ∧
    ((THInv A cs L cfg T S lab0 kin0 st ∧ P.next st.s.opn = none) ∨ cfg.abort st.s.expansions = true ∨ st.s.cands ≠ [] ∨
      ∃ st1 n, (T.terminate st1 n).2 = true ∧ (T.terminate st1 n).1 = none)

/-- The final result. -/
theorem THEnd.finish {st : KSt N K C P} (ht : TopOk cfg.top) (h : THEnd A cs cfg T S lab0 kin0 st) :
    (st.s.cands = [] ∧ finish cfg st.s = .ok []) ∨ ∃ x l d, x ∈ st.s.cands ∧ (∀ y ∈ st.s.cands, x.2 ≤ y.2) ∧
      Back (A.full cs st.s.lab st.kin) cfg.start st.s.lab x.1 l d ∧ (∀ n ∈ l, Touched cfg.start lab0 st.s.lab n) ∧
      PathPlanning.finish cfg st.s = .ok l := by
  have hC := h.core st.s.lab st.kin
  unfold PathPlanning.finish
  cases htop : cfg.top st.s.cands with
  | none => exact .inl ⟨(ht.none_iff _).1 htop, rfl⟩
  | some x =>
    right
    have hx := ht.mem _ _ htop
    obtain ⟨l, d, hb, htl⟩ := hC.back x.1 (h.cands x hx)
    exact ⟨x, l, d, hx, ht.min _ _ htop, hb, htl, hb.backtrack hC.nself⟩

theorem THInv.done (ok : KCostOk A cs) (ht : TopOk cfg.top) {st st' : KSt N K C P} {r : CRes (List N)}
    (h : THInv A cs L cfg T S lab0 kin0 st) (hi : kIterateT A cfg T st = .done r st') :
    THDone A cs L cfg T S lab0 kin0 r st' := by
  have hfin : ∀ st2 : KSt N K C P, THEnd A cs cfg T S lab0 kin0 st2 → ∃ p, finish cfg st2.s = .ok p := by
    intro st2 he
    rcases he.finish ht with ⟨_, h2⟩ | ⟨_, l, _, _, _, _, _, h4⟩
    · exact ⟨_, h2⟩
    · exact ⟨_, h4⟩
  unfold kIterateT at hi
  cases hn : P.next st.s.opn with
  | none =>
    rw [hn] at hi
    cases hi
    obtain ⟨p, hp⟩ := hfin st h.toEnd
    rw [hp]
    exact ⟨by simp, by simp, fun q hq => by cases hq; exact ⟨h.toEnd, hp, .inl ⟨h, hn⟩⟩⟩
  | some co =>
    obtain ⟨cur, o⟩ := co
    rw [hn] at hi
    simp only at hi
    by_cases hab : cfg.abort st.s.expansions = true
    · rw [if_pos hab] at hi
      cases hi
      obtain ⟨p, hp⟩ := hfin st h.toEnd
      rw [hp]
      exact ⟨by simp, by simp, fun q hq => by cases hq; exact ⟨h.toEnd, hp, .inr (.inl hab)⟩⟩
    rw [if_neg hab] at hi
    obtain ⟨hend, hadd, hoth, hsub⟩ := h.tested hn
    obtain ⟨p1, p2, p3, p4, p5, p6⟩ := kTest_parts (A := A) (T := T) (popT A cfg T st cur o) cur
    change (if (T.terminate (popT A cfg T st cur o) cur).2 = true then
        KIter.done (finish cfg (kTest A T (popT A cfg T st cur o) cur).s) (kTest A T (popT A cfg T st cur o) cur) else
      if (cfg.useCands && !(kTest A T (popT A cfg T st cur o) cur).s.cands.isEmpty && _) = true then
        KIter.done (finish cfg (kTest A T (popT A cfg T st cur o) cur).s) (kTest A T (popT A cfg T st cur o) cur) else
        match kExpand A [] cur A.moves (kTest A T (popT A cfg T st cur o) cur) with
        | .throw e => .done (.throw e) (kTest A T (popT A cfg T st cur o) cur)
        | .ub => .done .ub (kTest A T (popT A cfg T st cur o) cur)
        | .ok st' => .more st') = _ at hi
    obtain ⟨p, hp⟩ := hfin _ hend
    by_cases hT : (T.terminate (popT A cfg T st cur o) cur).2 = true
    · rw [if_pos hT] at hi
      cases hi
      rw [hp]
      refine ⟨by simp, by simp, fun q hq => ?_⟩
      cases hq
      refine ⟨hend, hp, .inr (.inr ?_)⟩
      cases hw : (T.terminate (popT A cfg T st cur o) cur).1 with
      | none => exact .inr ⟨_, cur, hT, hw⟩
      | some w => exact .inl (List.ne_nil_of_mem (hadd w hw))
    rw [if_neg hT] at hi
    split at hi
    · rename_i hov
      cases hi
      rw [hp]
      refine ⟨by simp, by simp, fun q hq => ?_⟩
      cases hq
      refine ⟨hend, hp, .inr (.inr (.inl ?_))⟩
      intro e
      rw [e] at hov
      simp at hov
    · have hb : kExpand A [] cur A.moves (popT A cfg T st cur o).bare =
          (kExpand A [] cur A.moves (kTest A T (popT A cfg T st cur o) cur)).bind fun s => .ok s.bare := by
        rw [← p5]
        exact kExpand_withCands _ _ _ _ _ _
      obtain ⟨hx, _, _, _, hct⟩ :=
        khpop_spec (cfg := tCfg cfg T st.kin) (st := st.bare) (h.inv.recfg rfl rfl) hn (B := A.alg st.s.lab st.kin)
      have hX : KHInv A cs L (tCfg cfg T st.kin) S lab0 kin0 (todo cur A.moves) noTest (popT A cfg T st cur o).bare := by
        refine hx.same (s' := (popT A cfg T st cur o).bare.s) (fun m => ⟨rfl, rfl, Iff.rfl⟩) (fun n hn' => hn') hx.cands hx.candGood ?_ ?_
        · intro u hu
          rcases hx.relaxed u hu with h1 | h1
          · exact .inl h1
          · right
            intro mv hmv
            rcases h1 mv hmv with h2 | h2
            · exact .inl ⟨h2, hmv⟩
            · exact .inr h2
        · intro _ u _
          right; right
          intro g hg
          cases hg
      have hE := khExpand_spec ok A.moves (popT A cfg T st cur o).bare (fun m hm => hm) hX
        ((touched_congr (hoth cur)).2 hct)
      change (match kExpand A [] cur A.moves (popT A cfg T st cur o).bare with
        | .ok st' => _ | .throw e => MapThrows A cfg.start kin0 e | .ub => MapUb A cfg.start kin0) at hE
      rw [hb] at hE
      cases hk : kExpand A [] cur A.moves (kTest A T (popT A cfg T st cur o) cur) with
      | throw e =>
        rw [hk] at hi hE
        cases hi
        exact ⟨fun e' he' => by cases he'; exact hE, by simp, by simp⟩
      | ub =>
        rw [hk] at hi hE
        cases hi
        exact ⟨by simp, fun _ => hE, by simp⟩
      | ok st2 => rw [hk] at hi; cases hi

theorem thInit_inv (hh : KHist A cs S lab0) (hS : ∀ s ∈ cfg.start, s ∈ S) :
    THInv A cs L cfg T S lab0 kin0 (kInitOn A P cfg lab0 kin0) := by
  obtain ⟨h1, h2⟩ := khInit_inv (P := P) (L := L) (kin0 := kin0) (cfg := { cfg with goal := [] }) hh hS
  have e : kInitOn A P { cfg with goal := [] } lab0 kin0 = kInitOn A P cfg lab0 kin0 := rfl
  rw [e] at h1 h2
  have hb : KHInv A cs L { cfg with goal := [] } S lab0 kin0 noMove noTest (kInitOn A P cfg lab0 kin0).bare :=
    h1.same (s' := (kInitOn A P cfg lab0 kin0).bare.s) (fun m => ⟨rfl, rfl, Iff.rfl⟩) (fun n hn => hn)
      (by intro x hx; cases hx) (by intro x hx; cases hx) h1.relaxed
      (fun _ u _ => .inr (.inr (by intro g hg; cases hg)))
  refine ⟨hb, ?_, ?_, ?_⟩
  · intro x hx; rw [h2] at hx; cases hx
  · intro x hx; rw [h2] at hx; cases hx
  · intro n hn hnm
    exfalso
    have key : ∀ (ss : List N) (st : SSt N C P), (∀ n, n ∉ ss →
        ((ss.foldl (addStart (A.alg lab0 kin0)) st).lab n).dist = (st.lab n).dist) ∧
        ∀ n, n ∈ ss ∨ L.mem st.opn n → L.mem (ss.foldl (addStart (A.alg lab0 kin0)) st).opn n := by
      intro ss
      induction ss with
      | nil => intro st; exact ⟨fun n _ => rfl, fun n hn => hn.resolve_left (by simp)⟩
      | cons s ss ih =>
        intro st
        obtain ⟨i1, i2⟩ := ih (addStart (A.alg lab0 kin0) st s)
        refine ⟨fun n hn => ?_, fun n hn => ?_⟩
        · simp only [List.mem_cons, not_or] at hn
          simp only [List.foldl_cons]
          rw [i1 n hn.2]
          rw [show (addStart (A.alg lab0 kin0) st s).lab n = st.lab n from setLab_ne _ _ hn.1]
        · simp only [List.foldl_cons]
          refine i2 n ?_
          by_cases e : n ∈ ss
          · exact .inl e
          · right
            refine (L.add_mem _ _ _ _).2 ?_
            rcases hn with hn | hn
            · rcases List.mem_cons.1 hn with e2 | e2
              · exact .inl e2
              · exact absurd e2 e
            · exact .inr hn
    obtain ⟨k1, k2⟩ := key cfg.start { lab := lab0, opn := P.empty, cands := [], firstW := (A.zero : WithTop C), expansions := 0, multi := 0, touched := 0, updates := 0 }
    by_cases hs : n ∈ cfg.start
    · exact hnm (k2 n (.inl hs))
    · rcases hn with hn | hn
      · exact hs hn
      · rw [show ((kInitOn A P cfg lab0 kin0).s.lab n).dist = (lab0 n).dist from k1 n hs] at hn
        exact lt_irrefl _ hn

/-- Every run ends, correctly. -/
theorem thLoop_spec (ok : KCostOk A cs) (ht : TopOk cfg.top) (st : KSt N K C P) (h : THInv A cs L cfg T S lab0 kin0 st) :
    ∃ fuel r st', kLoopT A cfg T fuel st = some (r, st') ∧ THDone A cs L cfg T S lab0 kin0 r st' := by
  cases hi : kIterateT A cfg T st with
  | done r st' => exact ⟨1, r, st', by rw [kLoopT, hi], h.done ok ht hi⟩
  | more st' =>
    have h4 := (h.more ok ht hi).2
    obtain ⟨fuel, r, st2, h5, h6⟩ := thLoop_spec ok ht st' (h.more ok ht hi).1
    exact ⟨fuel + 1, r, st2, by rw [kLoopT, hi]; exact h5, h6⟩
termination_by (potential (A.full cs (fun _ => Label.fresh A.zero) kin0) st.s.lab, L.size st.s.opn)
decreasing_by
  rcases h4 with h4 | ⟨h4, h5⟩
  · exact Prod.Lex.left _ _ h4
  · rw [h4]; exact Prod.Lex.right _ h5

/-- A finished later search with a goal test, taken apart. -/
theorem kFindTestOn_done (ok : KCostOk A cs) (L : Lawful P) (ht : TopOk cfg.top) (hu : KUsed A cs P S lab0) {fuel : Nat}
    {r : CRes (List N)} {st : KSt N K C P} (hrun : kFindTestOn A P cfg T lab0 kin0 fuel = some (r, st)) :
    THDone A cs L cfg T (cfg.start ++ S) lab0 kin0 r st := by
  have hh : KHist A cs (cfg.start ++ S) lab0 := fun l k =>
    (KUsed_hist L hu l k).mono fun s hs => List.mem_append_right _ hs
  obtain ⟨f, r', st', h1, h2⟩ := thLoop_spec (L := L) ok ht _
    (thInit_inv (T := T) (kin0 := kin0) hh fun s hs => List.mem_append_left _ hs)
  have := kLoopT_fuel _ _ _ _ _ hrun h1
  simp only [Prod.mk.injEq] at this
  obtain ⟨e1, e2⟩ := this
  subst e1; subst e2
  exact h2

end PathPlanning
