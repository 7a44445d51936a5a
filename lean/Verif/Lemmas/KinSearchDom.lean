import Verif.Lemmas.KinSearchMono
import Verif.Spec.KinDom

/-!
# What a search without heuristic has settled when it ends

Without heuristic the expanded nodes keep their pose, their predecessor and their distance.
-/

namespace PathPlanning
open Spec
set_option linter.unusedSectionVars false

variable {N K C : Type} [DecidableEq N] [LinearOrder C] [Fintype N]
variable {P : OpenList N C}
variable {A : KAlgo N K C} {cs : List C} {M : MinFirst P} {cfg : SCfg N C} {kin0 : N → K}

/-- Expanded nodes are the same in both states, and are not changed. -/
structure Frozen (a b : KSt N K C P) : Prop where
  cl : ∀ u, (b.s.lab u).closed = (a.s.lab u).closed
  prev : ∀ u, (a.s.lab u).closed = true → (b.s.lab u).prev = (a.s.lab u).prev
  kin : ∀ u, (a.s.lab u).closed = true → b.kin u = a.kin u

theorem Frozen.refl (a : KSt N K C P) : Frozen a a := ⟨fun _ => rfl, fun _ _ => rfl, fun _ _ => rfl⟩

theorem Frozen.trans {a b c : KSt N K C P} (h : Frozen a b) (h' : Frozen b c) : Frozen a c :=
  ⟨fun u => (h'.cl u).trans (h.cl u), fun u hu => (h'.prev u (by rw [h.cl u]; exact hu)).trans (h.prev u hu),
    fun u hu => (h'.kin u (by rw [h.cl u]; exact hu)).trans (h.kin u hu)⟩

theorem kTry_frozen (ok : KCostOk A cs) {st : KSt N K C P} {cur : N} {mv} (hmv : mv ∈ A.moves)
    (hC : KCore A cs cfg.start st.s.lab) {p1 : N → (K → List K → Option (C × K)) → Prop}
    (h : KMono A M cfg kin0 p1 st) (hcur : (st.s.lab cur).closed = true)
    (hf : Front st cur ∨ ¬ p1 cur mv) {st' : KSt N K C P} (hk : kTry A cfg.goal cur mv st = .ok st') :
    Frozen st st' := by
  have hC' := hC st.s.lab st.kin
  unfold kTry at hk
  cases hm : mv (st.kin cur) (kPreds st.s.lab st.kin cur A.predDepth) with
  | none =>
    rw [hm] at hk
    simp only [CRes.ok.injEq] at hk
    subst hk; exact .refl _
  | some ck =>
    obtain ⟨c, k⟩ := ck
    rw [hm] at hk
    simp only at hk
    cases hus : A.usable (st.kin cur) k with
    | throw e => rw [hus] at hk; cases hk
    | ub => rw [hus] at hk; cases hk
    | ok b =>
      rw [hus] at hk
      simp only [CRes.bind] at hk
      cases b with
      | false =>
        simp only [Bool.false_eq_true, if_false, CRes.ok.injEq] at hk
        subst hk; exact .refl _
      | true =>
        simp only [if_true] at hk
        cases hlk : A.lookup k with
        | throw e => rw [hlk] at hk; cases hk
        | ub => rw [hlk] at hk; cases hk
        | ok r =>
          rw [hlk] at hk
          simp only at hk
          cases r with
          | none =>
            simp only [CRes.ok.injEq] at hk
            subst hk; exact .refl _
          | some n =>
            simp only at hk
            have hcs : c ∈ cs := ok.costs mv hmv _ _ _ _ hm
            have hu : (st.s.lab cur).dist ≠ ⊤ := (hC'.reach cur).2 (.inr hcur)
            obtain ⟨c1, c2, c3, hcase⟩ := process_cases_reach (A := A.alg st.s.lab st.kin)
              (goal := cfg.goal) (c := c) (hC'.reach n) hu
            have haddn := processAdds_iff (A := A) (c := c) (hC'.reach n) hu
            generalize processNeighbor (A.alg st.s.lab st.kin) cfg.goal st.s cur n c = s' at *
            simp only [KAlgo.alg_addW] at hcase
            rcases hcase with ⟨hncl, hop, hsame⟩ | ⟨hcl, hop, hv, hvc, _, hother⟩
            · have : processAdds A st.s cur n c = false := by
                rw [← Bool.not_eq_true, haddn]; exact hncl
              rw [this] at hk
              simp only [Bool.false_eq_true, if_false, CRes.ok.injEq] at hk
              subst hk
              exact ⟨fun u => (hsame u).1.2.2.2, fun u _ => (hsame u).1.2.1, fun u _ => rfl⟩
            · have hF : Front st cur := by
                rcases hf with hf | hf
                · exact hf
                · rcases h.relaxed cur hcur mv hmv with h1 | h1
                  · exact absurd h1 hf
                  · exact absurd (h1 c k n hm hus hlk) (not_le.2 hcl)
              rw [haddn.2 hcl] at hk
              simp only [if_true] at hk
              have hne : n ≠ cur := by
                rintro rfl
                exact absurd (ok.le_addW hcs _) (not_le.2 hcl)
              rw [if_neg hne] at hk
              simp only [CRes.ok.injEq] at hk
              subst hk
              have hnclosed : (st.s.lab n).closed = false := by
                rw [← Bool.not_eq_true]
                intro hc
                exact absurd ((hF n hc).trans (ok.le_addW hcs _)) (not_le.2 hcl)
              have hne' : ∀ u, (st.s.lab u).closed = true → u ≠ n := by
                intro u hu' e
                rw [e, hnclosed] at hu'; cases hu'
              refine ⟨?_, ?_, ?_⟩
              · intro u
                show (s'.lab u).closed = _
                by_cases e : u = n
                · subst e; exact hvc
                · rw [hother u e]
              · intro u hu'
                show (s'.lab u).prev = _
                rw [hother u (hne' u hu')]
              · intro u hu'
                simp [hne' u hu']

theorem kExpand_frozen {L : Lawful P} (ok : KCostOk A cs) (hheur : ∀ k g, A.heur k g = A.zero)
    (hadd : ∀ a, A.add a A.zero = a) {cur : N} :
    ∀ (ms : List (K → List K → Option (C × K))) (st : KSt N K C P), (∀ mv ∈ ms, mv ∈ A.moves) →
      KInv A cs L cfg kin0 (todo cur ms) st →
      ((st.s.lab cur).closed = true ∧ (st.s.lab cur).opn = false) →
      ((Front st cur ∧ KMono A M cfg kin0 (todo cur ms) st) ∨ KMono A M cfg kin0 nopend st) →
    ∀ st', kExpand A cfg.goal cur ms st = .ok st' → Frozen st st' := by
  intro ms
  induction ms with
  | nil =>
    intro st _ _ _ h st' hk
    cases hk
    exact .refl _
  | cons mv ms ih =>
    intro st hsub hI hcur h st' hk
    rw [kExpand] at hk
    have hmv := hsub mv (by simp)
    have h1 := kTry_spec ok hmv hI hcur
    have hfresh : Front st cur → KMono A M cfg kin0 (todo cur (mv :: ms)) st → _ := fun hF hM =>
      kTry_mono (p2 := todo cur ms) ok hheur hadd hmv hI.core hM hcur.1 hI.cands (by
        intro u mv' hp
        obtain ⟨e, hm⟩ := hp
        rcases List.mem_cons.1 hm with e2 | hm
        · exact .inr ⟨e, e2⟩
        · exact .inl ⟨e, hm⟩) (.inl hF)
    have hstale : KMono A M cfg kin0 nopend st → _ := fun hM =>
      kTry_mono (p2 := nopend) ok hheur hadd hmv hI.core hM hcur.1 hI.cands (fun u mv' hp => hp.elim)
        (.inr id)
    cases hk1 : kTry A cfg.goal cur mv st with
    | throw e => rw [hk1] at hk; cases hk
    | ub => rw [hk1] at hk; cases hk
    | ok st1 =>
      rw [hk1] at hk h1 hfresh hstale
      simp only [CRes.bind] at hk
      have hfz : Frozen st st1 := by
        rcases h with ⟨hF, hM⟩ | hM
        · exact kTry_frozen ok hmv hI.core hM hcur.1 (.inl hF) hk1
        · exact kTry_frozen ok hmv hI.core hM hcur.1 (.inr id) hk1
      refine hfz.trans (ih st1 (fun m hm => hsub m (List.mem_cons_of_mem _ hm)) h1.1
        (by rw [h1.2.curLab.2.1, h1.2.curLab.2.2]; exact hcur) ?_ st' hk)
      rcases h with ⟨hF, hM⟩ | hM
      · obtain ⟨g1, g2⟩ := hfresh hF hM
        exact .inl ⟨g2 hF, g1⟩
      · exact .inr (hstale hM).1

/-- Node `u` has failed the goal test with its present pose, against a pose every goal node had at that time. -/
def TestedAt (A : KAlgo N K C) (cfg : SCfg N C) (kin0 : N → K) (st : KSt N K C P) (u : N) : Prop :=
  ∀ g ∈ cfg.goal, ∃ kg, GoalHas A cfg.start kin0 g kg ∧
    A.isGoal kg (st.kin u) ((st.s.lab u).prev.map st.kin) = false

/-- What is settled at the end: all nodes closer than `d` have been expanded and tested. -/
structure DomEnd (A : KAlgo N K C) (cs : List C) (cfg : SCfg N C) (kin0 : N → K) (d : WithTop C)
    (st : KSt N K C P) : Prop where
  core : KCore A cs cfg.start st.s.lab
  startKin : ∀ s ∈ cfg.start, st.kin s = kin0 s
  kedge : ∀ n, n ∉ cfg.start → (st.s.lab n).dist ≠ ⊤ → KEdge A cfg.start kin0 st.s.lab st.kin n
  edge : ∀ n, n ∉ cfg.start → (st.s.lab n).dist ≠ ⊤ → XEdge A st.s.lab st.kin n
  relaxed : ∀ u, (st.s.lab u).dist < d → ∀ mv ∈ A.moves, ∀ c k v,
    mv (st.kin u) (kPreds st.s.lab st.kin u A.predDepth) = some (c, k) →
    A.usable (st.kin u) k = .ok true → A.lookup k = .ok (some v) →
    (st.s.lab v).dist ≤ A.addW (st.s.lab u).dist c
  tested : ∀ u, (st.s.lab u).dist < d → TestedAt A cfg kin0 st u

/-- The end of a run without heuristic and without goal candidates. -/
def DomDone (A : KAlgo N K C) (cs : List C) (cfg : SCfg N C) (kin0 : N → K) (r : CRes (List N))
    (st : KSt N K C P) : Prop :=
  ∀ p, r = .ok p → (p = [] ∧ ((∃ i, cfg.abort i = true) ∨ DomEnd A cs cfg kin0 ⊤ st)) ∨
    ∃ n, ∃ B : Algo N C, ∃ d, (st.s.lab n).dist ≠ ⊤ ∧ Back B cfg.start st.s.lab n p d ∧
      DomEnd A cs cfg kin0 (st.s.lab n).dist st

theorem kIterate_dom {L : Lawful P} (ok : KCostOk A cs) (ht : TopOk cfg.top) (hheur : ∀ k g, A.heur k g = A.zero) (hhg : cfg.heurGoal = none)
    (hadd : ∀ a, A.add a A.zero = a) (huse : cfg.useCands = false) {st : KSt N K C P}
    (h : KInv A cs L cfg kin0 nopend st) (hnoc : st.s.cands = []) (hM : KMono A M cfg kin0 nopend st)
    (hT : ∀ u, (st.s.lab u).closed = true → TestedAt A cfg kin0 st u) :
    match kIterate A cfg st with
    | .more st' => ∀ u, (st'.s.lab u).closed = true → TestedAt A cfg kin0 st' u
    | .done r st' => DomDone A cs cfg kin0 r st' := by
  unfold kIterate
  have hfin0 : finish cfg st.s = .ok [] := by
    rcases finish_spec (A := A.full cs st.s.lab st.kin) ht (h.core st.s.lab st.kin) h.cands with
      ⟨_, h2⟩ | ⟨x, l, d, h1, _⟩
    · exact h2
    · rw [hnoc] at h1; cases h1
  cases hn : P.next st.s.opn with
  | none =>
    simp only
    rw [hfin0]
    intro p hp
    cases hp
    refine .inl ⟨rfl, .inr ?_⟩
    have hclosed : ∀ u, (st.s.lab u).dist < ⊤ → (st.s.lab u).closed = true := by
      intro u hu
      rcases ((h.core st.s.lab st.kin).reach u).1 hu.ne with h1 | h1
      · exact absurd (h.openMem u h1) ((L.next_none _).1 hn u)
      · exact h1
    refine ⟨h.core, h.startKin, h.edge, hM.edge, ?_, fun u hu => hT u (hclosed u hu)⟩
    intro u hu mv hmv
    rcases hM.relaxed u (hclosed u hu) mv hmv with h1 | h1
    · exact h1.elim
    · exact h1
  | some co =>
    obtain ⟨cur, o⟩ := co
    simp only
    by_cases hab : cfg.abort st.s.expansions = true
    · rw [if_pos hab, hfin0]
      intro p hp
      cases hp
      exact .inl ⟨rfl, .inl ⟨_, hab⟩⟩
    · rw [if_neg hab]
      obtain ⟨k0, hent, hmin, _, _⟩ := M.next_some _ _ _ hn
      obtain ⟨hx, hd, hp, hoth, hcs, hf, he, hopn1⟩ := kpop_spec h hn (B := A.alg st.s.lab st.kin)
      have hpm := kpop_mono hheur hhg h hM hn
      simp only at hpm
      have hcl1 : ∀ u, u ≠ cur → (popNode (A.alg st.s.lab st.kin) cfg st.s cur o).lab u = st.s.lab u :=
        fun u hu => setLab_ne _ _ hu
      generalize popNode (A.alg st.s.lab st.kin) cfg st.s cur o = s1 at *
      have hC := hx.core s1.lab st.kin
      obtain ⟨t, ht1, hlab, hopn, hexp, hmono, hcand, hnoc1, hterm, hnot, _, _⟩ :=
        goalLoop_spec (A := A.full cs s1.lab st.kin) (cfg := A.cfg cfg st.kin) (P := P) (cur := cur)
          cfg.goal s1 (fun g hg => hg) hC hx.curOk.1
      rw [goalLoop_full A cs]
      rw [ht1]
      simp only
      have hgk : ∀ g, GoalHas A cfg.start kin0 g (st.kin g) := fun g => (h.goalKin g).imp id And.right
      have htc : t.st.cands = [] := by rw [hnoc1 huse, hcs, hnoc]
      -- nodes other than `cur` keep their test results
      have hold : ∀ u, u ≠ cur → (s1.lab u).closed = true →
          TestedAt A cfg kin0 { s := t.st, kin := st.kin } u := by
        intro u hu hc g hg
        rw [hcl1 u hu] at hc
        obtain ⟨kg, h1, h2⟩ := hT u hc g hg
        refine ⟨kg, h1, ?_⟩
        show A.isGoal kg (st.kin u) ((t.st.lab u).prev.map st.kin) = false
        rw [hlab, hcl1 u hu]; exact h2
      by_cases hTm : t.term = true
      · rw [if_pos hTm]
        obtain ⟨d, hb, g, hg, hgg⟩ := hterm hTm
        rw [if_pos hb.ne_nil]
        intro p hp'
        cases hp'
        right
        refine ⟨cur, A.full cs s1.lab st.kin, d, ?_, ?_, ?_⟩
        · show (t.st.lab cur).dist ≠ ⊤
          rw [hlab]; exact (hC.reach _).2 (.inr hx.curOk.1)
        · show Back _ cfg.start t.st.lab cur t.result d
          rw [hlab]; exact hb
        · have hopen : ∀ u, (st.s.lab u).opn = true → (st.s.lab cur).dist ≤ (st.s.lab u).dist := fun u hu =>
            (hM.entKey cur k0 hent).trans (hmin u _ (hM.openEnt u hu))
          have hne : ∀ u, (t.st.lab u).dist < (t.st.lab cur).dist → u ≠ cur ∧ (st.s.lab u).closed = true := by
            intro u hu
            rw [hlab, hd, hd] at hu
            have e : u ≠ cur := fun e => by rw [e] at hu; exact lt_irrefl _ hu
            refine ⟨e, ?_⟩
            rcases ((h.core st.s.lab st.kin).reach u).1 (ne_top_of_lt hu) with h1 | h1
            · exact absurd (hopen u h1) (not_le.2 hu)
            · exact h1
          refine ⟨?_, h.startKin, ?_, ?_, ?_, ?_⟩
          · show KCore A cs cfg.start t.st.lab
            rw [hlab]; exact hx.core
          · show ∀ n, n ∉ cfg.start → (t.st.lab n).dist ≠ ⊤ → KEdge A cfg.start kin0 t.st.lab st.kin n
            rw [hlab]; exact hx.edge
          · show ∀ n, n ∉ cfg.start → (t.st.lab n).dist ≠ ⊤ → XEdge A t.st.lab st.kin n
            rw [hlab]
            rcases hpm with ⟨_, q⟩ | q
            · exact q.edge
            · exact q.edge
          · intro u hu mv hmv
            obtain ⟨e, hc⟩ := hne u hu
            have hc1 : (s1.lab u).closed = true := by rw [hcl1 u e]; exact hc
            show ∀ c k v, mv (st.kin u) (kPreds t.st.lab st.kin u A.predDepth) = some (c, k) →
              A.usable (st.kin u) k = .ok true → A.lookup k = .ok (some v) →
              (t.st.lab v).dist ≤ A.addW (t.st.lab u).dist c
            rw [hlab]
            rcases hpm with ⟨_, q⟩ | q
            · rcases q.relaxed u hc1 mv hmv with h1 | h1
              · exact absurd h1.1 e
              · exact h1
            · rcases q.relaxed u hc1 mv hmv with h1 | h1
              · exact h1.elim
              · exact h1
          · intro u hu
            obtain ⟨e, hc⟩ := hne u hu
            exact hold u e (by rw [hcl1 u e]; exact hc)
      · rw [if_neg hTm]
        have hov : ¬ (cfg.useCands && !t.st.cands.isEmpty &&
            decide ((A.alg t.st.lab st.kin).addW t.st.firstW cfg.oversearch <
              (A.alg t.st.lab st.kin).total (t.st.lab cur))) = true := by simp [huse]
        rw [if_neg hov]
        have hX : KInv A cs L cfg kin0 (todo cur A.moves) { s := t.st, kin := st.kin } :=
          hx.afterTest hlab hopn hmono (by rw [htc]; simp) (by rw [htc]; simp) (fun g hg hgg e => by
            have := (hnot (by simpa using hTm) g hg hgg).2
            rw [e] at this; cases this)
        -- the invariant after the goal test
        have hall : ∀ pend, KMono A M cfg kin0 pend { s := s1, kin := st.kin } →
            KMono A M cfg kin0 pend { s := t.st, kin := st.kin } := by
          intro pend q
          refine ⟨?_, ?_, ?_, ?_, ?_, ?_, ?_, ?_, ?_⟩
          · show ∀ n, (t.st.lab n).h = A.zero
            rw [hlab]; exact q.hz
          · show ∀ n k, M.ent t.st.opn n k → (t.st.lab n).dist ≤ k
            rw [hlab, hopn]; exact q.entKey
          · show ∀ n, (t.st.lab n).opn = true → M.ent t.st.opn n (t.st.lab n).dist
            rw [hlab, hopn]; exact q.openEnt
          · show ∀ u, (t.st.lab u).closed = true → ∀ n k, M.ent t.st.opn n k → (t.st.lab u).dist ≤ k
            rw [hlab, hopn]; exact q.bound
          · show ∀ n, (t.st.lab n).closed = true → (t.st.lab n).opn = false
            rw [hlab]; exact q.sep
          · show ∀ n p, (t.st.lab n).prev = some p → (t.st.lab p).closed = true
            rw [hlab]; exact q.prevClosed
          · show ∀ n, n ∉ cfg.start → (t.st.lab n).dist ≠ ⊤ → XEdge A t.st.lab st.kin n
            rw [hlab]; exact q.edge
          · show ∀ u, (t.st.lab u).closed = true → ∀ mv ∈ A.moves, pend u mv ∨
              ∀ c k v, mv (st.kin u) (kPreds t.st.lab st.kin u A.predDepth) = some (c, k) → _ → _ →
                (t.st.lab v).dist ≤ A.addW (t.st.lab u).dist c
            rw [hlab]; exact q.relaxed
          · intro x hx1
            have hx2 : x ∈ t.st.cands := hx1
            rw [htc] at hx2; cases hx2
        have hcase : (Front { s := t.st, kin := st.kin } cur ∧
            KMono A M cfg kin0 (todo cur A.moves) { s := t.st, kin := st.kin }) ∨
            KMono A M cfg kin0 nopend { s := t.st, kin := st.kin } := by
          rcases hpm with ⟨hF, q⟩ | q
          · left
            refine ⟨?_, hall _ q⟩
            show ∀ u, (t.st.lab u).closed = true → (t.st.lab u).dist ≤ (t.st.lab cur).dist
            rw [hlab]; exact hF
          · exact .inr (hall _ q)
        have hprevC : ∀ n p, (t.st.lab n).prev = some p → (t.st.lab p).closed = true := by
          rcases hcase with ⟨_, q⟩ | q
          · exact q.prevClosed
          · exact q.prevClosed
        cases hk : kExpand A cfg.goal cur A.moves { s := t.st, kin := st.kin } with
        | throw e => intro p hp; cases hp
        | ub => intro p hp; cases hp
        | ok st' =>
          have hfz := kExpand_frozen (M := M) ok hheur hadd A.moves { s := t.st, kin := st.kin }
            (fun m hm => hm) hX
            (by show (t.st.lab cur).closed = true ∧ (t.st.lab cur).opn = false; rw [hlab]; exact hx.curOk)
            hcase st' hk
          intro u hu
          rw [hfz.cl u] at hu
          have hu1 : (t.st.lab u).closed = true := hu
          have hmid : TestedAt A cfg kin0 { s := t.st, kin := st.kin } u := by
            by_cases e : u = cur
            · intro g hg
              refine ⟨st.kin g, hgk g, ?_⟩
              show A.isGoal (st.kin g) (st.kin u) ((t.st.lab u).prev.map st.kin) = false
              rw [hlab, e, ← Bool.not_eq_true]
              intro hgg
              have := (hnot (by simpa using hTm) g hg hgg).1
              rw [show (A.cfg cfg st.kin).useCands = cfg.useCands from rfl, huse] at this
              cases this
            · exact hold u e (by rw [← hlab]; exact hu1)
          intro g hg
          obtain ⟨kg, h1, h2⟩ := hmid g hg
          refine ⟨kg, h1, ?_⟩
          rw [hfz.kin u hu1, hfz.prev u hu1]
          have hpv : ((t.st.lab u).prev.map st'.kin) = ((t.st.lab u).prev.map st.kin) := by
            cases hpu : (t.st.lab u).prev with
            | none => rfl
            | some p =>
              simp only [Option.map_some]
              rw [hfz.kin p (hprevC u p hpu)]
          show A.isGoal kg (st.kin u) ((t.st.lab u).prev.map st'.kin) = false
          rw [hpv]; exact h2

theorem kLoop_dom (L : Lawful P) (ok : KCostOk A cs) (ht : TopOk cfg.top)
    (hheur : ∀ k g, A.heur k g = A.zero) (hhg : cfg.heurGoal = none)
    (hadd : ∀ a, A.add a A.zero = a) (huse : cfg.useCands = false) :
    ∀ (fuel : Nat) (st : KSt N K C P), KInv A cs L cfg kin0 nopend st → st.s.cands = [] →
      KMono A M cfg kin0 nopend st → (∀ u, (st.s.lab u).closed = true → TestedAt A cfg kin0 st u) →
      ∀ r st', kLoop A cfg fuel st = some (r, st') → DomDone A cs cfg kin0 r st' := by
  intro fuel
  induction fuel with
  | zero => intro st _ _ _ _ r st' h; simp [kLoop] at h
  | succ fuel ih =>
    intro st hI noc hM hT r st' h
    have h1 := kIterate_spec ok ht hI (fun _ => noc)
    have h2 := kIterate_mono ok ht hheur hhg hadd hI hM
    have h3 := kIterate_dom ok ht hheur hhg hadd huse hI noc hM hT
    rw [kLoop] at h
    cases hi : kIterate A cfg st with
    | done r1 st1 =>
      rw [hi] at h h3
      simp only [Option.some.injEq, Prod.mk.injEq] at h
      rw [← h.1, ← h.2]; exact h3
    | more st1 =>
      rw [hi] at h h1 h2 h3
      exact ih st1 h1.1 (h1.2.1 huse) h2 h3 r st' h

end PathPlanning
