import Verif.Lemmas.KinSearchDom
import Verif.Lemmas.SearchWork

/-!
# Counting the work of a search that stores poses in its nodes
-/

namespace PathPlanning
open Spec
set_option linter.unusedSectionVars false

variable {N K C : Type} [DecidableEq N] [LinearOrder C] [Fintype N]
variable {P : OpenList N C}
variable {A : KAlgo N K C} {cs : List C} {M : MinFirst P} {cfg : SCfg N C} {kin0 : N → K} {Q : Counts P}

/-! ### What holds with every heuristic -/

/-- A try leaves the state of the search alone or processes one neighbour. -/
theorem kTry_process {goal : List N} {cur : N} {mv} {st st' : KSt N K C P} (hk : kTry A goal cur mv st = .ok st') :
    st'.s = st.s ∨ ∃ n c, st'.s = processNeighbor (A.alg st.s.lab st.kin) goal st.s cur n c := by
  unfold kTry at hk
  cases hm : mv (st.kin cur) (kPreds st.s.lab st.kin cur A.predDepth) with
  | none =>
    rw [hm] at hk
    simp only [CRes.ok.injEq] at hk
    subst hk; exact .inl rfl
  | some ck =>
    obtain ⟨c, k⟩ := ck
    rw [hm] at hk
    simp only at hk
    cases hus : A.usable (st.kin cur) k with
    | throw e => rw [hus] at hk; cases hk
    | ub => rw [hus] at hk; cases hk
    | ok b =>
      rw [hus] at hk
      simp only [CRes.bind] at hk
      cases b with
      | false =>
        simp only [Bool.false_eq_true, if_false, CRes.ok.injEq] at hk
        subst hk; exact .inl rfl
      | true =>
        simp only [if_true] at hk
        cases hlk : A.lookup k with
        | throw e => rw [hlk] at hk; cases hk
        | ub => rw [hlk] at hk; cases hk
        | ok r =>
          rw [hlk] at hk
          simp only at hk
          cases r with
          | none =>
            simp only [CRes.ok.injEq] at hk
            subst hk; exact .inl rfl
          | some n =>
            simp only at hk
            right
            refine ⟨n, c, ?_⟩
            by_cases hp : processAdds A st.s cur n c = true
            · rw [if_pos hp] at hk
              by_cases e : n = cur
              · rw [if_pos e] at hk; cases hk
              · rw [if_neg e] at hk; cases hk; rfl
            · rw [if_neg hp] at hk; cases hk; rfl

theorem Balance.kExpand {s0 e0 : Nat} {goal : List N} {cur : N} : ∀ (ms : List (K → List K → Option (C × K))) (st st' : KSt N K C P),
    Balance Q s0 e0 st.s → kExpand A goal cur ms st = .ok st' → Balance Q s0 e0 st'.s := by
  intro ms
  induction ms with
  | nil => intro st st' h hk; cases hk; exact h
  | cons mv ms ih =>
    intro st st' h hk
    rw [PathPlanning.kExpand] at hk
    cases hk1 : kTry A goal cur mv st with
    | throw e => rw [hk1] at hk; cases hk
    | ub => rw [hk1] at hk; cases hk
    | ok st1 =>
      rw [hk1] at hk
      simp only [CRes.bind] at hk
      refine ih st1 st' ?_ hk
      rcases kTry_process hk1 with e | ⟨n, c, e⟩
      · rw [e]; exact h
      · rw [e]; exact h.process _ _ _ _

/-- The moves of an expansion insert at most one entry each and count nothing else. -/
theorem kExpand_touched {goal : List N} {cur : N} : ∀ (ms : List (K → List K → Option (C × K))) (st st' : KSt N K C P),
    kExpand A goal cur ms st = .ok st' → st'.s.expansions = st.s.expansions ∧ st'.s.multi = st.s.multi ∧
      st'.s.touched ≤ st.s.touched + ms.length ∧ ∀ m, (st'.s.lab m).expanded = (st.s.lab m).expanded := by
  intro ms
  induction ms with
  | nil => intro st st' hk; cases hk; exact ⟨rfl, rfl, by simp, fun _ => rfl⟩
  | cons mv ms ih =>
    intro st st' hk
    rw [PathPlanning.kExpand] at hk
    cases hk1 : kTry A goal cur mv st with
    | throw e => rw [hk1] at hk; cases hk
    | ub => rw [hk1] at hk; cases hk
    | ok st1 =>
      rw [hk1] at hk
      simp only [CRes.bind] at hk
      obtain ⟨i1, i2, i3, i4⟩ := ih st1 st' hk
      rw [List.length_cons]
      rcases kTry_process hk1 with e | ⟨n, c, e⟩
      · rw [e] at i1 i2 i3 i4
        exact ⟨i1, i2, by omega, i4⟩
      · obtain ⟨q1, q2, q3, q4⟩ := process_count (A := A.alg st.s.lab st.kin) goal st.s cur n c
        rw [← e] at q1 q2 q3 q4
        refine ⟨i1.trans q1, i2.trans q2, ?_, fun m => (i4 m).trans (q3 m)⟩
        rcases q4 with ⟨_, h, _⟩ | ⟨_, _, h, _⟩ <;> omega

/-- One iteration of the loop, taken apart. -/
theorem kIterate_cases (st : KSt N K C P) :
    (∃ st', kIterate A cfg st = .more st' ∧ ∃ cur o t, P.next st.s.opn = some (cur, o) ∧ cfg.abort st.s.expansions = false ∧
      goalLoop (A.alg (popNode (A.alg st.s.lab st.kin) cfg st.s cur o).lab st.kin) (A.cfg cfg st.kin) cur cfg.goal
        (popNode (A.alg st.s.lab st.kin) cfg st.s cur o) = .ok t ∧ t.term = false ∧
      kExpand A cfg.goal cur A.moves { s := t.st, kin := st.kin } = .ok st') ∨
    ∃ r st', kIterate A cfg st = .done r st' ∧ st'.kin = st.kin ∧ (st'.s = st.s ∨ ∃ cur o, P.next st.s.opn = some (cur, o) ∧
      (st'.s = popNode (A.alg st.s.lab st.kin) cfg st.s cur o ∨ ∃ t,
        goalLoop (A.alg (popNode (A.alg st.s.lab st.kin) cfg st.s cur o).lab st.kin) (A.cfg cfg st.kin) cur cfg.goal
          (popNode (A.alg st.s.lab st.kin) cfg st.s cur o) = .ok t ∧ st'.s = t.st)) := by
  unfold kIterate
  cases hn : P.next st.s.opn with
  | none => exact .inr ⟨_, _, rfl, rfl, .inl rfl⟩
  | some co =>
    obtain ⟨cur, o⟩ := co
    simp only
    cases hab : cfg.abort st.s.expansions with
    | true => exact .inr ⟨_, _, rfl, rfl, .inl rfl⟩
    | false =>
      simp only [Bool.false_eq_true, if_false]
      cases hg : goalLoop (A.alg (popNode (A.alg st.s.lab st.kin) cfg st.s cur o).lab st.kin) (A.cfg cfg st.kin) cur cfg.goal
          (popNode (A.alg st.s.lab st.kin) cfg st.s cur o) with
      | throw e => exact .inr ⟨_, _, rfl, rfl, .inr ⟨cur, o, rfl, .inl rfl⟩⟩
      | ub => exact .inr ⟨_, _, rfl, rfl, .inr ⟨cur, o, rfl, .inl rfl⟩⟩
      | ok t =>
        simp only
        cases htm : t.term with
        | true =>
          simp only [if_true]
          by_cases hr : t.result ≠ []
          · rw [if_pos hr]; exact .inr ⟨_, _, rfl, rfl, .inr ⟨cur, o, rfl, .inr ⟨t, hg, rfl⟩⟩⟩
          · rw [if_neg hr]; exact .inr ⟨_, _, rfl, rfl, .inr ⟨cur, o, rfl, .inr ⟨t, hg, rfl⟩⟩⟩
        | false =>
          simp only [Bool.false_eq_true, if_false]
          split
          · exact .inr ⟨_, _, rfl, rfl, .inr ⟨cur, o, rfl, .inr ⟨t, hg, rfl⟩⟩⟩
          · cases hk : kExpand A cfg.goal cur A.moves { st with s := t.st } with
            | throw e => exact .inr ⟨_, _, rfl, rfl, .inr ⟨cur, o, rfl, .inr ⟨t, hg, rfl⟩⟩⟩
            | ub => exact .inr ⟨_, _, rfl, rfl, .inr ⟨cur, o, rfl, .inr ⟨t, hg, rfl⟩⟩⟩
            | ok st' => exact .inl ⟨st', rfl, cur, o, t, rfl, trivial, hg, htm, hk⟩

theorem Balance.kIterate {s0 e0 : Nat} {st : KSt N K C P} (h : Balance Q s0 e0 st.s) :
    match kIterate A cfg st with
    | .more st' => Balance Q s0 e0 st'.s ∧ st'.s.expansions = st.s.expansions + 1
    | .done _ st' => Balance Q s0 e0 st'.s := by
  rcases kIterate_cases (A := A) (cfg := cfg) st with ⟨st', e, cur, o, t, hn, _, ht, _, hk⟩ | ⟨r, st', e, _, hc⟩
  · rw [e]
    obtain ⟨h1, h2, h3, h4, h5, h6⟩ := goalLoop_quiet _ _ _ _ _ ht
    have hp := (h.pop (A := A.alg st.s.lab st.kin) cfg hn).congr h1 h2 h3 h4 h5 h6
    refine ⟨Balance.kExpand A.moves _ _ hp hk, ?_⟩
    rw [(kExpand_touched A.moves _ _ hk).1]
    show t.st.expansions = _
    rw [h3]; rfl
  · rw [e]
    show Balance Q s0 e0 st'.s
    rcases hc with hc | ⟨cur, o, hn, hc | ⟨t, ht, hc⟩⟩
    · rw [hc]; exact h
    · rw [hc]; exact h.pop _ hn
    · obtain ⟨h1, h2, h3, h4, h5, h6⟩ := goalLoop_quiet _ _ _ _ _ ht
      rw [hc]; exact (h.pop (A := A.alg st.s.lab st.kin) cfg hn).congr h1 h2 h3 h4 h5 h6

theorem Balance.kLoop {s0 e0 : Nat} : ∀ (fuel : Nat) (st : KSt N K C P), Balance Q s0 e0 st.s →
    ∀ r st', kLoop A cfg fuel st = some (r, st') → Balance Q s0 e0 st'.s := by
  intro fuel
  induction fuel with
  | zero => intro st _ r st' h; simp [PathPlanning.kLoop] at h
  | succ fuel ih =>
    intro st hb r st' h
    have h1 := Balance.kIterate (A := A) (cfg := cfg) hb
    rw [PathPlanning.kLoop] at h
    cases hi : PathPlanning.kIterate A cfg st with
    | done r1 st1 =>
      rw [hi] at h h1
      simp only [Option.some.injEq, Prod.mk.injEq] at h
      rw [← h.2]; exact h1
    | more st1 =>
      rw [hi] at h h1
      exact ih st1 h1.1 r st' h

/-! ### Without heuristic -/

/-- What `processNeighbor` counts. -/
theorem process_touched {B : Algo N C} {goal : List N} {st : SSt N C P} {cur nb : N} {c : C}
    (hr : (st.lab nb).dist ≠ ⊤ ↔ ((st.lab nb).opn = true ∨ (st.lab nb).closed = true))
    (hu : (st.lab cur).dist ≠ ⊤) :
    (¬ B.addW (st.lab cur).dist c < (st.lab nb).dist → (processNeighbor B goal st cur nb c).touched = st.touched ∧
      (processNeighbor B goal st cur nb c).updates = st.updates) ∧
    (B.addW (st.lab cur).dist c < (st.lab nb).dist → (processNeighbor B goal st cur nb c).updates =
      if (st.lab nb).opn then st.updates + 1 else st.updates) := by
  have hlab0 : (setLab st.lab nb { st.lab nb with watched := true } cur).dist = (st.lab cur).dist := by
    by_cases e : cur = nb
    · subst e; simp [setLab]
    · simp [setLab, e]
  constructor
  · intro hn
    have hreach : (st.lab nb).opn = true ∨ (st.lab nb).closed = true := by
      rw [← hr]
      intro htop
      rw [htop] at hn
      exact hn (lt_top_iff_ne_top.2 (by rw [Ne, addW_eq_top]; exact hu))
    unfold processNeighbor
    simp only [hlab0, hn, decide_false, Bool.not_false, Bool.and_true, Bool.or_false]
    rcases hreach with h1 | h1
    · split <;> simp [h1]
    · simp [h1]
  · intro hcl
    unfold processNeighbor
    simp only [hlab0, hcl, decide_true, Bool.not_true, Bool.and_false, Bool.or_true, if_true, Bool.false_eq_true, if_false]

/-- The entries of the open list that are out of date are the updates that have not led to a repeated expansion yet. -/
def StaleCount (Q : Counts P) (st : KSt N K C P) : Prop :=
  Q.size st.s.opn + st.s.multi = (openNodes st.s.lab).card + st.s.updates

/-- One move of an expansion, without heuristic. -/
theorem kTry_count (ok : KCostOk A cs) {st : KSt N K C P} {cur : N} {mv} (hmv : mv ∈ A.moves)
    (hC : KCore A cs cfg.start st.s.lab) {p1 : N → (K → List K → Option (C × K)) → Prop}
    (h : KMono A M cfg kin0 p1 st) (hcur : (st.s.lab cur).closed = true)
    (hf : Front st cur ∨ ¬ p1 cur mv) (hs : StaleCount Q st) {st' : KSt N K C P} (hk : kTry A cfg.goal cur mv st = .ok st') :
    StaleCount Q st' ∧ (¬ p1 cur mv → st'.s.touched = st.s.touched) := by
  have hC' := hC st.s.lab st.kin
  unfold kTry at hk
  cases hm : mv (st.kin cur) (kPreds st.s.lab st.kin cur A.predDepth) with
  | none =>
    rw [hm] at hk
    simp only [CRes.ok.injEq] at hk
    subst hk; exact ⟨hs, fun _ => rfl⟩
  | some ck =>
    obtain ⟨c, k⟩ := ck
    rw [hm] at hk
    simp only at hk
    cases hus : A.usable (st.kin cur) k with
    | throw e => rw [hus] at hk; cases hk
    | ub => rw [hus] at hk; cases hk
    | ok b =>
      rw [hus] at hk
      simp only [CRes.bind] at hk
      cases b with
      | false =>
        simp only [Bool.false_eq_true, if_false, CRes.ok.injEq] at hk
        subst hk; exact ⟨hs, fun _ => rfl⟩
      | true =>
        simp only [if_true] at hk
        cases hlk : A.lookup k with
        | throw e => rw [hlk] at hk; cases hk
        | ub => rw [hlk] at hk; cases hk
        | ok r =>
          rw [hlk] at hk
          simp only at hk
          cases r with
          | none =>
            simp only [CRes.ok.injEq] at hk
            subst hk; exact ⟨hs, fun _ => rfl⟩
          | some n =>
            simp only at hk
            have hcs : c ∈ cs := ok.costs mv hmv _ _ _ _ hm
            have hu : (st.s.lab cur).dist ≠ ⊤ := (hC'.reach cur).2 (.inr hcur)
            obtain ⟨c1, c2, c3, hcase⟩ := process_cases_reach (A := A.alg st.s.lab st.kin)
              (goal := cfg.goal) (c := c) (hC'.reach n) hu
            obtain ⟨t1, t2⟩ := process_touched (B := A.alg st.s.lab st.kin) (goal := cfg.goal) (c := c) (hC'.reach n) hu
            obtain ⟨_, q2, _, _⟩ := process_count (A := A.alg st.s.lab st.kin) cfg.goal st.s cur n c
            have haddn := processAdds_iff (A := A) (c := c) (hC'.reach n) hu
            generalize processNeighbor (A.alg st.s.lab st.kin) cfg.goal st.s cur n c = s' at *
            simp only [KAlgo.alg_addW] at hcase t1 t2
            rcases hcase with ⟨hncl, hop, hsame⟩ | ⟨hcl, hop, hv, hvc, _, hother⟩
            · have : processAdds A st.s cur n c = false := by
                rw [← Bool.not_eq_true, haddn]; exact hncl
              rw [this] at hk
              simp only [Bool.false_eq_true, if_false, CRes.ok.injEq] at hk
              subst hk
              obtain ⟨t3, t4⟩ := t1 hncl
              refine ⟨?_, fun _ => t3⟩
              show Q.size s'.opn + s'.multi = (openNodes s'.lab).card + s'.updates
              have hon : openNodes s'.lab = openNodes st.s.lab := by
                unfold openNodes
                simp only [fun m => (hsame m).1.2.2.1]
              rw [hop, q2, t4, hon]; exact hs
            · have hrel : p1 cur mv := by
                rcases h.relaxed cur hcur mv hmv with h1 | h1
                · exact h1
                · exact absurd (h1 c k n hm hus hlk) (not_le.2 hcl)
              rw [haddn.2 hcl] at hk
              simp only [if_true] at hk
              have hne : n ≠ cur := by
                rintro rfl
                exact absurd (ok.le_addW hcs _) (not_le.2 hcl)
              rw [if_neg hne] at hk
              simp only [CRes.ok.injEq] at hk
              subst hk
              refine ⟨?_, fun hp => absurd hrel hp⟩
              show Q.size s'.opn + s'.multi = (openNodes s'.lab).card + s'.updates
              have hs' : Q.size st.s.opn + st.s.multi = (openNodes st.s.lab).card + st.s.updates := hs
              have hmem : openNodes s'.lab = insert n (openNodes st.s.lab) := by
                ext u
                simp only [openNodes, Finset.mem_filter, Finset.mem_univ, true_and, Finset.mem_insert]
                by_cases e : u = n
                · subst e; simp [hv.2.2]
                · rw [hother u e]; simp [e]
              rw [hop, Q.add, q2, t2 hcl, hmem]
              by_cases ho : (st.s.lab n).opn = true
              · rw [if_pos ho, Finset.insert_eq_of_mem (by simp [openNodes, ho])]
                omega
              · rw [if_neg ho, Finset.card_insert_of_notMem (by simp [openNodes, ho])]
                omega

theorem kExpand_count {L : Lawful P} (ok : KCostOk A cs) (hheur : ∀ k g, A.heur k g = A.zero)
    (hadd : ∀ a, A.add a A.zero = a) {cur : N} :
    ∀ (ms : List (K → List K → Option (C × K))) (st : KSt N K C P), (∀ mv ∈ ms, mv ∈ A.moves) →
      KInv A cs L cfg kin0 (todo cur ms) st →
      ((st.s.lab cur).closed = true ∧ (st.s.lab cur).opn = false) →
      ((Front st cur ∧ KMono A M cfg kin0 (todo cur ms) st) ∨ KMono A M cfg kin0 nopend st) → StaleCount Q st →
    ∀ st', kExpand A cfg.goal cur ms st = .ok st' →
      StaleCount Q st' ∧ (KMono A M cfg kin0 nopend st → st'.s.touched = st.s.touched) := by
  intro ms
  induction ms with
  | nil =>
    intro st _ _ _ _ hs st' hk
    cases hk
    exact ⟨hs, fun _ => rfl⟩
  | cons mv ms ih =>
    intro st hsub hI hcur h hs st' hk
    rw [kExpand] at hk
    have hmv := hsub mv (by simp)
    have h1 := kTry_spec ok hmv hI hcur
    have hfresh : Front st cur → KMono A M cfg kin0 (todo cur (mv :: ms)) st → _ := fun hF hM =>
      kTry_mono (p2 := todo cur ms) ok hheur hadd hmv hI.core hM hcur.1 hI.cands (by
        intro u mv' hp
        obtain ⟨e, hm⟩ := hp
        rcases List.mem_cons.1 hm with e2 | hm
        · exact .inr ⟨e, e2⟩
        · exact .inl ⟨e, hm⟩) (.inl hF)
    have hstale : KMono A M cfg kin0 nopend st → _ := fun hM =>
      kTry_mono (p2 := nopend) ok hheur hadd hmv hI.core hM hcur.1 hI.cands (fun u mv' hp => hp.elim)
        (.inr id)
    cases hk1 : kTry A cfg.goal cur mv st with
    | throw e => rw [hk1] at hk; cases hk
    | ub => rw [hk1] at hk; cases hk
    | ok st1 =>
      rw [hk1] at hk h1 hfresh hstale
      simp only [CRes.bind] at hk
      have hs1 : StaleCount Q st1 ∧ (KMono A M cfg kin0 nopend st → st1.s.touched = st.s.touched) := by
        rcases h with ⟨hF, hM⟩ | hM
        · exact ⟨(kTry_count ok hmv hI.core hM hcur.1 (.inl hF) hs hk1).1,
            fun hM' => (kTry_count ok hmv hI.core hM' hcur.1 (.inr id) hs hk1).2 id⟩
        · exact ⟨(kTry_count ok hmv hI.core hM hcur.1 (.inr id) hs hk1).1,
            fun hM' => (kTry_count ok hmv hI.core hM' hcur.1 (.inr id) hs hk1).2 id⟩
      obtain ⟨i1, i2⟩ := ih st1 (fun m hm => hsub m (List.mem_cons_of_mem _ hm)) h1.1
        (by rw [h1.2.curLab.2.1, h1.2.curLab.2.2]; exact hcur) (by
          rcases h with ⟨hF, hM⟩ | hM
          · obtain ⟨g1, g2⟩ := hfresh hF hM
            exact .inl ⟨g2 hF, g1⟩
          · exact .inr (hstale hM).1) hs1.1 st' hk
      exact ⟨i1, fun hM => (i2 (hstale hM).1).trans (hs1.2 hM)⟩

/-- Invariant of the counters between the iterations. -/
structure KWork (A : KAlgo N K C) (Q : Counts P) (st : KSt N K C P) : Prop where
  exp : ∀ u, (st.s.lab u).expanded = (st.s.lab u).closed
  stale : StaleCount Q st
  work : st.s.touched ≤ A.moves.length * (expandedNodes st.s.lab).card

theorem KWork.congr {st : KSt N K C P} (h : KWork A Q st) {s' : SSt N C P} (h1 : s'.lab = st.s.lab) (h2 : s'.opn = st.s.opn)
    (h4 : s'.multi = st.s.multi) (h5 : s'.touched = st.s.touched) (h6 : s'.updates = st.s.updates) :
    KWork A Q { s := s', kin := st.kin } := by
  refine ⟨?_, ?_, ?_⟩
  · show ∀ u, (s'.lab u).expanded = (s'.lab u).closed
    rw [h1]; exact h.exp
  · show Q.size s'.opn + s'.multi = (openNodes s'.lab).card + s'.updates
    rw [h1, h2, h4, h6]; exact h.stale
  · show s'.touched ≤ _ * (expandedNodes s'.lab).card
    rw [h1, h5]; exact h.work

/-- Taking a node: for the first time, or under an entry that is out of date. -/
theorem KWork.pop {L : Lawful P} {st : KSt N K C P} (h : KWork A Q st) (hI : KInv A cs L cfg kin0 nopend st)
    (hM : KMono A M cfg kin0 nopend st) {cur : N} {o : P.O} (hn : P.next st.s.opn = some (cur, o)) :
    KWork A Q { s := popNode (A.alg st.s.lab st.kin) cfg st.s cur o, kin := st.kin } ∧
      ((st.s.lab cur).closed = false →
        (expandedNodes (popNode (A.alg st.s.lab st.kin) cfg st.s cur o).lab).card = (expandedNodes st.s.lab).card + 1) := by
  have hq := Q.next _ _ _ hn
  have hs : Q.size st.s.opn + st.s.multi = (openNodes st.s.lab).card + st.s.updates := h.stale
  have hself : ((popNode (A.alg st.s.lab st.kin) cfg st.s cur o).lab cur).opn = false ∧
      ((popNode (A.alg st.s.lab st.kin) cfg st.s cur o).lab cur).closed = true ∧
      ((popNode (A.alg st.s.lab st.kin) cfg st.s cur o).lab cur).expanded = true := by
    simp [popNode, setLab]
  have hoth : ∀ n, n ≠ cur → (popNode (A.alg st.s.lab st.kin) cfg st.s cur o).lab n = st.s.lab n := fun n hne => setLab_ne _ _ hne
  have hmulti : (popNode (A.alg st.s.lab st.kin) cfg st.s cur o).multi =
    if (st.s.lab cur).expanded then st.s.multi + 1 else st.s.multi := rfl
  have ho : (popNode (A.alg st.s.lab st.kin) cfg st.s cur o).opn = o := rfl
  have htch : (popNode (A.alg st.s.lab st.kin) cfg st.s cur o).touched = st.s.touched := rfl
  have hupd : (popNode (A.alg st.s.lab st.kin) cfg st.s cur o).updates = st.s.updates := rfl
  generalize popNode (A.alg st.s.lab st.kin) cfg st.s cur o = s1 at *
  have hnodes : expandedNodes s1.lab = insert cur (expandedNodes st.s.lab) := by
    ext n
    simp only [expandedNodes, Finset.mem_filter, Finset.mem_univ, true_and, Finset.mem_insert]
    by_cases e : n = cur
    · subst e; simp [hself.2.2]
    · rw [hoth n e]; simp [e]
  have hopen : openNodes s1.lab = (openNodes st.s.lab).erase cur := by
    ext n
    simp only [openNodes, Finset.mem_filter, Finset.mem_univ, true_and, Finset.mem_erase]
    by_cases e : n = cur
    · subst e; simp [hself.1]
    · rw [hoth n e]; simp [e]
  refine ⟨⟨?_, ?_, ?_⟩, ?_⟩
  · intro u
    show (s1.lab u).expanded = (s1.lab u).closed
    by_cases e : u = cur
    · rw [e, hself.2.1, hself.2.2]
    · rw [hoth u e]; exact h.exp u
  · show Q.size s1.opn + s1.multi = (openNodes s1.lab).card + s1.updates
    rw [ho, hmulti, hopen, hupd]
    by_cases hc : (st.s.lab cur).closed = true
    · rw [if_pos (by rw [h.exp]; exact hc), Finset.erase_eq_of_notMem (by simp [openNodes, hM.sep cur hc])]
      omega
    · have hop : (st.s.lab cur).opn = true := by
        have := ((hI.core st.s.lab st.kin).reach cur).1 (hI.memReach cur (L.next_some _ _ _ hn).1)
        simpa [hc] using this
      have hm : cur ∈ openNodes st.s.lab := by simp [openNodes, hop]
      rw [if_neg (by rw [h.exp]; exact hc), Finset.card_erase_of_mem hm]
      have := Finset.card_pos.2 ⟨cur, hm⟩
      omega
  · show s1.touched ≤ _ * (expandedNodes s1.lab).card
    rw [htch, hnodes]
    exact h.work.trans (Nat.mul_le_mul_left _ (Finset.card_le_card (Finset.subset_insert _ _)))
  · intro hc
    rw [hnodes, Finset.card_insert_of_notMem]
    simp [expandedNodes, h.exp, hc]

/-- One iteration without heuristic. -/
theorem KWork.kIterate {L : Lawful P} (ok : KCostOk A cs) (hheur : ∀ k g, A.heur k g = A.zero) (hhg : cfg.heurGoal = none)
    (hadd : ∀ a, A.add a A.zero = a) {st : KSt N K C P} (hw : KWork A Q st)
    (h : KInv A cs L cfg kin0 nopend st) (hM : KMono A M cfg kin0 nopend st) :
    match kIterate A cfg st with
    | .more st' => KWork A Q st'
    | .done _ st' => KWork A Q st' := by
  rcases kIterate_cases (A := A) (cfg := cfg) st with ⟨st', e, cur, o, t, hn, _, ht0, hT, hk⟩ | ⟨r, st', e, hkin, hc⟩
  · rw [e]
    show KWork A Q st'
    obtain ⟨q1, q2, q3, q4, q5, q6⟩ := goalLoop_quiet _ _ _ _ _ ht0
    obtain ⟨hw1, hcard⟩ := hw.pop h hM hn
    have hpm := kpop_cases hheur hhg h hM hn
    obtain ⟨hx, hd, hp, hoth, hcs, hf, he, hopn1⟩ := kpop_spec h hn (B := A.alg st.s.lab st.kin)
    have htch : (popNode (A.alg st.s.lab st.kin) cfg st.s cur o).touched = st.s.touched := rfl
    simp only at hpm
    generalize popNode (A.alg st.s.lab st.kin) cfg st.s cur o = s1 at *
    have hw2 : KWork A Q { s := t.st, kin := st.kin } := hw1.congr q1 q2 q4 q5 q6
    have hC := hx.core s1.lab st.kin
    obtain ⟨t', ht1, hlab, hopn, hexp, hmono, hcand, hnoc, hterm, hnot, _, _⟩ :=
      goalLoop_spec (A := A.full cs s1.lab st.kin) (cfg := A.cfg cfg st.kin) (P := P) (cur := cur)
        cfg.goal s1 (fun g hg => hg) hC hx.curOk.1
    rw [goalLoop_full A cs, ht1] at ht0
    cases ht0
    have hgk : ∀ g, st.kin g = kin0 g ∨
        (A.lookup (st.kin g) = .ok (some g) ∧ Reachable A cfg.start kin0 (st.kin g)) := fun g =>
      (h.goalKin g).imp id And.right
    have hcr : Reachable A cfg.start kin0 (st.kin cur) :=
      h.reachable (by rw [← hd cur]; exact (hC.reach _).2 (.inr hx.curOk.1))
    have hall : ∀ pend, KMono A M cfg kin0 pend { s := s1, kin := st.kin } →
        KMono A M cfg kin0 pend { s := t.st, kin := st.kin } := by
      intro pend q
      refine ⟨?_, ?_, ?_, ?_, ?_, ?_, ?_, ?_, ?_⟩
      · show ∀ n, (t.st.lab n).h = A.zero
        rw [hlab]; exact q.hz
      · show ∀ n k, M.ent t.st.opn n k → (t.st.lab n).dist ≤ k
        rw [hlab, hopn]; exact q.entKey
      · show ∀ n, (t.st.lab n).opn = true → M.ent t.st.opn n (t.st.lab n).dist
        rw [hlab, hopn]; exact q.openEnt
      · show ∀ u, (t.st.lab u).closed = true → ∀ n k, M.ent t.st.opn n k → (t.st.lab u).dist ≤ k
        rw [hlab, hopn]; exact q.bound
      · show ∀ n, (t.st.lab n).closed = true → (t.st.lab n).opn = false
        rw [hlab]; exact q.sep
      · show ∀ n p, (t.st.lab n).prev = some p → (t.st.lab p).closed = true
        rw [hlab]; exact q.prevClosed
      · show ∀ n, n ∉ cfg.start → (t.st.lab n).dist ≠ ⊤ → XEdge A t.st.lab st.kin n
        rw [hlab]; exact q.edge
      · show ∀ u, (t.st.lab u).closed = true → ∀ mv ∈ A.moves, pend u mv ∨
          ∀ c k v, mv (st.kin u) (kPreds t.st.lab st.kin u A.predDepth) = some (c, k) → _ → _ →
            (t.st.lab v).dist ≤ A.addW (t.st.lab u).dist c
        rw [hlab]; exact q.relaxed
      · intro x hx1
        rcases hcand x hx1 with h1 | ⟨e, g, hg, h1, h2⟩
        · exact q.candGood x h1
        · show GoalMet A cfg.start cfg.goal kin0 (st.kin x.1) x.2
          rw [e]
          exact ⟨hcr, g, hg, st.kin g, _, h1, h2, hgk g⟩
    have hclosed : ∀ x ∈ t.st.cands, (t.st.lab x.1).closed = true := by
      intro x hx1
      rw [hlab]
      rcases hcand x hx1 with h1 | h1
      · exact hx.cands x h1
      · rw [h1.1]; exact hx.curOk.1
    have hM1 : ∃ pend, KMono A M cfg kin0 pend { s := t.st, kin := st.kin } := by
      rcases hpm with ⟨_, _, q⟩ | ⟨_, q⟩
      · exact ⟨_, hall _ q⟩
      · exact ⟨_, hall _ q⟩
    obtain ⟨pend, hM2⟩ := hM1
    have hX : KInv A cs L cfg kin0 (todo cur A.moves) { s := t.st, kin := st.kin } :=
      hx.afterTest hlab hopn hmono hclosed (fun x hx1 => ⟨st.kin x.1, hM2.candGood x hx1, .inl rfl⟩) (fun g hg hgg e => by
        have := (hnot hT g hg hgg).2
        rw [e] at this; cases this)
    have hcase : ((st.s.lab cur).closed = false ∧ Front { s := t.st, kin := st.kin } cur ∧
        KMono A M cfg kin0 (todo cur A.moves) { s := t.st, kin := st.kin }) ∨
        KMono A M cfg kin0 nopend { s := t.st, kin := st.kin } := by
      rcases hpm with ⟨hc, hF, q⟩ | ⟨_, q⟩
      · left
        refine ⟨hc, ?_, hall _ q⟩
        show ∀ u, (t.st.lab u).closed = true → (t.st.lab u).dist ≤ (t.st.lab cur).dist
        rw [hlab]; exact hF
      · exact .inr (hall _ q)
    have hcl : (t.st.lab cur).closed = true ∧ (t.st.lab cur).opn = false := by rw [hlab]; exact hx.curOk
    have hfz := kExpand_frozen (M := M) ok hheur hadd A.moves { s := t.st, kin := st.kin } (fun m hm => hm) hX hcl
      (hcase.imp And.right id) st' hk
    obtain ⟨i1, i2⟩ := kExpand_count (M := M) (Q := Q) ok hheur hadd A.moves { s := t.st, kin := st.kin } (fun m hm => hm) hX hcl
      (hcase.imp And.right id) hw2.stale st' hk
    obtain ⟨_, _, j3, j4⟩ := kExpand_touched A.moves _ _ hk
    have hen : expandedNodes st'.s.lab = expandedNodes s1.lab := by
      unfold expandedNodes
      simp only [j4, hlab]
    refine ⟨fun u => ?_, i1, ?_⟩
    · rw [j4, hfz.cl u]; exact hw2.exp u
    · rw [hen]
      rcases hcase with ⟨hc, _⟩ | hn
      · have hcd := hcard hc
        have hwk := hw.work
        have j3' : st'.s.touched ≤ t.st.touched + A.moves.length := j3
        rw [q5, htch] at j3'
        rw [hcd, Nat.mul_add, Nat.mul_one]
        omega
      · have hwk := hw2.work
        have e : st'.s.touched = t.st.touched := i2 hn
        rw [e]
        have hwk' : t.st.touched ≤ A.moves.length * (expandedNodes t.st.lab).card := hwk
        rw [hlab] at hwk'
        exact hwk'
  · rw [e]
    show KWork A Q st'
    obtain ⟨s', kin'⟩ := st'
    simp only at hkin hc
    subst hkin
    rcases hc with hc | ⟨cur, o, hn, hc | ⟨t, ht, hc⟩⟩
    · rw [hc]; exact hw
    · rw [hc]; exact (hw.pop h hM hn).1
    · obtain ⟨h1, h2, h3, h4, h5, h6⟩ := goalLoop_quiet _ _ _ _ _ ht
      rw [hc]; exact ((hw.pop h hM hn).1).congr h1 h2 h4 h5 h6

theorem KWork.init (hnd : cfg.start.Nodup) (L : Lawful P) : KWork A Q (kInit A P cfg kin0) := by
  obtain ⟨k1, k2, k3, k4, k5⟩ :=
    init_facts (A := A.alg (fun _ => Label.fresh A.zero) kin0) (L := L) (cfg := cfg)
  obtain ⟨c1, c2, c3, c4, c5, c6⟩ := init_count (A := A.alg (fun _ => Label.fresh A.zero) kin0) Q cfg
    (freshLabels (A.alg (fun _ => Label.fresh A.zero) kin0))
  unfold kInit
  generalize initSearch (A.alg (fun _ => Label.fresh A.zero) kin0) P cfg
    (freshLabels (A.alg (fun _ => Label.fresh A.zero) kin0)) = s at *
  have hcl : ∀ u, (s.lab u).closed = false := by
    intro u
    by_cases hu : u ∈ cfg.start
    · rw [k1 u hu]; rfl
    · rw [k2 u hu]; rfl
  refine ⟨fun u => ?_, ?_, ?_⟩
  · show (s.lab u).expanded = (s.lab u).closed
    rw [c6, hcl]; rfl
  · show Q.size s.opn + s.multi = (openNodes s.lab).card + s.updates
    have : openNodes s.lab = cfg.start.toFinset := by
      ext n
      simp only [openNodes, Finset.mem_filter, Finset.mem_univ, true_and, List.mem_toFinset]
      by_cases hu : n ∈ cfg.start
      · rw [k1 n hu]; simp [hu]
      · rw [k2 n hu]; simp [hu, Label.fresh]
    rw [this, c1, c3, c5, List.toFinset_card_of_nodup hnd]
  · show s.touched ≤ _
    rw [c4]; exact Nat.zero_le _

/-- Everything counted in a search without heuristic on fresh nodes. -/
structure KCount (A : KAlgo N K C) (cs : List C) (L : Lawful P) (M : MinFirst P) (Q : Counts P) (cfg : SCfg N C) (kin0 : N → K)
    (st : KSt N K C P) : Prop where
  inv : KInv A cs L cfg kin0 nopend st
  noc : cfg.useCands = false → st.s.cands = []
  mono : KMono A M cfg kin0 nopend st
  work : KWork A Q st
  bal : Balance Q cfg.start.length 0 st.s

theorem KCount.init {L : Lawful P} (hadd : ∀ a, A.add a A.zero = a) (hnd : cfg.start.Nodup) :
    KCount A cs L M Q cfg kin0 (kInit A P cfg kin0) := by
  refine ⟨kInit_inv.1, fun _ => (kInit_inv (L := L) (cs := cs)).2, kInit_mono L hadd, KWork.init hnd L, ?_⟩
  have h := Balance.init (A := A.alg (fun _ => Label.fresh A.zero) kin0) Q cfg
    (freshLabels (A.alg (fun _ => Label.fresh A.zero) kin0))
  have e : (expandedNodes (freshLabels (A.alg (fun _ => Label.fresh A.zero) kin0))).card = 0 := by
    rw [Finset.card_eq_zero]
    ext n
    simp [expandedNodes, freshLabels, Label.fresh]
  rw [e] at h
  exact h

theorem KCount.kIterate {L : Lawful P} (ok : KCostOk A cs) (ht : TopOk cfg.top) (hheur : ∀ k g, A.heur k g = A.zero)
    (hhg : cfg.heurGoal = none) (hadd : ∀ a, A.add a A.zero = a) {st : KSt N K C P} (h : KCount A cs L M Q cfg kin0 st) :
    match kIterate A cfg st with
    | .more st' => KCount A cs L M Q cfg kin0 st' ∧ st'.s.expansions = st.s.expansions + 1
    | .done _ st' => KWork A Q st' ∧ Balance Q cfg.start.length 0 st'.s := by
  have h1 := kIterate_spec ok ht h.inv h.noc
  have h2 := kIterate_mono ok ht hheur hhg hadd h.inv h.mono
  have h3 := h.work.kIterate ok hheur hhg hadd h.inv h.mono
  have h4 := Balance.kIterate (A := A) (cfg := cfg) h.bal
  cases hi : PathPlanning.kIterate A cfg st with
  | done r st' => rw [hi] at h3 h4; exact ⟨h3, h4⟩
  | more st' =>
    rw [hi] at h1 h2 h3 h4
    exact ⟨⟨h1.1, h1.2.1, h2, h3, h4.1⟩, h4.2⟩

/-- The number of expansions is bounded. -/
theorem KWork.bound {s0 : Nat} {st : KSt N K C P} (h : KWork A Q st) (hb : Balance Q s0 0 st.s) :
    st.s.expansions ≤ s0 + A.moves.length * (expandedNodes st.s.lab).card := by
  have h1 := hb.size
  have h2 := h.work
  omega

theorem KCount.kLoop {L : Lawful P} (ok : KCostOk A cs) (ht : TopOk cfg.top) (hheur : ∀ k g, A.heur k g = A.zero)
    (hhg : cfg.heurGoal = none) (hadd : ∀ a, A.add a A.zero = a) : ∀ (fuel : Nat) (st : KSt N K C P),
    KCount A cs L M Q cfg kin0 st → cfg.start.length + A.moves.length * Fintype.card N + 1 ≤ fuel + st.s.expansions →
    ∃ r st', kLoop A cfg fuel st = some (r, st') ∧ KWork A Q st' ∧ Balance Q cfg.start.length 0 st'.s := by
  intro fuel
  induction fuel with
  | zero =>
    intro st h hle
    have h1 := h.work.bound h.bal
    have h2 : A.moves.length * (expandedNodes st.s.lab).card ≤ A.moves.length * Fintype.card N :=
      Nat.mul_le_mul_left _ (Finset.card_le_univ _)
    omega
  | succ fuel ih =>
    intro st h hle
    have h1 := h.kIterate ok ht hheur hhg hadd
    rw [PathPlanning.kLoop]
    cases hi : PathPlanning.kIterate A cfg st with
    | done r st' =>
      rw [hi] at h1
      exact ⟨r, st', rfl, h1.1, h1.2⟩
    | more st' =>
      rw [hi] at h1
      exact ih st' h1.1 (by rw [h1.2]; omega)

end PathPlanning
