import Verif.Lemmas.KinDuringMap
import Verif.Lemmas.KinSearchMono

/-!
# Search over nodes with stored poses without heuristic on a map that changes (C120)
-/

namespace PathPlanning.KDur
open Spec
set_option linter.unusedSectionVars false

variable {N K C : Type} [DecidableEq N] [LinearOrder C] [Fintype N]
variable {P : OpenList N C}

/-- As `KMono`: the steps that the map `a` of the moment accepts have been used. -/
structure VKMono (A : KAlgo N K C) (a : K → K → CRes Bool) (M : MinFirst P) (cfg : SCfg N C) (kin0 : N → K)
    (pend : N → (K → List K → Option (C × K)) → Prop) (st : KSt N K C P) : Prop where
  hz : ∀ n, (st.s.lab n).h = A.zero
  entKey : ∀ n k, M.ent st.s.opn n k → (st.s.lab n).dist ≤ k
  openEnt : ∀ n, (st.s.lab n).opn = true → M.ent st.s.opn n (st.s.lab n).dist
  bound : ∀ u, (st.s.lab u).closed = true → ∀ n k, M.ent st.s.opn n k → (st.s.lab u).dist ≤ k
  sep : ∀ n, (st.s.lab n).closed = true → (st.s.lab n).opn = false
  prevClosed : ∀ n p, (st.s.lab n).prev = some p → (st.s.lab p).closed = true
  edge : ∀ n, n ∉ cfg.start → (st.s.lab n).dist ≠ ⊤ → XEdge A st.s.lab st.kin n
  relaxed : ∀ u, (st.s.lab u).closed = true → ∀ mv ∈ A.moves, pend u mv ∨
    ∀ c k v, mv (st.kin u) (kPreds st.s.lab st.kin u A.predDepth) = some (c, k) →
      a (st.kin u) k = .ok true → A.lookup k = .ok (some v) →
      (st.s.lab v).dist ≤ A.addW (st.s.lab u).dist c
  candGood : ∀ x ∈ st.s.cands, GoalMet A cfg.start cfg.goal kin0 (st.kin x.1) x.2

section
variable {A : KAlgo N K C} {i a : K → K → CRes Bool} {cs : List C} {M : MinFirst P} {cfg : SCfg N C} {kin0 : N → K}

theorem VKMono.same {pend pend' : N → (K → List K → Option (C × K)) → Prop} {st : KSt N K C P}
    (h : VKMono A a M cfg kin0 pend st) {s' : SSt N C P} (hs : ∀ m, SameLab (st.s.lab m) (s'.lab m))
    (hh : ∀ m, (s'.lab m).h = A.zero)
    (ho : s'.opn = st.s.opn) (hc : s'.cands = st.s.cands)
    (hp : ∀ u mv, mv ∈ A.moves → (st.s.lab u).closed = true → pend u mv → pend' u mv ∨
      ∀ c k v, mv (st.kin u) (kPreds st.s.lab st.kin u A.predDepth) = some (c, k) →
      a (st.kin u) k = .ok true → A.lookup k = .ok (some v) →
      (st.s.lab v).dist ≤ A.addW (st.s.lab u).dist c) :
    VKMono A a M cfg kin0 pend' { s := s', kin := st.kin } := by
  have hd : ∀ m, (s'.lab m).dist = (st.s.lab m).dist := fun m => (hs m).1
  have hpr : ∀ m, (s'.lab m).prev = (st.s.lab m).prev := fun m => (hs m).2.1
  have hop : ∀ m, (s'.lab m).opn = (st.s.lab m).opn := fun m => (hs m).2.2.1
  have hcl : ∀ m, (s'.lab m).closed = (st.s.lab m).closed := fun m => (hs m).2.2.2
  refine ⟨hh, ?_, ?_, ?_, ?_, ?_, ?_, ?_, ?_⟩
  · intro n k hk
    show (s'.lab n).dist ≤ k
    have hk' : M.ent s'.opn n k := hk
    rw [ho] at hk'; rw [hd]; exact h.entKey n k hk'
  · intro n hn
    show M.ent s'.opn n (s'.lab n).dist
    have hn' : (s'.lab n).opn = true := hn
    rw [hop] at hn'; rw [ho, hd]; exact h.openEnt n hn'
  · intro u hu n k hk
    show (s'.lab u).dist ≤ k
    have hu' : (s'.lab u).closed = true := hu
    have hk' : M.ent s'.opn n k := hk
    rw [ho] at hk'; rw [hcl] at hu'; rw [hd]; exact h.bound u hu' n k hk'
  · intro n hn
    show (s'.lab n).opn = false
    have hn' : (s'.lab n).closed = true := hn
    rw [hcl] at hn'; rw [hop]; exact h.sep n hn'
  · intro n p hp'
    show (s'.lab p).closed = true
    have hp2 : (s'.lab n).prev = some p := hp'
    rw [hpr] at hp2; rw [hcl]; exact h.prevClosed n p hp2
  · intro n hn hnd
    have hnd' : (s'.lab n).dist ≠ ⊤ := hnd
    rw [hd] at hnd'
    obtain ⟨p, c, mv, e1, e2, e3, e4, e5⟩ := h.edge n hn hnd'
    exact ⟨p, c, mv, (hpr n).trans e1, e2, (by rw [kPreds_same hpr]; exact e3), e4,
      (by show (s'.lab n).dist = A.addW (s'.lab p).dist c; rw [hd, hd]; exact e5)⟩
  · intro u hu mv hmv
    have hu' : (s'.lab u).closed = true := hu
    rw [hcl] at hu'
    show pend' u mv ∨ ∀ c k v, mv (st.kin u) (kPreds s'.lab st.kin u A.predDepth) = some (c, k) → _ → _ →
      (s'.lab v).dist ≤ A.addW (s'.lab u).dist c
    rw [kPreds_same hpr, hd u]
    simp only [hd]
    rcases h.relaxed u hu' mv hmv with h1 | h1
    · exact hp u mv hmv hu' h1
    · exact .inr h1
  · intro x hx
    have hx' : x ∈ s'.cands := hx
    rw [hc] at hx'; exact h.candGood x hx'

theorem vkTry_mono (ok : KCostOk A cs) (hup : ∀ k k', a k k' = .ok true → A.usable k k' = .ok true) (hheur : ∀ k g, A.heur k g = A.zero)
    (hadd : ∀ x, A.add x A.zero = x) {st : KSt N K C P} {cur : N} {mv} (hmv : mv ∈ A.moves)
    (hC : KCore A cs cfg.start st.s.lab) {p1 p2 : N → (K → List K → Option (C × K)) → Prop}
    (h : VKMono A a M cfg kin0 p1 st) (hcur : (st.s.lab cur).closed = true)
    (hcands : ∀ x ∈ st.s.cands, (st.s.lab x.1).closed = true)
    (hp : ∀ u mv', p1 u mv' → p2 u mv' ∨ (u = cur ∧ mv' = mv))
    (hf : Front st cur ∨ ¬ p1 cur mv) :
    match kTry (A.withUsable a) cfg.goal cur mv st with
    | .ok st' => VKMono A a M cfg kin0 p2 st' ∧ (Front st cur → Front st' cur)
    | _ => True := by
  have hC' := hC st.s.lab st.kin
  have hcase0 : ∀ s' : SSt N C P, s' = st.s →
      (∀ c k v, mv (st.kin cur) (kPreds st.s.lab st.kin cur A.predDepth) = some (c, k) →
        a (st.kin cur) k = .ok true → A.lookup k = .ok (some v) →
        (st.s.lab v).dist ≤ A.addW (st.s.lab cur).dist c) →
      VKMono A a M cfg kin0 p2 { s := s', kin := st.kin } := by
    intro s' hs' hd
    subst hs'
    refine h.same (fun m => ⟨rfl, rfl, rfl, rfl⟩) h.hz rfl rfl ?_
    intro u mv' _ _ hpend
    rcases hp u mv' hpend with h1 | ⟨h1, h2⟩
    · exact .inl h1
    · right; rw [h1, h2]; exact hd
  rw [kTry_wu]
  cases hm : mv (st.kin cur) (kPreds st.s.lab st.kin cur A.predDepth) with
  | none =>
    simp only
    exact ⟨hcase0 _ rfl (fun c k v e => by rw [hm] at e; cases e), id⟩
  | some ck =>
    obtain ⟨c, k⟩ := ck
    simp only
    cases hus : a (st.kin cur) k with
    | throw e => trivial
    | ub => trivial
    | ok b =>
      simp only [CRes.bind]
      cases b with
      | false =>
        simp only [Bool.false_eq_true, if_false]
        refine ⟨hcase0 _ rfl (fun c' k' v e1 e2 => ?_), id⟩
        rw [hm] at e1
        cases e1
        rw [hus] at e2
        cases e2
      | true =>
        simp only [if_true]
        cases hlk : A.lookup k with
        | throw e => trivial
        | ub => trivial
        | ok r =>
          simp only
          cases r with
          | none =>
            refine ⟨hcase0 _ rfl (fun c' k' v e1 e2 e3 => ?_), id⟩
            rw [hm] at e1
            cases e1
            rw [hlk] at e3
            cases e3
          | some n =>
            simp only
            have hcs : c ∈ cs := ok.costs mv hmv _ _ _ _ hm
            have hu : (st.s.lab cur).dist ≠ ⊤ := (hC'.reach cur).2 (.inr hcur)
            obtain ⟨c1, c2, c3, hcase⟩ := process_cases_reach (A := A.alg st.s.lab st.kin)
              (goal := cfg.goal) (c := c) (hC'.reach n) hu
            have haddn := processAdds_iff (A := A) (c := c) (hC'.reach n) hu
            have hh := process_h (B := A.alg st.s.lab st.kin) (z := A.zero) (fun a b => hheur _ _)
              (goal := cfg.goal) h.hz cur n c
            generalize processNeighbor (A.alg st.s.lab st.kin) cfg.goal st.s cur n c = s' at *
            simp only [KAlgo.alg_addW] at hcase
            rcases hcase with ⟨hncl, hop, hsame⟩ | ⟨hcl, hop, hv, hvc, _, hother⟩
            · -- not closer
              have : processAdds A st.s cur n c = false := by
                rw [← Bool.not_eq_true, haddn]; exact hncl
              rw [this]
              simp only [Bool.false_eq_true, if_false]
              have hs : ∀ m, SameLab (st.s.lab m) (s'.lab m) := fun m => (hsame m).1
              refine ⟨?_, fun hF u hu' => ?_⟩
              · refine h.same hs hh hop c1 ?_
                intro u mv' _ _ hpend
                rcases hp u mv' hpend with h1 | ⟨h1, h2⟩
                · exact .inl h1
                · right
                  rw [h1, h2]
                  intro c' k' v e1 e2 e3
                  rw [hm] at e1
                  cases e1
                  rw [hlk] at e3
                  cases e3
                  exact not_lt.1 hncl
              · have hu2 : (s'.lab u).closed = true := hu'
                show (s'.lab u).dist ≤ (s'.lab cur).dist
                rw [(hs u).2.2.2] at hu2
                rw [(hs u).1, (hs cur).1]; exact hF u hu2
            · -- closer
              have hF : Front st cur := by
                rcases hf with hf | hf
                · exact hf
                · rcases h.relaxed cur hcur mv hmv with h1 | h1
                  · exact absurd h1 hf
                  · exact absurd (h1 c k n hm hus hlk) (not_le.2 hcl)
              rw [haddn.2 hcl]
              simp only [if_true]
              have hne : n ≠ cur := by
                rintro rfl
                exact absurd (ok.le_addW hcs _) (not_le.2 hcl)
              rw [if_neg hne]
              have hnclosed : (st.s.lab n).closed = false := by
                rw [← Bool.not_eq_true]
                intro hc
                exact absurd ((hF n hc).trans (ok.le_addW hcs _)) (not_le.2 hcl)
              have hcurlab : s'.lab cur = st.s.lab cur := hother cur (Ne.symm hne)
              have hcl' : ∀ m, (s'.lab m).closed = (st.s.lab m).closed := by
                intro m
                by_cases e : m = n
                · subst e; exact hvc
                · rw [hother m e]
              have hkp : ∀ u, (st.s.lab u).closed = true →
                  kPreds s'.lab (fun m => if m = n then k else st.kin m) u A.predDepth =
                    kPreds st.s.lab st.kin u A.predDepth := by
                intro u hu'
                refine kPreds_closed (fun m => (st.s.lab m).closed = true) ?_ h.prevClosed u hu' _
                intro m hm'
                have : m ≠ n := fun e => by rw [e, hnclosed] at hm'; cases hm'
                rw [hother m this]
                exact ⟨rfl, by simp [this]⟩
              have htot : (A.alg st.s.lab st.kin).total (s'.lab n) = A.addW (st.s.lab cur).dist c := by
                unfold Algo.total
                rw [hh n, A.alg_addW, hv.1]
                obtain ⟨e, he⟩ := WithTop.ne_top_iff_exists.1 hu
                rw [← he, A.addW_coe, A.addW_coe, hadd]
              have hne' : ∀ u, (st.s.lab u).closed = true → u ≠ n := by
                intro u hu' e
                rw [e, hnclosed] at hu'; cases hu'
              refine ⟨⟨hh, ?_, ?_, ?_, ?_, ?_, ?_, ?_, ?_⟩, fun _ => ?_⟩
              · intro m k' hk'
                have hk2 : M.ent s'.opn m k' := hk'
                show (s'.lab m).dist ≤ k'
                rw [hop, htot] at hk2
                rcases (M.add_ent _ _ _ _ _).1 hk2 with ⟨e1, e2⟩ | h1
                · rw [e1, e2, hv.1]
                · by_cases e : m = n
                  · subst e; rw [hv.1]; exact hcl.le.trans (h.entKey m k' h1)
                  · rw [hother m e]; exact h.entKey m k' h1
              · intro m hm'
                have hm2 : (s'.lab m).opn = true := hm'
                show M.ent s'.opn m (s'.lab m).dist
                rw [hop, htot]
                by_cases e : m = n
                · exact (M.add_ent _ _ _ _ _).2 (.inl ⟨e, by rw [e, hv.1]⟩)
                · rw [hother m e] at hm2 ⊢
                  exact (M.add_ent _ _ _ _ _).2 (.inr (h.openEnt m hm2))
              · intro u hu' m k' hk'
                have hk2 : M.ent s'.opn m k' := hk'
                have hu2 : (s'.lab u).closed = true := hu'
                show (s'.lab u).dist ≤ k'
                rw [hcl'] at hu2
                rw [hop, htot] at hk2
                rw [hother u (hne' u hu2)]
                rcases (M.add_ent _ _ _ _ _).1 hk2 with ⟨_, e2⟩ | h1
                · rw [e2]; exact (hF u hu2).trans (ok.le_addW hcs _)
                · exact h.bound u hu2 m k' h1
              · intro m hm'
                have hm2 : (s'.lab m).closed = true := hm'
                show (s'.lab m).opn = false
                rw [hcl'] at hm2
                rw [hother m (hne' m hm2)]
                exact h.sep m hm2
              · intro m p hp'
                have hp2 : (s'.lab m).prev = some p := hp'
                show (s'.lab p).closed = true
                rw [hcl']
                by_cases e : m = n
                · rw [e, hv.2.1] at hp2
                  cases hp2
                  exact hcur
                · rw [hother m e] at hp2
                  exact h.prevClosed m p hp2
              · intro m hms hmd
                have hmd2 : (s'.lab m).dist ≠ ⊤ := hmd
                by_cases e : m = n
                · subst e
                  refine ⟨cur, c, mv, hv.2.1, hmv, ?_, ?_, ?_⟩
                  · show mv _ (kPreds s'.lab (fun m' => if m' = m then k else st.kin m') cur A.predDepth) = _
                    rw [hkp cur hcur]
                    simpa [Ne.symm hne] using hm
                  · simpa [Ne.symm hne] using hup _ _ hus
                  · show (s'.lab m).dist = A.addW (s'.lab cur).dist c
                    rw [hv.1, hcurlab]
                · rw [hother m e] at hmd2
                  obtain ⟨p, c', mv', g1, g2, g3, g4, g5⟩ := h.edge m hms hmd2
                  have hpc := h.prevClosed m p g1
                  refine ⟨p, c', mv', ?_, g2, ?_, ?_, ?_⟩
                  · show (s'.lab m).prev = some p
                    rw [hother m e]; exact g1
                  · show mv' _ (kPreds s'.lab (fun m' => if m' = n then k else st.kin m') p A.predDepth) = _
                    rw [hkp p hpc]
                    simpa [e, hne' p hpc] using g3
                  · simpa [e, hne' p hpc] using g4
                  · show (s'.lab m).dist = A.addW (s'.lab p).dist c'
                    rw [hother m e, hother p (hne' p hpc)]; exact g5
              · intro u hu' mv' hmv'
                have hu2 : (s'.lab u).closed = true := hu'
                rw [hcl'] at hu2
                show p2 u mv' ∨ ∀ c k_1 v, mv' (if u = n then k else st.kin u)
                  (kPreds s'.lab (fun m' => if m' = n then k else st.kin m') u A.predDepth) = some (c, k_1) →
                  a (if u = n then k else st.kin u) k_1 = .ok true → _ →
                  (s'.lab v).dist ≤ A.addW (s'.lab u).dist c
                rw [hkp u hu2, hother u (hne' u hu2), if_neg (hne' u hu2)]
                have hle : ∀ v, (s'.lab v).dist ≤ (st.s.lab v).dist := by
                  intro v
                  by_cases e : v = n
                  · rw [e, hv.1]; exact hcl.le
                  · rw [hother v e]
                rcases h.relaxed u hu2 mv' hmv' with h1 | h1
                · rcases hp u mv' h1 with h2 | ⟨h2, h3⟩
                  · exact .inl h2
                  · right
                    rw [h2, h3]
                    intro c' k' v e1 e2 e3
                    rw [hm] at e1
                    cases e1
                    rw [hlk] at e3
                    cases e3
                    exact hv.1.le
                · right
                  exact fun c' k' v e1 e2 e3 => (hle v).trans (h1 c' k' v e1 e2 e3)
              · intro x hx
                have hx2 : x ∈ s'.cands := hx
                rw [c1] at hx2
                simp only [hne' x.1 (hcands x hx2), if_false]
                exact h.candGood x hx2
              · intro u hu'
                have hu2 : (s'.lab u).closed = true := hu'
                rw [hcl'] at hu2
                show (s'.lab u).dist ≤ (s'.lab cur).dist
                rw [hcurlab, hother u (hne' u hu2)]
                exact hF u hu2

theorem VKMono.finished {st : KSt N K C P} {cur : N} (h : VKMono A a M cfg kin0 (todo cur []) st) :
    VKMono A a M cfg kin0 nopend st :=
  h.same (s' := st.s) (fun m => ⟨rfl, rfl, rfl, rfl⟩) h.hz rfl rfl
    (fun u mv _ _ hp => by simp [todo] at hp)

theorem vkExpand_mono {L : Lawful P} (ok : KCostOk A cs) (hup : ∀ k k', a k k' = .ok true → A.usable k k' = .ok true)
    (hlo : ∀ k k', i k k' = .ok true → a k k' = .ok true) (hheur : ∀ k g, A.heur k g = A.zero)
    (hadd : ∀ x, A.add x A.zero = x) {cur : N} :
    ∀ (ms : List (K → List K → Option (C × K))) (st : KSt N K C P), (∀ mv ∈ ms, mv ∈ A.moves) →
      VKInv A i cs L cfg kin0 (todo cur ms) st →
      ((st.s.lab cur).closed = true ∧ (st.s.lab cur).opn = false) →
      ((Front st cur ∧ VKMono A a M cfg kin0 (todo cur ms) st) ∨ VKMono A a M cfg kin0 nopend st) →
    ∀ st', kExpand (A.withUsable a) cfg.goal cur ms st = .ok st' → VKMono A a M cfg kin0 nopend st' := by
  intro ms
  induction ms with
  | nil =>
    intro st _ _ _ h st' hk
    cases hk
    rcases h with ⟨_, h⟩ | h
    · exact h.finished
    · exact h
  | cons mv ms ih =>
    intro st hsub hI hcur h st' hk
    rw [kExpand] at hk
    have hmv := hsub mv (by simp)
    have h1 := vkTry_spec ok hup hlo hmv hI hcur
    have hfresh : Front st cur → VKMono A a M cfg kin0 (todo cur (mv :: ms)) st → _ := fun hF hM =>
      vkTry_mono (p2 := todo cur ms) ok hup hheur hadd hmv hI.core hM hcur.1 hI.cands (by
        intro u mv' hp
        obtain ⟨e, hm⟩ := hp
        rcases List.mem_cons.1 hm with e2 | hm
        · exact .inr ⟨e, e2⟩
        · exact .inl ⟨e, hm⟩) (.inl hF)
    have hstale : VKMono A a M cfg kin0 nopend st → _ := fun hM =>
      vkTry_mono (p2 := nopend) ok hup hheur hadd hmv hI.core hM hcur.1 hI.cands (fun u mv' hp => hp.elim)
        (.inr id)
    cases hk1 : kTry (A.withUsable a) cfg.goal cur mv st with
    | throw e => rw [hk1] at hk; cases hk
    | ub => rw [hk1] at hk; cases hk
    | ok st1 =>
      rw [hk1] at hk h1 hfresh hstale
      simp only [CRes.bind] at hk
      refine ih st1 (fun m hm => hsub m (List.mem_cons_of_mem _ hm)) h1.1
        (by rw [h1.2.curLab.2.1, h1.2.curLab.2.2]; exact hcur) ?_ st' hk
      rcases h with ⟨hF, hM⟩ | hM
      · obtain ⟨g1, g2⟩ := hfresh hF hM
        exact .inl ⟨g2 hF, g1⟩
      · exact .inr (hstale hM).1

theorem vkpop_cases {L : Lawful P} (hheur : ∀ k g, A.heur k g = A.zero) (hhg : cfg.heurGoal = none) {st : KSt N K C P}
    (hI : VKInv A i cs L cfg kin0 nopend st) (h : VKMono A a M cfg kin0 nopend st) {cur : N} {o : P.O}
    (hn : P.next st.s.opn = some (cur, o)) :
    let s1 := popNode (A.alg st.s.lab st.kin) cfg st.s cur o
    ((st.s.lab cur).closed = false ∧ Front { s := s1, kin := st.kin } cur ∧
        VKMono A a M cfg kin0 (todo cur A.moves) { s := s1, kin := st.kin }) ∨
      ((st.s.lab cur).closed = true ∧ VKMono A a M cfg kin0 nopend { s := s1, kin := st.kin }) := by
  obtain ⟨k, hent, hmin, hsub, hsup⟩ := M.next_some _ _ _ hn
  have hcd : (st.s.lab cur).dist ≠ ⊤ := hI.memReach cur (L.next_some _ _ _ hn).1
  intro s1
  have hself : s1.lab cur = { st.s.lab cur with
      opn := false, closed := true, expanded := true
      h := match cfg.goal with
        | [] => match cfg.heurGoal with
          | none => (st.s.lab cur).h
          | some H => H cur
        | g :: _ => (A.alg st.s.lab st.kin).heur cur g } := by
    exact setLab_self _ _ _
  have hoth : ∀ n, n ≠ cur → s1.lab n = st.s.lab n := fun n hne => setLab_ne _ _ hne
  have hd : ∀ n, (s1.lab n).dist = (st.s.lab n).dist := by
    intro n
    by_cases e : n = cur
    · subst e; rw [hself]
    · rw [hoth n e]
  have hpr : ∀ n, (s1.lab n).prev = (st.s.lab n).prev := by
    intro n
    by_cases e : n = cur
    · subst e; rw [hself]
    · rw [hoth n e]
  have hcl : ∀ n, (st.s.lab n).closed = true → (s1.lab n).closed = true := by
    intro n h1
    by_cases e : n = cur
    · subst e; rw [hself]
    · rw [hoth n e]; exact h1
  have hcl' : ∀ n, (s1.lab n).closed = true → n = cur ∨ (st.s.lab n).closed = true := by
    intro n h1
    by_cases e : n = cur
    · exact .inl e
    · rw [hoth n e] at h1; exact .inr h1
  have hop : ∀ n, (s1.lab n).opn = true → n ≠ cur ∧ (st.s.lab n).opn = true := by
    intro n h1
    by_cases e : n = cur
    · subst e; rw [hself] at h1; cases h1
    · rw [hoth n e] at h1; exact ⟨e, h1⟩
  have hcurk : (st.s.lab cur).dist ≤ k := h.entKey cur k hent
  have build : ∀ pend : N → (K → List K → Option (C × K)) → Prop,
      (∀ mv ∈ A.moves, pend cur mv ∨ (st.s.lab cur).closed = true) →
      VKMono A a M cfg kin0 pend { s := s1, kin := st.kin } := by
    intro pend hpend
    refine ⟨?_, ?_, ?_, ?_, ?_, ?_, ?_, ?_, h.candGood⟩
    · intro n
      show (s1.lab n).h = A.zero
      by_cases e : n = cur
      · subst e
        rw [hself]
        simp only
        cases cfg.goal with
        | nil => rw [hhg]; exact h.hz n
        | cons g gs => exact hheur _ _
      · rw [hoth n e]; exact h.hz n
    · intro n k' hk'
      show (s1.lab n).dist ≤ k'
      rw [hd]; exact h.entKey n k' (hsub n k' hk')
    · intro n hn'
      obtain ⟨e, h1⟩ := hop n hn'
      show M.ent o n (s1.lab n).dist
      rw [hd]
      rcases hsup n _ (h.openEnt n h1) with ⟨e', _⟩ | h2
      · exact absurd e' e
      · exact h2
    · intro u hu n k' hk'
      show (s1.lab u).dist ≤ k'
      rw [hd]
      rcases hcl' u hu with e | h1
      · rw [e]; exact hcurk.trans (hmin n k' (hsub n k' hk'))
      · exact h.bound u h1 n k' (hsub n k' hk')
    · intro n hn'
      show (s1.lab n).opn = false
      by_cases e : n = cur
      · subst e; rw [hself]
      · rw [hoth n e]
        rcases hcl' n hn' with e' | h1
        · exact absurd e' e
        · exact h.sep n h1
    · intro n p hp
      have hp' : (s1.lab n).prev = some p := hp
      rw [hpr] at hp'
      exact hcl p (h.prevClosed n p hp')
    · intro n hns hnd
      have hnd' : (s1.lab n).dist ≠ ⊤ := hnd
      rw [hd] at hnd'
      obtain ⟨p, c, mv, e1, e2, e3, e4, e5⟩ := h.edge n hns hnd'
      exact ⟨p, c, mv, (hpr n).trans e1, e2, (by rw [kPreds_same hpr]; exact e3), e4,
        (by show (s1.lab n).dist = A.addW (s1.lab p).dist c; rw [hd, hd]; exact e5)⟩
    · intro u hu mv hmv
      show pend u mv ∨ ∀ c k v, mv (st.kin u) (kPreds s1.lab st.kin u A.predDepth) = some (c, k) → _ → _ →
        (s1.lab v).dist ≤ A.addW (s1.lab u).dist c
      rw [kPreds_same hpr, hd u]
      simp only [hd]
      by_cases e : u = cur
      · subst e
        rcases hpend mv hmv with h1 | h1
        · exact .inl h1
        · rcases h.relaxed u h1 mv hmv with h2 | h2
          · exact h2.elim
          · exact .inr h2
      · rcases hcl' u hu with e' | h1
        · exact absurd e' e
        · rcases h.relaxed u h1 mv hmv with h2 | h2
          · exact h2.elim
          · exact .inr h2
  by_cases hc : (st.s.lab cur).closed = true
  · exact .inr ⟨hc, build nopend fun mv _ => .inr hc⟩
  · left
    refine ⟨by simpa using hc, ?_, build _ fun mv hmv => .inl ⟨rfl, hmv⟩⟩
    have hopn : (st.s.lab cur).opn = true := by
      rcases ((hI.core st.s.lab st.kin).reach cur).1 hcd with h1 | h1
      · exact h1
      · exact absurd h1 hc
    have hk : k ≤ (st.s.lab cur).dist := hmin cur _ (h.openEnt cur hopn)
    intro u hu
    show (s1.lab u).dist ≤ (s1.lab cur).dist
    rw [hd, hd]
    rcases hcl' u hu with e | h1
    · rw [e]
    · exact (h.bound u h1 cur k hent).trans hk

theorem vkpop_mono {L : Lawful P} (hheur : ∀ k g, A.heur k g = A.zero) (hhg : cfg.heurGoal = none) {st : KSt N K C P}
    (hI : VKInv A i cs L cfg kin0 nopend st) (h : VKMono A a M cfg kin0 nopend st) {cur : N} {o : P.O}
    (hn : P.next st.s.opn = some (cur, o)) :
    let s1 := popNode (A.alg st.s.lab st.kin) cfg st.s cur o
    (Front { s := s1, kin := st.kin } cur ∧ VKMono A a M cfg kin0 (todo cur A.moves) { s := s1, kin := st.kin }) ∨
      VKMono A a M cfg kin0 nopend { s := s1, kin := st.kin } :=
  (vkpop_cases hheur hhg hI h hn).imp And.right And.right

theorem vkIterate_mono {L : Lawful P} (ok : KCostOk A cs) (hup : ∀ k k', a k k' = .ok true → A.usable k k' = .ok true)
    (hlo : ∀ k k', i k k' = .ok true → a k k' = .ok true) (ht : TopOk cfg.top)
    (hheur : ∀ k g, A.heur k g = A.zero) (hhg : cfg.heurGoal = none)
    (hadd : ∀ x, A.add x A.zero = x) {st : KSt N K C P}
    (h : VKInv A i cs L cfg kin0 nopend st) (hM : VKMono A a M cfg kin0 nopend st) :
    match kIterate (A.withUsable a) cfg st with
    | .more st' => VKMono A a M cfg kin0 nopend st'
    | .done r st' => MonoDone A cfg kin0 r st' := by
  rw [kIterate_wu]
  cases hn : P.next st.s.opn with
  | none => exact mono_finish ht h.core h.cands hM.edge hM.candGood
  | some co =>
    obtain ⟨cur, o⟩ := co
    simp only
    by_cases hab : cfg.abort st.s.expansions = true
    · rw [if_pos hab]; exact mono_finish ht h.core h.cands hM.edge hM.candGood
    · rw [if_neg hab]
      obtain ⟨hx, hd, hp, hoth, hcs, hf, he, hopn1⟩ := vkpop_spec h hn (B := A.alg st.s.lab st.kin)
      have hpm := vkpop_mono hheur hhg h hM hn
      simp only at hpm
      generalize popNode (A.alg st.s.lab st.kin) cfg st.s cur o = s1 at *
      have hC := hx.core s1.lab st.kin
      obtain ⟨t, ht1, hlab, hopn, hexp, hmono, hcand, hnoc, hterm, hnot, _, _⟩ :=
        goalLoop_spec (A := A.full cs s1.lab st.kin) (cfg := A.cfg cfg st.kin) (P := P) (cur := cur)
          cfg.goal s1 (fun g hg => hg) hC hx.curOk.1
      rw [goalLoop_full A cs]
      rw [ht1]
      simp only
      have hgk : ∀ g, st.kin g = kin0 g ∨
          (A.lookup (st.kin g) = .ok (some g) ∧ Reachable A cfg.start kin0 (st.kin g)) := fun g =>
        (h.goalKin g).imp id And.right
      have hcr : Reachable A cfg.start kin0 (st.kin cur) :=
        h.reachable (by rw [← hd cur]; exact (hC.reach _).2 (.inr hx.curOk.1))
      -- the invariant after the goal test
      have hall : ∀ pend, VKMono A a M cfg kin0 pend { s := s1, kin := st.kin } →
          VKMono A a M cfg kin0 pend { s := t.st, kin := st.kin } := by
        intro pend q
        refine ⟨?_, ?_, ?_, ?_, ?_, ?_, ?_, ?_, ?_⟩
        · show ∀ n, (t.st.lab n).h = A.zero
          rw [hlab]; exact q.hz
        · show ∀ n k, M.ent t.st.opn n k → (t.st.lab n).dist ≤ k
          rw [hlab, hopn]; exact q.entKey
        · show ∀ n, (t.st.lab n).opn = true → M.ent t.st.opn n (t.st.lab n).dist
          rw [hlab, hopn]; exact q.openEnt
        · show ∀ u, (t.st.lab u).closed = true → ∀ n k, M.ent t.st.opn n k → (t.st.lab u).dist ≤ k
          rw [hlab, hopn]; exact q.bound
        · show ∀ n, (t.st.lab n).closed = true → (t.st.lab n).opn = false
          rw [hlab]; exact q.sep
        · show ∀ n p, (t.st.lab n).prev = some p → (t.st.lab p).closed = true
          rw [hlab]; exact q.prevClosed
        · show ∀ n, n ∉ cfg.start → (t.st.lab n).dist ≠ ⊤ → XEdge A t.st.lab st.kin n
          rw [hlab]; exact q.edge
        · show ∀ u, (t.st.lab u).closed = true → ∀ mv ∈ A.moves, pend u mv ∨
            ∀ c k v, mv (st.kin u) (kPreds t.st.lab st.kin u A.predDepth) = some (c, k) → _ → _ →
              (t.st.lab v).dist ≤ A.addW (t.st.lab u).dist c
          rw [hlab]; exact q.relaxed
        · intro x hx1
          rcases hcand x hx1 with h1 | ⟨e, g, hg, h1, h2⟩
          · exact q.candGood x h1
          · show GoalMet A cfg.start cfg.goal kin0 (st.kin x.1) x.2
            rw [e]
            exact ⟨hcr, g, hg, st.kin g, _, h1, h2, hgk g⟩
      have hM1 : ∃ pend, VKMono A a M cfg kin0 pend { s := t.st, kin := st.kin } := by
        rcases hpm with ⟨_, q⟩ | q
        · exact ⟨_, hall _ q⟩
        · exact ⟨_, hall _ q⟩
      obtain ⟨pend, hM2⟩ := hM1
      have hcore : KCore A cs cfg.start t.st.lab := by rw [hlab]; exact hx.core
      have hclosed : ∀ x ∈ t.st.cands, (t.st.lab x.1).closed = true := by
        intro x hx1
        rw [hlab]
        rcases hcand x hx1 with h1 | h1
        · exact hx.cands x h1
        · rw [h1.1]; exact hx.curOk.1
      have hfin : MonoDone A cfg kin0 (finish cfg t.st) { s := t.st, kin := st.kin } :=
        mono_finish (st := { s := t.st, kin := st.kin }) ht hcore hclosed hM2.edge hM2.candGood
      by_cases hT : t.term = true
      · rw [if_pos hT]
        obtain ⟨d, hb, g, hg, hgg⟩ := hterm hT
        rw [if_pos hb.ne_nil]
        constructor
        intro p hp' _
        cases hp'
        refine ⟨hM2.edge, cur, A.full cs s1.lab st.kin, d, _, ?_, ?_,
          ⟨hcr, g, hg, st.kin g, _, hgg, rfl, hgk g⟩⟩
        · show (t.st.lab cur).dist ≠ ⊤
          rw [hlab]; exact (hC.reach _).2 (.inr hx.curOk.1)
        · show Back _ cfg.start t.st.lab cur t.result d
          rw [hlab]; exact hb
      · rw [if_neg hT]
        by_cases hov : (cfg.useCands && !t.st.cands.isEmpty &&
            decide ((A.alg t.st.lab st.kin).addW t.st.firstW cfg.oversearch <
              (A.alg t.st.lab st.kin).total (t.st.lab cur))) = true
        · rw [if_pos hov]; exact hfin
        · rw [if_neg hov]
          have hgood : ∀ x ∈ t.st.cands, ∃ k, GoalMet A cfg.start cfg.goal kin0 k x.2 ∧
              (k = st.kin x.1 ∨ (x.1 ∉ cfg.start ∧ A.lookup k = .ok (some x.1))) := by
            intro x hx1
            exact ⟨st.kin x.1, hM2.candGood x hx1, .inl rfl⟩
          have hX : VKInv A i cs L cfg kin0 (todo cur A.moves) { s := t.st, kin := st.kin } :=
            hx.afterTest hlab hopn hmono hclosed hgood (fun g hg hgg e => by
              have := (hnot (by simpa using hT) g hg hgg).2
              rw [e] at this; cases this)
          have hE := vkExpand_mono (M := M) ok hup hlo hheur hadd A.moves { s := t.st, kin := st.kin }
            (fun m hm => hm) hX
            (by show (t.st.lab cur).closed = true ∧ (t.st.lab cur).opn = false; rw [hlab]; exact hx.curOk)
            (by
              rcases hpm with ⟨hF, q⟩ | q
              · left
                refine ⟨?_, hall _ q⟩
                show ∀ u, (t.st.lab u).closed = true → (t.st.lab u).dist ≤ (t.st.lab cur).dist
                rw [hlab]; exact hF
              · exact .inr (hall _ q))
          cases hk : kExpand (A.withUsable a) cfg.goal cur A.moves { s := t.st, kin := st.kin } with
          | throw e => exact ⟨by simp⟩
          | ub => exact ⟨by simp⟩
          | ok st' => exact hE st' hk

theorem vkInit_mono (L : Lawful P) (hadd : ∀ x, A.add x A.zero = x) :
    VKMono A a M cfg kin0 nopend (kInit A P cfg kin0) := by
  obtain ⟨k1, k2, k3, k4, k5⟩ :=
    init_facts (A := A.alg (fun _ => Label.fresh A.zero) kin0) (L := L) (cfg := cfg)
  obtain ⟨g1, g2, g3, g4⟩ := init_ents (M := M) (B := A.alg (fun _ => Label.fresh A.zero) kin0) (hadd _)
    cfg.start
    { lab := freshLabels (A.alg (fun _ => Label.fresh A.zero) kin0), opn := P.empty, cands := [],
      firstW := (A.zero : WithTop C), expansions := 0, multi := 0, touched := 0, updates := 0 }
    (fun n => rfl)
  have hs : (kInit A P cfg kin0).s = initSearch (A.alg (fun _ => Label.fresh A.zero) kin0) P cfg
      (freshLabels (A.alg (fun _ => Label.fresh A.zero) kin0)) := rfl
  have hclosed : ∀ u, ((kInit A P cfg kin0).s.lab u).closed = false := by
    intro u
    rw [hs]
    by_cases hu : u ∈ cfg.start
    · rw [k1 u hu]; rfl
    · rw [k2 u hu]; rfl
  have hprev : ∀ u, ((kInit A P cfg kin0).s.lab u).prev = none := by
    intro u
    rw [hs]
    by_cases hu : u ∈ cfg.start
    · rw [k1 u hu]; rfl
    · rw [k2 u hu]; rfl
  refine ⟨g1, ?_, ?_, ?_, ?_, ?_, ?_, ?_, ?_⟩
  · intro n k hk
    rcases g2 n k hk with h1 | ⟨h1, h2⟩
    · exact absurd h1 (M.empty_ent n k)
    · rw [hs, k1 n h1, h2]; exact le_refl _
  · intro n hn
    by_cases hu : n ∈ cfg.start
    · rw [hs, k1 n hu]
      exact g4 n hu
    · rw [hs, k2 n hu] at hn; cases hn
  · intro u hu; rw [hclosed u] at hu; cases hu
  · intro u hu; rw [hclosed u] at hu; cases hu
  · intro n p hp; rw [hprev n] at hp; cases hp
  · intro n hn hd
    rw [hs, k2 n hn] at hd
    exact absurd rfl hd
  · intro u hu; rw [hclosed u] at hu; cases hu
  · intro x hx
    rw [hs, k5] at hx; cases hx


/-- A map that accepts less. -/
theorem VKMono.weaken {a' : K → K → CRes Bool} (hle : ∀ k k', a' k k' = .ok true → a k k' = .ok true)
    {pend} {st : KSt N K C P} (h : VKMono A a M cfg kin0 pend st) : VKMono A a' M cfg kin0 pend st :=
  { h with
    relaxed := fun u hu mv hmv => (h.relaxed u hu mv hmv).imp id fun h1 c k v e1 e2 e3 => h1 c k v e1 (hle _ _ e2) e3 }

end
end PathPlanning.KDur
