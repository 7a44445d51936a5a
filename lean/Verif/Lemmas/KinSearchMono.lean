import Verif.Lemmas.KinSearchRun

/-!
# Search over nodes with stored poses without heuristic

Without heuristic the nodes leave a priority queue in the order of their distances, so that the pose of an
expanded node is never overwritten.
-/

namespace PathPlanning
open Spec
set_option linter.unusedSectionVars false

variable {N K C : Type} [DecidableEq N] [LinearOrder C] [Fintype N]
variable {P : OpenList N C}

/-- The step that gave node `n` its pose, from the pose its predecessor still has. -/
def XEdge (A : KAlgo N K C) (lab : Labels N C) (kin : N → K) (n : N) : Prop :=
  ∃ p c mv, (lab n).prev = some p ∧ mv ∈ A.moves ∧
    mv (kin p) (kPreds lab kin p A.predDepth) = some (c, kin n) ∧ A.usable (kin p) (kin n) = .ok true ∧
    (lab n).dist = A.addW (lab p).dist c

structure KMono (A : KAlgo N K C) (M : MinFirst P) (cfg : SCfg N C) (kin0 : N → K)
    (pend : N → (K → List K → Option (C × K)) → Prop) (st : KSt N K C P) : Prop where
  hz : ∀ n, (st.s.lab n).h = A.zero
  entKey : ∀ n k, M.ent st.s.opn n k → (st.s.lab n).dist ≤ k
  openEnt : ∀ n, (st.s.lab n).opn = true → M.ent st.s.opn n (st.s.lab n).dist
  bound : ∀ u, (st.s.lab u).closed = true → ∀ n k, M.ent st.s.opn n k → (st.s.lab u).dist ≤ k
  sep : ∀ n, (st.s.lab n).closed = true → (st.s.lab n).opn = false
  prevClosed : ∀ n p, (st.s.lab n).prev = some p → (st.s.lab p).closed = true
  edge : ∀ n, n ∉ cfg.start → (st.s.lab n).dist ≠ ⊤ → XEdge A st.s.lab st.kin n
  relaxed : ∀ u, (st.s.lab u).closed = true → ∀ mv ∈ A.moves, pend u mv ∨
    ∀ c k v, mv (st.kin u) (kPreds st.s.lab st.kin u A.predDepth) = some (c, k) →
      A.usable (st.kin u) k = .ok true → A.lookup k = .ok (some v) →
      (st.s.lab v).dist ≤ A.addW (st.s.lab u).dist c
  candGood : ∀ x ∈ st.s.cands, GoalMet A cfg.start cfg.goal kin0 (st.kin x.1) x.2

section
variable {A : KAlgo N K C} {cs : List C} {M : MinFirst P} {cfg : SCfg N C} {kin0 : N → K}

theorem kPreds_same {lab lab' : Labels N C} {kin : N → K} (h : ∀ m, (lab' m).prev = (lab m).prev) (n : N) :
    ∀ d, kPreds lab' kin n d = kPreds lab kin n d := by
  intro d
  induction d generalizing n with
  | zero => rfl
  | succ d ih =>
    rw [kPreds, kPreds, h n]
    cases (lab n).prev with
    | none => rfl
    | some p => simp only; rw [ih]

theorem kPreds_closed {lab lab' : Labels N C} {kin kin' : N → K} (S : N → Prop)
    (h1 : ∀ m, S m → (lab' m).prev = (lab m).prev ∧ kin' m = kin m)
    (h2 : ∀ m p, (lab m).prev = some p → S p) (n : N) (hn : S n) :
    ∀ d, kPreds lab' kin' n d = kPreds lab kin n d := by
  intro d
  induction d generalizing n with
  | zero => rfl
  | succ d ih =>
    rw [kPreds, kPreds, (h1 n hn).1]
    cases hp : (lab n).prev with
    | none => rfl
    | some p =>
      have := h2 n p hp
      simp only
      rw [ih p this, (h1 p this).2]

theorem process_h {B : Algo N C} {z : C} (hh : ∀ a b, B.heur a b = z) {goal : List N} {st : SSt N C P}
    (hz : ∀ n, (st.lab n).h = z) (cur nb : N) (c : C) :
    ∀ n, ((processNeighbor B goal st cur nb c).lab n).h = z := by
  intro n
  unfold processNeighbor
  have h0 : ∀ m, (setLab st.lab nb { st.lab nb with watched := true } m).h = z := by
    intro m
    by_cases e : m = nb
    · subst e; rw [setLab_self]; exact hz m
    · rw [setLab_ne _ _ e]; exact hz m
  simp only
  split_ifs <;> first
    | exact h0 n
    | (by_cases e : n = nb
       · subst e
         simp only [setLab_self]
         cases goal with
         | nil => exact hz n
         | cons g gs => exact hh _ _
       · simp only [setLab_ne _ _ e]; exact hz n)

theorem KMono.same {pend pend' : N → (K → List K → Option (C × K)) → Prop} {st : KSt N K C P}
    (h : KMono A M cfg kin0 pend st) {s' : SSt N C P} (hs : ∀ m, SameLab (st.s.lab m) (s'.lab m))
    (hh : ∀ m, (s'.lab m).h = A.zero)
    (ho : s'.opn = st.s.opn) (hc : s'.cands = st.s.cands)
    (hp : ∀ u mv, mv ∈ A.moves → (st.s.lab u).closed = true → pend u mv → pend' u mv ∨
      ∀ c k v, mv (st.kin u) (kPreds st.s.lab st.kin u A.predDepth) = some (c, k) →
      A.usable (st.kin u) k = .ok true → A.lookup k = .ok (some v) →
      (st.s.lab v).dist ≤ A.addW (st.s.lab u).dist c) :
    KMono A M cfg kin0 pend' { s := s', kin := st.kin } := by
  have hd : ∀ m, (s'.lab m).dist = (st.s.lab m).dist := fun m => (hs m).1
  have hpr : ∀ m, (s'.lab m).prev = (st.s.lab m).prev := fun m => (hs m).2.1
  have hop : ∀ m, (s'.lab m).opn = (st.s.lab m).opn := fun m => (hs m).2.2.1
  have hcl : ∀ m, (s'.lab m).closed = (st.s.lab m).closed := fun m => (hs m).2.2.2
  refine ⟨hh, ?_, ?_, ?_, ?_, ?_, ?_, ?_, ?_⟩
  · intro n k hk
    show (s'.lab n).dist ≤ k
    have hk' : M.ent s'.opn n k := hk
    rw [ho] at hk'; rw [hd]; exact h.entKey n k hk'
  · intro n hn
    show M.ent s'.opn n (s'.lab n).dist
    have hn' : (s'.lab n).opn = true := hn
    rw [hop] at hn'; rw [ho, hd]; exact h.openEnt n hn'
  · intro u hu n k hk
    show (s'.lab u).dist ≤ k
    have hu' : (s'.lab u).closed = true := hu
    have hk' : M.ent s'.opn n k := hk
    rw [ho] at hk'; rw [hcl] at hu'; rw [hd]; exact h.bound u hu' n k hk'
  · intro n hn
    show (s'.lab n).opn = false
    have hn' : (s'.lab n).closed = true := hn
    rw [hcl] at hn'; rw [hop]; exact h.sep n hn'
  · intro n p hp'
    show (s'.lab p).closed = true
    have hp2 : (s'.lab n).prev = some p := hp'
    rw [hpr] at hp2; rw [hcl]; exact h.prevClosed n p hp2
  · intro n hn hnd
    have hnd' : (s'.lab n).dist ≠ ⊤ := hnd
    rw [hd] at hnd'
    obtain ⟨p, c, mv, e1, e2, e3, e4, e5⟩ := h.edge n hn hnd'
    exact ⟨p, c, mv, (hpr n).trans e1, e2, (by rw [kPreds_same hpr]; exact e3), e4,
      (by show (s'.lab n).dist = A.addW (s'.lab p).dist c; rw [hd, hd]; exact e5)⟩
  · intro u hu mv hmv
    have hu' : (s'.lab u).closed = true := hu
    rw [hcl] at hu'
    show pend' u mv ∨ ∀ c k v, mv (st.kin u) (kPreds s'.lab st.kin u A.predDepth) = some (c, k) → _ → _ →
      (s'.lab v).dist ≤ A.addW (s'.lab u).dist c
    rw [kPreds_same hpr, hd u]
    simp only [hd]
    rcases h.relaxed u hu' mv hmv with h1 | h1
    · exact hp u mv hmv hu' h1
    · exact .inr h1
  · intro x hx
    have hx' : x ∈ s'.cands := hx
    rw [hc] at hx'; exact h.candGood x hx'

/-- All expanded nodes are at most as far as `cur`. -/
def Front (st : KSt N K C P) (cur : N) : Prop :=
  ∀ u, (st.s.lab u).closed = true → (st.s.lab u).dist ≤ (st.s.lab cur).dist

theorem kTry_mono (ok : KCostOk A cs) (hheur : ∀ k g, A.heur k g = A.zero)
    (hadd : ∀ a, A.add a A.zero = a) {st : KSt N K C P} {cur : N} {mv} (hmv : mv ∈ A.moves)
    (hC : KCore A cs cfg.start st.s.lab) {p1 p2 : N → (K → List K → Option (C × K)) → Prop}
    (h : KMono A M cfg kin0 p1 st) (hcur : (st.s.lab cur).closed = true)
    (hcands : ∀ x ∈ st.s.cands, (st.s.lab x.1).closed = true)
    (hp : ∀ u mv', p1 u mv' → p2 u mv' ∨ (u = cur ∧ mv' = mv))
    (hf : Front st cur ∨ ¬ p1 cur mv) :
    match kTry A cfg.goal cur mv st with
    | .ok st' => KMono A M cfg kin0 p2 st' ∧ (Front st cur → Front st' cur)
    | _ => True := by
  have hC' := hC st.s.lab st.kin
  have hcase0 : ∀ s' : SSt N C P, s' = st.s →
      (∀ c k v, mv (st.kin cur) (kPreds st.s.lab st.kin cur A.predDepth) = some (c, k) →
        A.usable (st.kin cur) k = .ok true → A.lookup k = .ok (some v) →
        (st.s.lab v).dist ≤ A.addW (st.s.lab cur).dist c) →
      KMono A M cfg kin0 p2 { s := s', kin := st.kin } := by
    intro s' hs' hd
    subst hs'
    refine h.same (fun m => ⟨rfl, rfl, rfl, rfl⟩) h.hz rfl rfl ?_
    intro u mv' _ _ hpend
    rcases hp u mv' hpend with h1 | ⟨h1, h2⟩
    · exact .inl h1
    · right; rw [h1, h2]; exact hd
  unfold kTry
  cases hm : mv (st.kin cur) (kPreds st.s.lab st.kin cur A.predDepth) with
  | none =>
    simp only
    exact ⟨hcase0 _ rfl (fun c k v e => by rw [hm] at e; cases e), id⟩
  | some ck =>
    obtain ⟨c, k⟩ := ck
    simp only
    cases hus : A.usable (st.kin cur) k with
    | throw e => trivial
    | ub => trivial
    | ok b =>
      simp only [CRes.bind]
      cases b with
      | false =>
        simp only [Bool.false_eq_true, if_false]
        refine ⟨hcase0 _ rfl (fun c' k' v e1 e2 => ?_), id⟩
        rw [hm] at e1
        cases e1
        rw [hus] at e2
        cases e2
      | true =>
        simp only [if_true]
        cases hlk : A.lookup k with
        | throw e => trivial
        | ub => trivial
        | ok r =>
          simp only
          cases r with
          | none =>
            refine ⟨hcase0 _ rfl (fun c' k' v e1 e2 e3 => ?_), id⟩
            rw [hm] at e1
            cases e1
            rw [hlk] at e3
            cases e3
          | some n =>
            simp only
            have hcs : c ∈ cs := ok.costs mv hmv _ _ _ _ hm
            have hu : (st.s.lab cur).dist ≠ ⊤ := (hC'.reach cur).2 (.inr hcur)
            obtain ⟨c1, c2, c3, hcase⟩ := process_cases_reach (A := A.alg st.s.lab st.kin)
              (goal := cfg.goal) (c := c) (hC'.reach n) hu
            have haddn := processAdds_iff (A := A) (c := c) (hC'.reach n) hu
            have hh := process_h (B := A.alg st.s.lab st.kin) (z := A.zero) (fun a b => hheur _ _)
              (goal := cfg.goal) h.hz cur n c
            generalize processNeighbor (A.alg st.s.lab st.kin) cfg.goal st.s cur n c = s' at *
            simp only [KAlgo.alg_addW] at hcase
            rcases hcase with ⟨hncl, hop, hsame⟩ | ⟨hcl, hop, hv, hvc, _, hother⟩
            · -- not closer
              have : processAdds A st.s cur n c = false := by
                rw [← Bool.not_eq_true, haddn]; exact hncl
              rw [this]
              simp only [Bool.false_eq_true, if_false]
              have hs : ∀ m, SameLab (st.s.lab m) (s'.lab m) := fun m => (hsame m).1
              refine ⟨?_, fun hF u hu' => ?_⟩
              · refine h.same hs hh hop c1 ?_
                intro u mv' _ _ hpend
                rcases hp u mv' hpend with h1 | ⟨h1, h2⟩
                · exact .inl h1
                · right
                  rw [h1, h2]
                  intro c' k' v e1 e2 e3
                  rw [hm] at e1
                  cases e1
                  rw [hlk] at e3
                  cases e3
                  exact not_lt.1 hncl
              · have hu2 : (s'.lab u).closed = true := hu'
                show (s'.lab u).dist ≤ (s'.lab cur).dist
                rw [(hs u).2.2.2] at hu2
                rw [(hs u).1, (hs cur).1]; exact hF u hu2
            · -- closer
              have hF : Front st cur := by
                rcases hf with hf | hf
                · exact hf
                · rcases h.relaxed cur hcur mv hmv with h1 | h1
                  · exact absurd h1 hf
                  · exact absurd (h1 c k n hm hus hlk) (not_le.2 hcl)
              rw [haddn.2 hcl]
              simp only [if_true]
              have hne : n ≠ cur := by
                rintro rfl
                exact absurd (ok.le_addW hcs _) (not_le.2 hcl)
              rw [if_neg hne]
              have hnclosed : (st.s.lab n).closed = false := by
                rw [← Bool.not_eq_true]
                intro hc
                exact absurd ((hF n hc).trans (ok.le_addW hcs _)) (not_le.2 hcl)
              have hcurlab : s'.lab cur = st.s.lab cur := hother cur (Ne.symm hne)
              have hcl' : ∀ m, (s'.lab m).closed = (st.s.lab m).closed := by
                intro m
                by_cases e : m = n
                · subst e; exact hvc
                · rw [hother m e]
              have hkp : ∀ u, (st.s.lab u).closed = true →
                  kPreds s'.lab (fun m => if m = n then k else st.kin m) u A.predDepth =
                    kPreds st.s.lab st.kin u A.predDepth := by
                intro u hu'
                refine kPreds_closed (fun m => (st.s.lab m).closed = true) ?_ h.prevClosed u hu' _
                intro m hm'
                have : m ≠ n := fun e => by rw [e, hnclosed] at hm'; cases hm'
                rw [hother m this]
                exact ⟨rfl, by simp [this]⟩
              have htot : (A.alg st.s.lab st.kin).total (s'.lab n) = A.addW (st.s.lab cur).dist c := by
                unfold Algo.total
                rw [hh n, A.alg_addW, hv.1]
                obtain ⟨e, he⟩ := WithTop.ne_top_iff_exists.1 hu
                rw [← he, A.addW_coe, A.addW_coe, hadd]
              have hne' : ∀ u, (st.s.lab u).closed = true → u ≠ n := by
                intro u hu' e
                rw [e, hnclosed] at hu'; cases hu'
              refine ⟨⟨hh, ?_, ?_, ?_, ?_, ?_, ?_, ?_, ?_⟩, fun _ => ?_⟩
              · intro m k' hk'
                have hk2 : M.ent s'.opn m k' := hk'
                show (s'.lab m).dist ≤ k'
                rw [hop, htot] at hk2
                rcases (M.add_ent _ _ _ _ _).1 hk2 with ⟨e1, e2⟩ | h1
                · rw [e1, e2, hv.1]
                · by_cases e : m = n
                  · subst e; rw [hv.1]; exact hcl.le.trans (h.entKey m k' h1)
                  · rw [hother m e]; exact h.entKey m k' h1
              · intro m hm'
                have hm2 : (s'.lab m).opn = true := hm'
                show M.ent s'.opn m (s'.lab m).dist
                rw [hop, htot]
                by_cases e : m = n
                · exact (M.add_ent _ _ _ _ _).2 (.inl ⟨e, by rw [e, hv.1]⟩)
                · rw [hother m e] at hm2 ⊢
                  exact (M.add_ent _ _ _ _ _).2 (.inr (h.openEnt m hm2))
              · intro u hu' m k' hk'
                have hk2 : M.ent s'.opn m k' := hk'
                have hu2 : (s'.lab u).closed = true := hu'
                show (s'.lab u).dist ≤ k'
                rw [hcl'] at hu2
                rw [hop, htot] at hk2
                rw [hother u (hne' u hu2)]
                rcases (M.add_ent _ _ _ _ _).1 hk2 with ⟨_, e2⟩ | h1
                · rw [e2]; exact (hF u hu2).trans (ok.le_addW hcs _)
                · exact h.bound u hu2 m k' h1
              · intro m hm'
                have hm2 : (s'.lab m).closed = true := hm'
                show (s'.lab m).opn = false
                rw [hcl'] at hm2
                rw [hother m (hne' m hm2)]
                exact h.sep m hm2
              · intro m p hp'
                have hp2 : (s'.lab m).prev = some p := hp'
                show (s'.lab p).closed = true
                rw [hcl']
                by_cases e : m = n
                · rw [e, hv.2.1] at hp2
                  cases hp2
                  exact hcur
                · rw [hother m e] at hp2
                  exact h.prevClosed m p hp2
              · intro m hms hmd
                have hmd2 : (s'.lab m).dist ≠ ⊤ := hmd
                by_cases e : m = n
                · subst e
                  refine ⟨cur, c, mv, hv.2.1, hmv, ?_, ?_, ?_⟩
                  · show mv _ (kPreds s'.lab (fun m' => if m' = m then k else st.kin m') cur A.predDepth) = _
                    rw [hkp cur hcur]
                    simpa [Ne.symm hne] using hm
                  · simpa [Ne.symm hne] using hus
                  · show (s'.lab m).dist = A.addW (s'.lab cur).dist c
                    rw [hv.1, hcurlab]
                · rw [hother m e] at hmd2
                  obtain ⟨p, c', mv', g1, g2, g3, g4, g5⟩ := h.edge m hms hmd2
                  have hpc := h.prevClosed m p g1
                  refine ⟨p, c', mv', ?_, g2, ?_, ?_, ?_⟩
                  · show (s'.lab m).prev = some p
                    rw [hother m e]; exact g1
                  · show mv' _ (kPreds s'.lab (fun m' => if m' = n then k else st.kin m') p A.predDepth) = _
                    rw [hkp p hpc]
                    simpa [e, hne' p hpc] using g3
                  · simpa [e, hne' p hpc] using g4
                  · show (s'.lab m).dist = A.addW (s'.lab p).dist c'
                    rw [hother m e, hother p (hne' p hpc)]; exact g5
              · intro u hu' mv' hmv'
                have hu2 : (s'.lab u).closed = true := hu'
                rw [hcl'] at hu2
                show p2 u mv' ∨ ∀ c k_1 v, mv' (if u = n then k else st.kin u)
                  (kPreds s'.lab (fun m' => if m' = n then k else st.kin m') u A.predDepth) = some (c, k_1) →
                  A.usable (if u = n then k else st.kin u) k_1 = .ok true → _ →
                  (s'.lab v).dist ≤ A.addW (s'.lab u).dist c
                rw [hkp u hu2, hother u (hne' u hu2), if_neg (hne' u hu2)]
                have hle : ∀ v, (s'.lab v).dist ≤ (st.s.lab v).dist := by
                  intro v
                  by_cases e : v = n
                  · rw [e, hv.1]; exact hcl.le
                  · rw [hother v e]
                rcases h.relaxed u hu2 mv' hmv' with h1 | h1
                · rcases hp u mv' h1 with h2 | ⟨h2, h3⟩
                  · exact .inl h2
                  · right
                    rw [h2, h3]
                    intro c' k' v e1 e2 e3
                    rw [hm] at e1
                    cases e1
                    rw [hlk] at e3
                    cases e3
                    exact hv.1.le
                · right
                  exact fun c' k' v e1 e2 e3 => (hle v).trans (h1 c' k' v e1 e2 e3)
              · intro x hx
                have hx2 : x ∈ s'.cands := hx
                rw [c1] at hx2
                simp only [hne' x.1 (hcands x hx2), if_false]
                exact h.candGood x hx2
              · intro u hu'
                have hu2 : (s'.lab u).closed = true := hu'
                rw [hcl'] at hu2
                show (s'.lab u).dist ≤ (s'.lab cur).dist
                rw [hcurlab, hother u (hne' u hu2)]
                exact hF u hu2

theorem KMono.finished {st : KSt N K C P} {cur : N} (h : KMono A M cfg kin0 (todo cur []) st) :
    KMono A M cfg kin0 nopend st :=
  h.same (s' := st.s) (fun m => ⟨rfl, rfl, rfl, rfl⟩) h.hz rfl rfl
    (fun u mv _ _ hp => by simp [todo] at hp)

theorem kExpand_mono {L : Lawful P} (ok : KCostOk A cs) (hheur : ∀ k g, A.heur k g = A.zero)
    (hadd : ∀ a, A.add a A.zero = a) {cur : N} :
    ∀ (ms : List (K → List K → Option (C × K))) (st : KSt N K C P), (∀ mv ∈ ms, mv ∈ A.moves) →
      KInv A cs L cfg kin0 (todo cur ms) st →
      ((st.s.lab cur).closed = true ∧ (st.s.lab cur).opn = false) →
      ((Front st cur ∧ KMono A M cfg kin0 (todo cur ms) st) ∨ KMono A M cfg kin0 nopend st) →
    ∀ st', kExpand A cfg.goal cur ms st = .ok st' → KMono A M cfg kin0 nopend st' := by
  intro ms
  induction ms with
  | nil =>
    intro st _ _ _ h st' hk
    cases hk
    rcases h with ⟨_, h⟩ | h
    · exact h.finished
    · exact h
  | cons mv ms ih =>
    intro st hsub hI hcur h st' hk
    rw [kExpand] at hk
    have hmv := hsub mv (by simp)
    have h1 := kTry_spec ok hmv hI hcur
    have hfresh : Front st cur → KMono A M cfg kin0 (todo cur (mv :: ms)) st → _ := fun hF hM =>
      kTry_mono (p2 := todo cur ms) ok hheur hadd hmv hI.core hM hcur.1 hI.cands (by
        intro u mv' hp
        obtain ⟨e, hm⟩ := hp
        rcases List.mem_cons.1 hm with e2 | hm
        · exact .inr ⟨e, e2⟩
        · exact .inl ⟨e, hm⟩) (.inl hF)
    have hstale : KMono A M cfg kin0 nopend st → _ := fun hM =>
      kTry_mono (p2 := nopend) ok hheur hadd hmv hI.core hM hcur.1 hI.cands (fun u mv' hp => hp.elim)
        (.inr id)
    cases hk1 : kTry A cfg.goal cur mv st with
    | throw e => rw [hk1] at hk; cases hk
    | ub => rw [hk1] at hk; cases hk
    | ok st1 =>
      rw [hk1] at hk h1 hfresh hstale
      simp only [CRes.bind] at hk
      refine ih st1 (fun m hm => hsub m (List.mem_cons_of_mem _ hm)) h1.1
        (by rw [h1.2.curLab.2.1, h1.2.curLab.2.2]; exact hcur) ?_ st' hk
      rcases h with ⟨hF, hM⟩ | hM
      · obtain ⟨g1, g2⟩ := hfresh hF hM
        exact .inl ⟨g2 hF, g1⟩
      · exact .inr (hstale hM).1

theorem kpop_cases {L : Lawful P} (hheur : ∀ k g, A.heur k g = A.zero) (hhg : cfg.heurGoal = none) {st : KSt N K C P}
    (hI : KInv A cs L cfg kin0 nopend st) (h : KMono A M cfg kin0 nopend st) {cur : N} {o : P.O}
    (hn : P.next st.s.opn = some (cur, o)) :
    let s1 := popNode (A.alg st.s.lab st.kin) cfg st.s cur o
    ((st.s.lab cur).closed = false ∧ Front { s := s1, kin := st.kin } cur ∧
        KMono A M cfg kin0 (todo cur A.moves) { s := s1, kin := st.kin }) ∨
      ((st.s.lab cur).closed = true ∧ KMono A M cfg kin0 nopend { s := s1, kin := st.kin }) := by
  obtain ⟨k, hent, hmin, hsub, hsup⟩ := M.next_some _ _ _ hn
  have hcd : (st.s.lab cur).dist ≠ ⊤ := hI.memReach cur (L.next_some _ _ _ hn).1
  intro s1
  have hself : s1.lab cur = { st.s.lab cur with
      opn := false, closed := true, expanded := true
      h := match cfg.goal with
        | [] => match cfg.heurGoal with
          | none => (st.s.lab cur).h
          | some H => H cur
        | g :: _ => (A.alg st.s.lab st.kin).heur cur g } := by
    exact setLab_self _ _ _
  have hoth : ∀ n, n ≠ cur → s1.lab n = st.s.lab n := fun n hne => setLab_ne _ _ hne
  have hd : ∀ n, (s1.lab n).dist = (st.s.lab n).dist := by
    intro n
    by_cases e : n = cur
    · subst e; rw [hself]
    · rw [hoth n e]
  have hpr : ∀ n, (s1.lab n).prev = (st.s.lab n).prev := by
    intro n
    by_cases e : n = cur
    · subst e; rw [hself]
    · rw [hoth n e]
  have hcl : ∀ n, (st.s.lab n).closed = true → (s1.lab n).closed = true := by
    intro n h1
    by_cases e : n = cur
    · subst e; rw [hself]
    · rw [hoth n e]; exact h1
  have hcl' : ∀ n, (s1.lab n).closed = true → n = cur ∨ (st.s.lab n).closed = true := by
    intro n h1
    by_cases e : n = cur
    · exact .inl e
    · rw [hoth n e] at h1; exact .inr h1
  have hop : ∀ n, (s1.lab n).opn = true → n ≠ cur ∧ (st.s.lab n).opn = true := by
    intro n h1
    by_cases e : n = cur
    · subst e; rw [hself] at h1; cases h1
    · rw [hoth n e] at h1; exact ⟨e, h1⟩
  have hcurk : (st.s.lab cur).dist ≤ k := h.entKey cur k hent
  have build : ∀ pend : N → (K → List K → Option (C × K)) → Prop,
      (∀ mv ∈ A.moves, pend cur mv ∨ (st.s.lab cur).closed = true) →
      KMono A M cfg kin0 pend { s := s1, kin := st.kin } := by
    intro pend hpend
    refine ⟨?_, ?_, ?_, ?_, ?_, ?_, ?_, ?_, h.candGood⟩
    · intro n
      show (s1.lab n).h = A.zero
      by_cases e : n = cur
      · subst e
        rw [hself]
        simp only
        cases cfg.goal with
        | nil => rw [hhg]; exact h.hz n
        | cons g gs => exact hheur _ _
      · rw [hoth n e]; exact h.hz n
    · intro n k' hk'
      show (s1.lab n).dist ≤ k'
      rw [hd]; exact h.entKey n k' (hsub n k' hk')
    · intro n hn'
      obtain ⟨e, h1⟩ := hop n hn'
      show M.ent o n (s1.lab n).dist
      rw [hd]
      rcases hsup n _ (h.openEnt n h1) with ⟨e', _⟩ | h2
      · exact absurd e' e
      · exact h2
    · intro u hu n k' hk'
      show (s1.lab u).dist ≤ k'
      rw [hd]
      rcases hcl' u hu with e | h1
      · rw [e]; exact hcurk.trans (hmin n k' (hsub n k' hk'))
      · exact h.bound u h1 n k' (hsub n k' hk')
    · intro n hn'
      show (s1.lab n).opn = false
      by_cases e : n = cur
      · subst e; rw [hself]
      · rw [hoth n e]
        rcases hcl' n hn' with e' | h1
        · exact absurd e' e
        · exact h.sep n h1
    · intro n p hp
      have hp' : (s1.lab n).prev = some p := hp
      rw [hpr] at hp'
      exact hcl p (h.prevClosed n p hp')
    · intro n hns hnd
      have hnd' : (s1.lab n).dist ≠ ⊤ := hnd
      rw [hd] at hnd'
      obtain ⟨p, c, mv, e1, e2, e3, e4, e5⟩ := h.edge n hns hnd'
      exact ⟨p, c, mv, (hpr n).trans e1, e2, (by rw [kPreds_same hpr]; exact e3), e4,
        (by show (s1.lab n).dist = A.addW (s1.lab p).dist c; rw [hd, hd]; exact e5)⟩
    · intro u hu mv hmv
      show pend u mv ∨ ∀ c k v, mv (st.kin u) (kPreds s1.lab st.kin u A.predDepth) = some (c, k) → _ → _ →
        (s1.lab v).dist ≤ A.addW (s1.lab u).dist c
      rw [kPreds_same hpr, hd u]
      simp only [hd]
      by_cases e : u = cur
      · subst e
        rcases hpend mv hmv with h1 | h1
        · exact .inl h1
        · rcases h.relaxed u h1 mv hmv with h2 | h2
          · exact h2.elim
          · exact .inr h2
      · rcases hcl' u hu with e' | h1
        · exact absurd e' e
        · rcases h.relaxed u h1 mv hmv with h2 | h2
          · exact h2.elim
          · exact .inr h2
  by_cases hc : (st.s.lab cur).closed = true
  · exact .inr ⟨hc, build nopend fun mv _ => .inr hc⟩
  · left
    refine ⟨by simpa using hc, ?_, build _ fun mv hmv => .inl ⟨rfl, hmv⟩⟩
    have hopn : (st.s.lab cur).opn = true := by
      rcases ((hI.core st.s.lab st.kin).reach cur).1 hcd with h1 | h1
      · exact h1
      · exact absurd h1 hc
    have hk : k ≤ (st.s.lab cur).dist := hmin cur _ (h.openEnt cur hopn)
    intro u hu
    show (s1.lab u).dist ≤ (s1.lab cur).dist
    rw [hd, hd]
    rcases hcl' u hu with e | h1
    · rw [e]
    · exact (h.bound u h1 cur k hent).trans hk

theorem kpop_mono {L : Lawful P} (hheur : ∀ k g, A.heur k g = A.zero) (hhg : cfg.heurGoal = none) {st : KSt N K C P}
    (hI : KInv A cs L cfg kin0 nopend st) (h : KMono A M cfg kin0 nopend st) {cur : N} {o : P.O}
    (hn : P.next st.s.opn = some (cur, o)) :
    let s1 := popNode (A.alg st.s.lab st.kin) cfg st.s cur o
    (Front { s := s1, kin := st.kin } cur ∧ KMono A M cfg kin0 (todo cur A.moves) { s := s1, kin := st.kin }) ∨
      KMono A M cfg kin0 nopend { s := s1, kin := st.kin } :=
  (kpop_cases hheur hhg hI h hn).imp And.right And.right

/-- What is known at the end of a search without heuristic. -/
structure MonoDone (A : KAlgo N K C) (cfg : SCfg N C) (kin0 : N → K) (r : CRes (List N))
    (st : KSt N K C P) : Prop where
  ok : ∀ p, r = .ok p → p ≠ [] →
    (∀ n, n ∉ cfg.start → (st.s.lab n).dist ≠ ⊤ → XEdge A st.s.lab st.kin n) ∧
    ∃ n, ∃ B : Algo N C, ∃ d w, (st.s.lab n).dist ≠ ⊤ ∧ Back B cfg.start st.s.lab n p d ∧
      GoalMet A cfg.start cfg.goal kin0 (st.kin n) w

theorem mono_finish (ht : TopOk cfg.top) {st : KSt N K C P} (core : KCore A cs cfg.start st.s.lab)
    (cands : ∀ x ∈ st.s.cands, (st.s.lab x.1).closed = true)
    (edge : ∀ n, n ∉ cfg.start → (st.s.lab n).dist ≠ ⊤ → XEdge A st.s.lab st.kin n)
    (candGood : ∀ x ∈ st.s.cands, GoalMet A cfg.start cfg.goal kin0 (st.kin x.1) x.2) :
    MonoDone A cfg kin0 (finish cfg st.s) st := by
  have hC := core st.s.lab st.kin
  constructor
  intro p hp hne
  refine ⟨edge, ?_⟩
  rcases finish_spec (A := A.full cs st.s.lab st.kin) ht hC cands with
    ⟨h1, h2⟩ | ⟨x, l, d, h1, h2, h3, h4⟩
  · rw [h2] at hp; cases hp; exact absurd rfl hne
  · rw [h4] at hp
    cases hp
    exact ⟨x.1, _, d, x.2, (hC.reach _).2 (.inr (cands x h1)), h3, candGood x h1⟩

theorem kIterate_mono {L : Lawful P} (ok : KCostOk A cs) (ht : TopOk cfg.top)
    (hheur : ∀ k g, A.heur k g = A.zero) (hhg : cfg.heurGoal = none)
    (hadd : ∀ a, A.add a A.zero = a) {st : KSt N K C P}
    (h : KInv A cs L cfg kin0 nopend st) (hM : KMono A M cfg kin0 nopend st) :
    match kIterate A cfg st with
    | .more st' => KMono A M cfg kin0 nopend st'
    | .done r st' => MonoDone A cfg kin0 r st' := by
  unfold kIterate
  cases hn : P.next st.s.opn with
  | none => exact mono_finish ht h.core h.cands hM.edge hM.candGood
  | some co =>
    obtain ⟨cur, o⟩ := co
    simp only
    by_cases hab : cfg.abort st.s.expansions = true
    · rw [if_pos hab]; exact mono_finish ht h.core h.cands hM.edge hM.candGood
    · rw [if_neg hab]
      obtain ⟨hx, hd, hp, hoth, hcs, hf, he, hopn1⟩ := kpop_spec h hn (B := A.alg st.s.lab st.kin)
      have hpm := kpop_mono hheur hhg h hM hn
      simp only at hpm
      generalize popNode (A.alg st.s.lab st.kin) cfg st.s cur o = s1 at *
      have hC := hx.core s1.lab st.kin
      obtain ⟨t, ht1, hlab, hopn, hexp, hmono, hcand, hnoc, hterm, hnot, _, _⟩ :=
        goalLoop_spec (A := A.full cs s1.lab st.kin) (cfg := A.cfg cfg st.kin) (P := P) (cur := cur)
          cfg.goal s1 (fun g hg => hg) hC hx.curOk.1
      rw [goalLoop_full A cs]
      rw [ht1]
      simp only
      have hgk : ∀ g, st.kin g = kin0 g ∨
          (A.lookup (st.kin g) = .ok (some g) ∧ Reachable A cfg.start kin0 (st.kin g)) := fun g =>
        (h.goalKin g).imp id And.right
      have hcr : Reachable A cfg.start kin0 (st.kin cur) :=
        h.reachable (by rw [← hd cur]; exact (hC.reach _).2 (.inr hx.curOk.1))
      -- the invariant after the goal test
      have hall : ∀ pend, KMono A M cfg kin0 pend { s := s1, kin := st.kin } →
          KMono A M cfg kin0 pend { s := t.st, kin := st.kin } := by
        intro pend q
        refine ⟨?_, ?_, ?_, ?_, ?_, ?_, ?_, ?_, ?_⟩
        · show ∀ n, (t.st.lab n).h = A.zero
          rw [hlab]; exact q.hz
        · show ∀ n k, M.ent t.st.opn n k → (t.st.lab n).dist ≤ k
          rw [hlab, hopn]; exact q.entKey
        · show ∀ n, (t.st.lab n).opn = true → M.ent t.st.opn n (t.st.lab n).dist
          rw [hlab, hopn]; exact q.openEnt
        · show ∀ u, (t.st.lab u).closed = true → ∀ n k, M.ent t.st.opn n k → (t.st.lab u).dist ≤ k
          rw [hlab, hopn]; exact q.bound
        · show ∀ n, (t.st.lab n).closed = true → (t.st.lab n).opn = false
          rw [hlab]; exact q.sep
        · show ∀ n p, (t.st.lab n).prev = some p → (t.st.lab p).closed = true
          rw [hlab]; exact q.prevClosed
        · show ∀ n, n ∉ cfg.start → (t.st.lab n).dist ≠ ⊤ → XEdge A t.st.lab st.kin n
          rw [hlab]; exact q.edge
        · show ∀ u, (t.st.lab u).closed = true → ∀ mv ∈ A.moves, pend u mv ∨
            ∀ c k v, mv (st.kin u) (kPreds t.st.lab st.kin u A.predDepth) = some (c, k) → _ → _ →
              (t.st.lab v).dist ≤ A.addW (t.st.lab u).dist c
          rw [hlab]; exact q.relaxed
        · intro x hx1
          rcases hcand x hx1 with h1 | ⟨e, g, hg, h1, h2⟩
          · exact q.candGood x h1
          · show GoalMet A cfg.start cfg.goal kin0 (st.kin x.1) x.2
            rw [e]
            exact ⟨hcr, g, hg, st.kin g, _, h1, h2, hgk g⟩
      have hM1 : ∃ pend, KMono A M cfg kin0 pend { s := t.st, kin := st.kin } := by
        rcases hpm with ⟨_, q⟩ | q
        · exact ⟨_, hall _ q⟩
        · exact ⟨_, hall _ q⟩
      obtain ⟨pend, hM2⟩ := hM1
      have hcore : KCore A cs cfg.start t.st.lab := by rw [hlab]; exact hx.core
      have hclosed : ∀ x ∈ t.st.cands, (t.st.lab x.1).closed = true := by
        intro x hx1
        rw [hlab]
        rcases hcand x hx1 with h1 | h1
        · exact hx.cands x h1
        · rw [h1.1]; exact hx.curOk.1
      have hfin : MonoDone A cfg kin0 (finish cfg t.st) { s := t.st, kin := st.kin } :=
        mono_finish (st := { s := t.st, kin := st.kin }) ht hcore hclosed hM2.edge hM2.candGood
      by_cases hT : t.term = true
      · rw [if_pos hT]
        obtain ⟨d, hb, g, hg, hgg⟩ := hterm hT
        rw [if_pos hb.ne_nil]
        constructor
        intro p hp' _
        cases hp'
        refine ⟨hM2.edge, cur, A.full cs s1.lab st.kin, d, _, ?_, ?_,
          ⟨hcr, g, hg, st.kin g, _, hgg, rfl, hgk g⟩⟩
        · show (t.st.lab cur).dist ≠ ⊤
          rw [hlab]; exact (hC.reach _).2 (.inr hx.curOk.1)
        · show Back _ cfg.start t.st.lab cur t.result d
          rw [hlab]; exact hb
      · rw [if_neg hT]
        by_cases hov : (cfg.useCands && !t.st.cands.isEmpty &&
            decide ((A.alg t.st.lab st.kin).addW t.st.firstW cfg.oversearch <
              (A.alg t.st.lab st.kin).total (t.st.lab cur))) = true
        · rw [if_pos hov]; exact hfin
        · rw [if_neg hov]
          have hgood : ∀ x ∈ t.st.cands, ∃ k, GoalMet A cfg.start cfg.goal kin0 k x.2 ∧
              (k = st.kin x.1 ∨ (x.1 ∉ cfg.start ∧ A.lookup k = .ok (some x.1))) := by
            intro x hx1
            exact ⟨st.kin x.1, hM2.candGood x hx1, .inl rfl⟩
          have hX : KInv A cs L cfg kin0 (todo cur A.moves) { s := t.st, kin := st.kin } :=
            hx.afterTest hlab hopn hmono hclosed hgood (fun g hg hgg e => by
              have := (hnot (by simpa using hT) g hg hgg).2
              rw [e] at this; cases this)
          have hE := kExpand_mono (M := M) ok hheur hadd A.moves { s := t.st, kin := st.kin }
            (fun m hm => hm) hX
            (by show (t.st.lab cur).closed = true ∧ (t.st.lab cur).opn = false; rw [hlab]; exact hx.curOk)
            (by
              rcases hpm with ⟨hF, q⟩ | q
              · left
                refine ⟨?_, hall _ q⟩
                show ∀ u, (t.st.lab u).closed = true → (t.st.lab u).dist ≤ (t.st.lab cur).dist
                rw [hlab]; exact hF
              · exact .inr (hall _ q))
          cases hk : kExpand A cfg.goal cur A.moves { s := t.st, kin := st.kin } with
          | throw e => exact ⟨by simp⟩
          | ub => exact ⟨by simp⟩
          | ok st' => exact hE st' hk

/-- The open list after `initStartPose`. -/
theorem init_ents {B : Algo N C} (hadd : B.add B.zero B.zero = B.zero) :
    ∀ (ss : List N) (st : SSt N C P), (∀ n, (st.lab n).h = B.zero) →
      let st' := ss.foldl (addStart B) st
      (∀ n, (st'.lab n).h = B.zero) ∧
      (∀ n k, M.ent st'.opn n k → M.ent st.opn n k ∨ (n ∈ ss ∧ k = (B.zero : WithTop C))) ∧
      (∀ n k, M.ent st.opn n k → M.ent st'.opn n k) ∧
      (∀ n ∈ ss, M.ent st'.opn n (B.zero : WithTop C)) := by
  intro ss
  induction ss with
  | nil => intro st h; exact ⟨h, fun n k hk => .inl hk, fun n k hk => hk, by simp⟩
  | cons s ss ih =>
    intro st h
    have h1 : ∀ n, ((addStart B st s).lab n).h = B.zero := by
      intro n
      by_cases e : n = s
      · subst e
        rw [show (addStart B st n).lab n = _ from setLab_self _ _ _]; exact h n
      · rw [show (addStart B st s).lab n = _ from setLab_ne _ _ e]; exact h n
    have htot : (addStart B st s).opn = P.add st.opn s (B.zero : WithTop C) := by
      show P.add st.opn s _ = _
      congr 1
      unfold Algo.total
      rw [h s, PathPlanning.addW_coe, hadd]
    obtain ⟨g1, g2, g3, g4⟩ := ih (addStart B st s) h1
    refine ⟨g1, ?_, ?_, ?_⟩
    · intro n k hk
      rcases g2 n k hk with h2 | ⟨h2, h3⟩
      · rw [htot] at h2
        rcases (M.add_ent _ _ _ _ _).1 h2 with ⟨e1, e2⟩ | h4
        · exact .inr ⟨by simp [e1], e2⟩
        · exact .inl h4
      · exact .inr ⟨List.mem_cons_of_mem _ h2, h3⟩
    · intro n k hk
      apply g3
      rw [htot]
      exact (M.add_ent _ _ _ _ _).2 (.inr hk)
    · intro n hn
      rcases List.mem_cons.1 hn with e | hn
      · apply g3
        rw [htot]
        exact (M.add_ent _ _ _ _ _).2 (.inl ⟨e, rfl⟩)
      · exact g4 n hn

theorem kInit_mono (L : Lawful P) (hadd : ∀ a, A.add a A.zero = a) :
    KMono A M cfg kin0 nopend (kInit A P cfg kin0) := by
  obtain ⟨k1, k2, k3, k4, k5⟩ :=
    init_facts (A := A.alg (fun _ => Label.fresh A.zero) kin0) (L := L) (cfg := cfg)
  obtain ⟨g1, g2, g3, g4⟩ := init_ents (M := M) (B := A.alg (fun _ => Label.fresh A.zero) kin0) (hadd _)
    cfg.start
    { lab := freshLabels (A.alg (fun _ => Label.fresh A.zero) kin0), opn := P.empty, cands := [],
      firstW := (A.zero : WithTop C), expansions := 0, multi := 0, touched := 0, updates := 0 }
    (fun n => rfl)
  have hs : (kInit A P cfg kin0).s = initSearch (A.alg (fun _ => Label.fresh A.zero) kin0) P cfg
      (freshLabels (A.alg (fun _ => Label.fresh A.zero) kin0)) := rfl
  have hclosed : ∀ u, ((kInit A P cfg kin0).s.lab u).closed = false := by
    intro u
    rw [hs]
    by_cases hu : u ∈ cfg.start
    · rw [k1 u hu]; rfl
    · rw [k2 u hu]; rfl
  have hprev : ∀ u, ((kInit A P cfg kin0).s.lab u).prev = none := by
    intro u
    rw [hs]
    by_cases hu : u ∈ cfg.start
    · rw [k1 u hu]; rfl
    · rw [k2 u hu]; rfl
  refine ⟨g1, ?_, ?_, ?_, ?_, ?_, ?_, ?_, ?_⟩
  · intro n k hk
    rcases g2 n k hk with h1 | ⟨h1, h2⟩
    · exact absurd h1 (M.empty_ent n k)
    · rw [hs, k1 n h1, h2]; exact le_refl _
  · intro n hn
    by_cases hu : n ∈ cfg.start
    · rw [hs, k1 n hu]
      exact g4 n hu
    · rw [hs, k2 n hu] at hn; cases hn
  · intro u hu; rw [hclosed u] at hu; cases hu
  · intro u hu; rw [hclosed u] at hu; cases hu
  · intro n p hp; rw [hprev n] at hp; cases hp
  · intro n hn hd
    rw [hs, k2 n hn] at hd
    exact absurd rfl hd
  · intro u hu; rw [hclosed u] at hu; cases hu
  · intro x hx
    rw [hs, k5] at hx; cases hx

theorem kLoop_mono (L : Lawful P) (ok : KCostOk A cs) (ht : TopOk cfg.top)
    (hheur : ∀ k g, A.heur k g = A.zero) (hhg : cfg.heurGoal = none)
    (hadd : ∀ a, A.add a A.zero = a) :
    ∀ (fuel : Nat) (st : KSt N K C P), KInv A cs L cfg kin0 nopend st →
      (cfg.useCands = false → st.s.cands = []) → KMono A M cfg kin0 nopend st →
      ∀ r st', kLoop A cfg fuel st = some (r, st') → MonoDone A cfg kin0 r st' := by
  intro fuel
  induction fuel with
  | zero => intro st _ _ _ r st' h; simp [kLoop] at h
  | succ fuel ih =>
    intro st hI noc hM r st' h
    have h1 := kIterate_spec ok ht hI noc
    have h2 := kIterate_mono ok ht hheur hhg hadd hI hM
    rw [kLoop] at h
    cases hi : kIterate A cfg st with
    | done r1 st1 =>
      rw [hi] at h h2
      simp only [Option.some.injEq, Prod.mk.injEq] at h
      rw [← h.1, ← h.2]; exact h2
    | more st1 =>
      rw [hi] at h h1 h2
      exact ih st1 h1.1 h1.2.1 h2 r st' h

/-- The poses along a chain of predecessors are a drive. -/
theorem Back.drive {st : KSt N K C P}
    (sp : ∀ s ∈ cfg.start, (st.s.lab s).prev = none)
    (edge : ∀ n, n ∉ cfg.start → (st.s.lab n).dist ≠ ⊤ → XEdge A st.s.lab st.kin n)
    {B : Algo N C} {n l d} (h : Back B cfg.start st.s.lab n l d) (hd : (st.s.lab n).dist ≠ ⊤) :
    ∃ l' d', l.map st.kin = l' ++ [st.kin n] ∧ Drive A (l' ++ [st.kin n]) d' ∧
      (∀ k, kPreds st.s.lab st.kin n k = l'.reverse.take k) ∧
      ∃ s ∈ cfg.start, (l.map st.kin).head? = some (st.kin s) := by
  induction h with
  | @start s hs =>
    refine ⟨[], A.zero, rfl, .start _, ?_, s, hs, rfl⟩
    intro k
    cases k with
    | zero => rfl
    | succ k => rw [kPreds, sp s hs]; rfl
  | @step n p l d c hn hp hb he hle ih =>
    obtain ⟨p', c', mv, h1, h2, h3, h4, h5⟩ := edge n hn hd
    rw [hp] at h1
    cases h1
    have hpd : (st.s.lab p).dist ≠ ⊤ := by
      intro e
      rw [h5, e] at hd
      exact hd rfl
    obtain ⟨l', d', e1, e2, e3, s, hs, e4⟩ := ih hpd
    refine ⟨l' ++ [st.kin p], A.add d' c', ?_, ?_, ?_, s, hs, ?_⟩
    · rw [List.map_append, e1]; rfl
    · refine .step e2 h2 ?_ h4
      rw [← e3]; exact h3
    · intro k
      cases k with
      | zero => rfl
      | succ k =>
        rw [kPreds, hp]
        simp only [e3 k]
        simp
    · rw [List.map_append, List.head?_append, e4]; rfl

end
end PathPlanning
