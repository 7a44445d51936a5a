import Verif.Lemmas.KinSearchRun
import Verif.Lemmas.SearchHist
import Verif.Props.SearchHist
import Verif.Spec.KinHistory

/-!
# Invariants of later searches over nodes with stored poses
-/

namespace PathPlanning
open Spec
set_option linter.unusedSectionVars false

variable {N K C : Type} [DecidableEq N] [LinearOrder C] [Fintype N]
variable {P : OpenList N C}

/-! ### Transfer between algorithms with the same arithmetic -/

theorem SameArith.hist {A B : Algo N C} (h : SameArith A B) {S : List N} {lab : Labels N C}
    (hh : Hist A S lab) : Hist B S lab where
  low n := by rw [← h.zero]; exact hh.low n
  reach := hh.reach
  nself := hh.nself
  cost n hn := by
    obtain ⟨d, h1, h2⟩ := hh.cost n hn
    exact ⟨d, h.reach h1, h2⟩

theorem SameArith.hcore {A B : Algo N C} (h : SameArith A B) {S start : List N} {lab0 lab : Labels N C}
    (hc : HCore A S start lab0 lab) : HCore B S start lab0 lab where
  toHist := h.hist hc.toHist
  sub := hc.sub
  le0 := hc.le0
  s0 s hs := by rw [← h.zero]; exact hc.s0 s hs
  back n hn := by
    obtain ⟨l, d, hb, ht⟩ := hc.back n hn
    exact ⟨l, d, h.back hb, ht⟩
  small n hn := by
    obtain ⟨S, k, d, h1, h2, h3, h4, h5⟩ := hc.small n hn
    exact ⟨S, k, d, h1, h2, h3, by rw [← h.walkCosts]; exact h4, h5⟩

/-- The structural invariant of the labels. -/
def KHCore (A : KAlgo N K C) (cs : List C) (S start : List N) (lab0 lab : Labels N C) : Prop :=
  ∀ lab' kin, HCore (A.full cs lab' kin) S start lab0 lab

theorem KHCore.of {A : KAlgo N K C} {cs : List C} {S start : List N} {lab0 lab : Labels N C} {lab' kin}
    (h : HCore (A.full cs lab' kin) S start lab0 lab) : KHCore A cs S start lab0 lab :=
  fun lab2 kin2 => (A.sameArith cs lab' lab2 kin kin2).hcore h

/-- What is known of the labels between two searches. -/
def KHist (A : KAlgo N K C) (cs : List C) (S : List N) (lab : Labels N C) : Prop :=
  ∀ lab' kin, Hist (A.full cs lab' kin) S lab

theorem KHist.of {A : KAlgo N K C} {cs : List C} {S : List N} {lab : Labels N C} {lab' kin}
    (h : Hist (A.full cs lab' kin) S lab) : KHist A cs S lab :=
  fun lab2 kin2 => (A.sameArith cs lab' lab2 kin kin2).hist h

theorem potential_lt_hist {A : Algo N C} {S start : List N} {lab0 lab lab' : Labels N C} {nb : N}
    (hcore : HCore A S start lab0 lab') (ht : Touched start lab0 lab' nb) (hle : ∀ n, (lab' n).dist ≤ (lab n).dist)
    (hlt : (lab' nb).dist < (lab nb).dist) : potential A lab' < potential A lab := by
  unfold potential
  refine Finset.sum_lt_sum (fun n _ => Finset.card_le_card ?_) ⟨nb, Finset.mem_univ _, ?_⟩
  · intro d hd
    simp only [Finset.mem_filter] at hd ⊢
    exact ⟨hd.1, lt_of_lt_of_le hd.2 (hle n)⟩
  · apply Finset.card_lt_card
    obtain ⟨S, k, d, h1, h2, h3, h4, h5⟩ := hcore.small nb ht
    have hdW : d ∈ walkCosts A (Fintype.card N) :=
      walkCosts_mono (by have := Finset.card_le_univ S; omega) h4
    refine ⟨fun x hx => ?_, fun hs => ?_⟩
    · simp only [Finset.mem_filter] at hx ⊢
      exact ⟨hx.1, lt_of_lt_of_le hx.2 (hle nb)⟩
    · have hmem : d ∈ (walkCosts A (Fintype.card N)).filter
          (fun x : C => (x : WithTop C) < (lab nb).dist) := by
        refine Finset.mem_filter.2 ⟨hdW, ?_⟩
        rw [← h5]; exact hlt
      have := (Finset.mem_filter.1 (hs hmem)).2
      rw [h5] at this
      exact lt_irrefl _ this

/-- Without candidates the goal loop does not add any. -/
theorem goalLoop_nocands {A : Algo N C} {cfg : SCfg N C} {cur : N} (hu : cfg.useCands = false) :
    ∀ (gs : List N) (st : SSt N C P) (t), goalLoop A cfg cur gs st = .ok t → t.st.cands = st.cands := by
  intro gs
  induction gs with
  | nil => intro st t h; cases h; rfl
  | cons g gs ih =>
    intro st t h
    rw [goalLoop] at h
    by_cases hg : A.isGoal g cur = true
    · simp only [hg, if_true, hu, Bool.false_eq_true, if_false] at h
      cases hb : backtrack st.lab cfg.start cur with
      | throw e => rw [hb] at h; cases h
      | ub => rw [hb] at h; cases h
      | ok p =>
        rw [hb] at h
        simp only [CRes.ok_bind] at h
        cases h; rfl
    · simp only [hg, if_false, Bool.false_eq_true] at h
      exact ih st t h

section
variable {A : KAlgo N K C} {cs : List C} {L : Lawful P} {cfg : SCfg N C} {S : List N} {lab0 : Labels N C} {kin0 : N → K}

/-- State invariant.  `pend u mv`: move `mv` of the node `u` has not been tried yet; `pt u`: `u` has not been tested yet. -/
structure KHInv (A : KAlgo N K C) (cs : List C) (L : Lawful P) (cfg : SCfg N C) (S : List N) (lab0 : Labels N C)
    (kin0 : N → K) (pend : N → (K → List K → Option (C × K)) → Prop) (pt : N → Prop) (st : KSt N K C P) : Prop where
  core : KHCore A cs S cfg.start lab0 st.s.lab
  mem : ∀ n, L.mem st.s.opn n → Touched cfg.start lab0 st.s.lab n
  cands : ∀ x ∈ st.s.cands, Touched cfg.start lab0 st.s.lab x.1
  startKin : ∀ s ∈ cfg.start, st.kin s = kin0 s
  newKin : ∀ n, ¬ Touched cfg.start lab0 st.s.lab n → st.kin n = kin0 n
  edge : ∀ n, n ∉ cfg.start → Touched cfg.start lab0 st.s.lab n → KEdge A cfg.start kin0 st.s.lab st.kin n
  relaxed : ∀ u, Touched cfg.start lab0 st.s.lab u → L.mem st.s.opn u ∨ ∀ mv ∈ A.moves,
    pend u mv ∨ ∃ ps, ∀ c k v, mv (st.kin u) ps = some (c, k) → A.usable (st.kin u) k = .ok true →
      A.lookup k = .ok (some v) → (st.s.lab v).dist ≤ A.addW (st.s.lab u).dist c
  tested : st.s.cands = [] → ∀ u, Touched cfg.start lab0 st.s.lab u → L.mem st.s.opn u ∨ pt u ∨
    ∀ g ∈ cfg.goal, (¬ Touched cfg.start lab0 st.s.lab g ∨ g = u) → ∃ pv, A.isGoal (st.kin g) (st.kin u) pv = false
  candGood : ∀ x ∈ st.s.cands, ∃ k, GoalMet A cfg.start cfg.goal kin0 k x.2 ∧
    (k = st.kin x.1 ∨ (x.1 ∉ cfg.start ∧ A.lookup k = .ok (some x.1)))

theorem touched_congr {start : List N} {lab lab' : Labels N C} {n : N} (h : (lab' n).dist = (lab n).dist) :
    Touched start lab0 lab' n ↔ Touched start lab0 lab n := by
  unfold Touched; rw [h]

theorem KHInv.same {pend pend' : N → (K → List K → Option (C × K)) → Prop} {pt pt' : N → Prop} {st : KSt N K C P}
    (h : KHInv A cs L cfg S lab0 kin0 pend pt st) {s' : SSt N C P}
    (hs : ∀ m, (s'.lab m).dist = (st.s.lab m).dist ∧ (s'.lab m).prev = (st.s.lab m).prev ∧
      (((s'.lab m).opn = true ∨ (s'.lab m).closed = true) ↔ ((st.s.lab m).opn = true ∨ (st.s.lab m).closed = true)))
    (hmem : ∀ n, L.mem s'.opn n → L.mem st.s.opn n)
    (hcands : ∀ x ∈ s'.cands, Touched cfg.start lab0 st.s.lab x.1)
    (hgood : ∀ x ∈ s'.cands, ∃ k, GoalMet A cfg.start cfg.goal kin0 k x.2 ∧
      (k = st.kin x.1 ∨ (x.1 ∉ cfg.start ∧ A.lookup k = .ok (some x.1))))
    (hp : ∀ u, Touched cfg.start lab0 st.s.lab u → L.mem s'.opn u ∨ ∀ mv ∈ A.moves, pend' u mv ∨
      ∃ ps, ∀ c k v, mv (st.kin u) ps = some (c, k) → A.usable (st.kin u) k = .ok true →
        A.lookup k = .ok (some v) → (st.s.lab v).dist ≤ A.addW (st.s.lab u).dist c)
    (htest : s'.cands = [] → ∀ u, Touched cfg.start lab0 st.s.lab u → L.mem s'.opn u ∨ pt' u ∨
      ∀ g ∈ cfg.goal, (¬ Touched cfg.start lab0 st.s.lab g ∨ g = u) →
        ∃ pv, A.isGoal (st.kin g) (st.kin u) pv = false) :
    KHInv A cs L cfg S lab0 kin0 pend' pt' { s := s', kin := st.kin } where
  core lab kin := (h.core lab kin).congr (fun m => ⟨(hs m).1, (hs m).2.1⟩) (fun m => (hs m).2.2)
  mem n hn := (touched_congr (hs n).1).2 (h.mem n (hmem n hn))
  cands x hx := (touched_congr (hs _).1).2 (hcands x hx)
  startKin := h.startKin
  newKin n hn := h.newKin n (fun ht => hn ((touched_congr (hs n).1).2 ht))
  edge n hn ht := by
    obtain ⟨p, c, k1, mv, ps, d1, h1, h2, h3, h4, h5, h6, h7, h8⟩ := h.edge n hn ((touched_congr (hs n).1).1 ht)
    exact ⟨p, c, k1, mv, ps, d1, by show (s'.lab n).prev = _; rw [(hs n).2.1, h1], h2, h3, h4, h5,
      by show (s'.lab n).dist = _; rw [(hs n).1, h6],
      by show _ ∨ (_ ∧ _ ∧ (s'.lab p).dist < d1)
         show (k1 = st.kin p ∧ d1 = (s'.lab p).dist) ∨ _
         rw [(hs p).1]; exact h7, h8⟩
  relaxed u hu := by
    rcases hp u ((touched_congr (hs u).1).1 hu) with h1 | h1
    · exact .inl h1
    · right
      intro mv hmv
      rcases h1 mv hmv with h2 | ⟨ps, h2⟩
      · exact .inl h2
      · right
        refine ⟨ps, fun c k v e1 e2 e3 => ?_⟩
        show (s'.lab v).dist ≤ A.addW (s'.lab u).dist c
        rw [(hs v).1, (hs u).1]; exact h2 c k v e1 e2 e3
  tested h0 u hu := by
    rcases htest h0 u ((touched_congr (hs u).1).1 hu) with h1 | h1 | h1
    · exact .inl h1
    · exact .inr (.inl h1)
    · right; right
      intro g hg hd
      refine h1 g hg ?_
      rcases hd with hd | hd
      · left; intro ht; exact hd ((touched_congr (hs g).1).2 ht)
      · exact .inr hd
  candGood := hgood

theorem KHInv.drop {pt : N → Prop} {st : KSt N K C P} {cur : N} {mv} {ms : List (K → List K → Option (C × K))}
    (h : KHInv A cs L cfg S lab0 kin0 (todo cur (mv :: ms)) pt st)
    (hp : ∃ ps, ∀ c k v, mv (st.kin cur) ps = some (c, k) →
      A.usable (st.kin cur) k = .ok true → A.lookup k = .ok (some v) →
      (st.s.lab v).dist ≤ A.addW (st.s.lab cur).dist c) :
    KHInv A cs L cfg S lab0 kin0 (todo cur ms) pt st := by
  refine h.same (s' := st.s) (fun m => ⟨rfl, rfl, Iff.rfl⟩) (fun n hn => hn) h.cands h.candGood ?_ h.tested
  intro u hu
  rcases h.relaxed u hu with h1 | h1
  · exact .inl h1
  · right
    intro mv' hmv'
    rcases h1 mv' hmv' with ⟨e, hm⟩ | h2
    · rcases List.mem_cons.1 hm with e2 | hm
      · right; rw [e, e2]; exact hp
      · exact .inl ⟨e, hm⟩
    · exact .inr h2

/-- Stored poses are reachable. -/
theorem KHInv.reachable {pend pt} {st : KSt N K C P} (h : KHInv A cs L cfg S lab0 kin0 pend pt st) {n : N}
    (hd : Touched cfg.start lab0 st.s.lab n) : Reachable A cfg.start kin0 (st.kin n) := by
  by_cases hs : n ∈ cfg.start
  · rw [h.startKin n hs]; exact .start hs
  · exact (h.edge n hs hd).reachable.2

/-- One move. -/
theorem khTry_spec (ok : Spec.KCostOk A cs) {pt : N → Prop} {st : KSt N K C P} {cur : N} {mv}
    {ms : List (K → List K → Option (C × K))} (hmv : mv ∈ A.moves)
    (h : KHInv A cs L cfg S lab0 kin0 (todo cur (mv :: ms)) pt st)
    (hcur : Touched cfg.start lab0 st.s.lab cur) :
    match kTry A cfg.goal cur mv st with
    | .ok st' => KHInv A cs L cfg S lab0 kin0 (todo cur ms) pt st' ∧ KStep A cs cur st st'
    | .throw e => MapThrows A cfg.start kin0 e
    | .ub => MapUb A cfg.start kin0 := by
  unfold kTry
  cases hm : mv (st.kin cur) (kPreds st.s.lab st.kin cur A.predDepth) with
  | none =>
    simp only
    exact ⟨h.drop ⟨kPreds st.s.lab st.kin cur A.predDepth, fun c k v e => by rw [hm] at e; cases e⟩, KStep.refl _ _ _ _⟩
  | some ck =>
    obtain ⟨c, k⟩ := ck
    have hask : Asked A cfg.start kin0 (st.kin cur) k := ⟨h.reachable hcur, mv, hmv, _, c, hm⟩
    simp only
    cases hus : A.usable (st.kin cur) k with
    | throw e => exact ⟨_, _, hask, .inl hus⟩
    | ub => exact ⟨_, _, hask, .inl hus⟩
    | ok b =>
      simp only [CRes.bind]
      cases b with
      | false =>
        simp only [Bool.false_eq_true, if_false]
        refine ⟨h.drop ⟨kPreds st.s.lab st.kin cur A.predDepth, fun c' k' v e1 e2 => ?_⟩, KStep.refl _ _ _ _⟩
        rw [hm] at e1
        cases e1
        rw [hus] at e2
        cases e2
      | true =>
        simp only [if_true]
        cases hlk : A.lookup k with
        | throw e => exact ⟨_, _, hask, .inr ⟨hus, hlk⟩⟩
        | ub => exact ⟨_, _, hask, .inr ⟨hus, hlk⟩⟩
        | ok r =>
          simp only
          cases r with
          | none =>
            refine ⟨h.drop ⟨kPreds st.s.lab st.kin cur A.predDepth, fun c' k' v e1 e2 e3 => ?_⟩, KStep.refl _ _ _ _⟩
            rw [hm] at e1
            cases e1
            rw [hlk] at e3
            cases e3
          | some n =>
            simp only
            have hcs : c ∈ cs := ok.costs mv hmv _ _ _ _ hm
            have hC := h.core st.s.lab st.kin
            have hu : (st.s.lab cur).dist ≠ ⊤ := hC.fin hcur
            obtain ⟨c1, c2, c3, hcase⟩ := process_cases_reach (A := A.alg st.s.lab st.kin)
              (goal := cfg.goal) (c := c) (hC.reach n) hu
            have hadd := processAdds_iff (A := A) (c := c) (hC.reach n) hu
            generalize processNeighbor (A.alg st.s.lab st.kin) cfg.goal st.s cur n c = s' at *
            simp only [KAlgo.alg_addW] at hcase
            rcases hcase with ⟨hncl, hop, hsame⟩ | ⟨hcl, hop, hv, hvc, _, hother⟩
            · -- not closer
              have : processAdds A st.s cur n c = false := by
                rw [← Bool.not_eq_true, hadd]; exact hncl
              rw [this]
              simp only [Bool.false_eq_true, if_false]
              have hs : ∀ m, SameLab (st.s.lab m) (s'.lab m) := fun m => (hsame m).1
              have h' := h.drop ⟨kPreds st.s.lab st.kin cur A.predDepth, fun c' k' v e1 e2 e3 => by
                rw [hm] at e1
                cases e1
                rw [hlk] at e3
                cases e3
                exact not_lt.1 hncl⟩
              refine ⟨?_, ?_⟩
              · refine h'.same (fun m => ⟨(hs m).1, (hs m).2.1, by rw [(hs m).2.2.1, (hs m).2.2.2]⟩)
                  (fun n hn => by rw [hop] at hn; exact hn) (by rw [c1]; exact h.cands) (by rw [c1]; exact h.candGood) ?_ ?_
                · intro u hu'
                  rw [hop]
                  exact h'.relaxed u hu'
                · intro h0 u hu'
                  rw [hop]
                  exact h'.tested (by rw [← c1]; exact h0) u hu'
              · refine ⟨fun m => ((hs m).1).le, c1, c2, c3, ⟨(hs cur).1, (hs cur).2.2.2, (hs cur).2.2.1⟩, rfl,
                  fun _ _ => potential_le fun m => ((hs m).1).le, fun _ _ _ => hop⟩
            · -- closer
              rw [hadd.2 hcl]
              simp only [if_true]
              have hne : n ≠ cur := by
                rintro rfl
                exact absurd (ok.le_addW hcs _) (not_le.2 hcl)
              rw [if_neg hne]
              have hle : ∀ m, (s'.lab m).dist ≤ (st.s.lab m).dist := by
                intro m
                by_cases e : m = n
                · subst e; rw [hv.1]; exact hcl.le
                · rw [hother m e]
              have hnstart : n ∉ cfg.start := by
                intro hs
                rw [hC.s0 n hs] at hcl
                exact absurd ((hC.low cur).trans (ok.le_addW hcs _)) (not_le.2 hcl)
              have hcore : KHCore A cs S cfg.start lab0 s'.lab := by
                apply KHCore.of (lab' := st.s.lab) (kin := st.kin)
                refine hC.relax (ok.full _ _) hcur (A.full_succ hcs) hcl hv (fun m hm => ?_)
                rw [hother m hm]; exact ⟨rfl, rfl, rfl, rfl⟩
              have hcurlab : s'.lab cur = st.s.lab cur := hother cur (Ne.symm hne)
              have hTn : Touched cfg.start lab0 s'.lab n :=
                .inr (by rw [hv.1]; exact lt_of_lt_of_le hcl (hC.le0 n))
              have hT : ∀ m, m ≠ n → (Touched cfg.start lab0 s'.lab m ↔ Touched cfg.start lab0 st.s.lab m) :=
                fun m hm => touched_congr (by rw [hother m hm])
              refine ⟨⟨hcore, ?_, ?_, ?_, ?_, ?_, ?_, ?_, ?_⟩, ?_⟩
              · intro m hm'
                have hm2 : L.mem s'.opn m := hm'
                rw [hop] at hm2
                rcases (L.add_mem _ _ _ _).1 hm2 with e | h1
                · rw [e]; exact hTn
                · exact (h.mem m h1).le (hle m)
              · intro x hx
                have hx' : x ∈ s'.cands := hx
                rw [c1] at hx'
                exact (h.cands x hx').le (hle _)
              · intro s hs
                have : s ≠ n := fun e => hnstart (e ▸ hs)
                simp only [this, if_false]
                exact h.startKin s hs
              · intro m hm'
                have : m ≠ n := fun e => hm' (e ▸ hTn)
                simp only [this, if_false]
                exact h.newKin m (fun ht => hm' ((hT m this).2 ht))
              · intro m hms hmd
                by_cases e : m = n
                · subst e
                  refine ⟨cur, c, st.kin cur, mv, _, (st.s.lab cur).dist, hv.2.1, hmv,
                    by simpa using hm, by simpa using hus, by simpa using hlk, hv.1, .inl ⟨?_, ?_⟩, h.reachable hcur⟩
                  · simp [Ne.symm hne]
                  · show _ = (s'.lab cur).dist
                    rw [hcurlab]
                · have hmd' : Touched cfg.start lab0 st.s.lab m := (hT m e).1 hmd
                  obtain ⟨p, c', k1, mv', ps, d1, g1, g2, g3, g4, g5, g6, g7, g8⟩ := h.edge m hms hmd'
                  refine ⟨p, c', k1, mv', ps, d1, ?_, g2, by simpa [e] using g3, by simpa [e] using g4,
                    by simpa [e] using g5, ?_, ?_, g8⟩
                  · show (s'.lab m).prev = some p
                    rw [hother m e]; exact g1
                  · show (s'.lab m).dist = _
                    rw [hother m e]; exact g6
                  · by_cases ep : p = n
                    · right
                      subst ep
                      refine ⟨hnstart, ?_, ?_⟩
                      · rcases g7 with ⟨e1, e2⟩ | ⟨_, e2, _⟩
                        · -- the predecessor has been entered by this search
                          obtain ⟨lb, db, hb, htb⟩ := hC.back m hmd'
                          have htp : Touched cfg.start lab0 st.s.lab p := by
                            cases hb with
                            | start hs => exact absurd hs hms
                            | step _ hp' hb' _ _ =>
                              rw [g1] at hp'
                              cases hp'
                              obtain ⟨l', hl', _⟩ := hb'.last
                              exact htb _ (by rw [hl']; simp)
                          obtain ⟨_, _, _, _, _, _, _, _, _, _, q5, _, _⟩ := h.edge p hnstart htp
                          rw [e1]; exact q5
                        · exact e2
                      · show (s'.lab p).dist < d1
                        rw [hv.1]
                        rcases g7 with ⟨_, e2⟩ | ⟨_, _, e3⟩
                        · rw [e2]; exact hcl
                        · exact hcl.trans e3
                    · simp only [ep, if_false]
                      show (k1 = st.kin p ∧ d1 = (s'.lab p).dist) ∨ (p ∉ cfg.start ∧
                        A.lookup k1 = .ok (some p) ∧ (s'.lab p).dist < d1)
                      rw [hother p ep]
                      exact g7
              · intro u hu'
                show L.mem s'.opn u ∨ _
                by_cases hun : u = n
                · left; rw [hop, hun]; exact (L.add_mem _ _ _ _).2 (.inl rfl)
                · simp only [hun, if_false]
                  show _ ∨ ∀ mv ∈ A.moves, _ ∨ ∃ ps, ∀ c k v, _ → _ → _ → (s'.lab v).dist ≤ A.addW (s'.lab u).dist c
                  rw [hother u hun]
                  rcases h.relaxed u ((hT u hun).1 hu') with h1 | h1
                  · left; rw [hop]; exact (L.add_mem _ _ _ _).2 (.inr h1)
                  · right
                    intro mv' hmv'
                    rcases h1 mv' hmv' with h3 | ⟨ps, h3⟩
                    · obtain ⟨e, hm'⟩ := h3
                      rcases List.mem_cons.1 hm' with e2 | hm'
                      · right
                        rw [e, e2]
                        refine ⟨kPreds st.s.lab st.kin cur A.predDepth, fun c' k' v e1 e2 e3 => ?_⟩
                        rw [hm] at e1
                        cases e1
                        rw [hlk] at e3
                        cases e3
                        exact hv.1.le
                      · exact .inl ⟨e, hm'⟩
                    · right
                      exact ⟨ps, fun c k v e1 e2 e3 => (hle v).trans (h3 c k v e1 e2 e3)⟩
              · intro h0 u hu'
                show L.mem s'.opn u ∨ _
                by_cases hun : u = n
                · left; rw [hop, hun]; exact (L.add_mem _ _ _ _).2 (.inl rfl)
                · rcases h.tested (by rw [← c1]; exact h0) u ((hT u hun).1 hu') with h1 | h1 | h1
                  · left; rw [hop]; exact (L.add_mem _ _ _ _).2 (.inr h1)
                  · exact .inr (.inl h1)
                  · right; right
                    intro g hg hd
                    have hgn : g ≠ n := by
                      rintro rfl
                      rcases hd with hd | hd
                      · exact hd hTn
                      · exact hun hd.symm
                    simp only [hun, hgn, if_false]
                    refine h1 g hg ?_
                    rcases hd with hd | hd
                    · left; intro ht; exact hd ((hT g hgn).2 ht)
                    · exact .inr hd
              · intro x hx
                have hx' : x ∈ s'.cands := hx
                rw [c1] at hx'
                obtain ⟨kx, q1, q2⟩ := h.candGood x hx'
                refine ⟨kx, q1, ?_⟩
                by_cases e : x.1 = n
                · right
                  refine ⟨e ▸ hnstart, ?_⟩
                  rcases q2 with q2 | q2
                  · obtain ⟨_, _, _, _, _, _, _, _, _, _, q5, _, _⟩ := h.edge x.1 (e ▸ hnstart) (h.cands x hx')
                    rw [q2]; exact q5
                  · exact q2.2
                · simp only [e, if_false]; exact q2
              · refine ⟨hle, c1, c2, c3, ?_, by simp [Ne.symm hne], fun _ _ => potential_le hle,
                  fun lab kin heq => ?_⟩
                · show (s'.lab cur).dist = _ ∧ (s'.lab cur).closed = _ ∧ (s'.lab cur).opn = _
                  rw [hcurlab]; exact ⟨rfl, rfl, rfl⟩
                · exact absurd heq (ne_of_lt (potential_lt_hist (hcore lab kin) hTn hle
                    (by show (s'.lab n).dist < _; rw [hv.1]; exact hcl)))

/-- All remaining moves of `cur`. -/
theorem khExpand_spec (ok : Spec.KCostOk A cs) {pt : N → Prop} {cur : N} :
    ∀ (ms : List (K → List K → Option (C × K))) (st : KSt N K C P), (∀ mv ∈ ms, mv ∈ A.moves) →
      KHInv A cs L cfg S lab0 kin0 (todo cur ms) pt st → Touched cfg.start lab0 st.s.lab cur →
    match kExpand A cfg.goal cur ms st with
    | .ok st' => KHInv A cs L cfg S lab0 kin0 (todo cur []) pt st' ∧ KStep A cs cur st st'
    | .throw e => MapThrows A cfg.start kin0 e
    | .ub => MapUb A cfg.start kin0 := by
  intro ms
  induction ms with
  | nil => intro st _ h _; exact ⟨h, KStep.refl _ _ _ _⟩
  | cons mv ms ih =>
    intro st hsub h hcur
    rw [kExpand]
    have h1 := khTry_spec ok (hsub mv (by simp)) h hcur
    cases hk : kTry A cfg.goal cur mv st with
    | throw e => rw [hk] at h1; exact h1
    | ub => rw [hk] at h1; exact h1
    | ok st1 =>
      rw [hk] at h1
      obtain ⟨h2, h3⟩ := h1
      have h4 := ih st1 (fun m hm => hsub m (List.mem_cons_of_mem _ hm)) h2 (hcur.le (h3.dist cur))
      simp only [CRes.bind]
      cases hk2 : kExpand A cfg.goal cur ms st1 with
      | throw e => rw [hk2] at h4; exact h4
      | ub => rw [hk2] at h4; exact h4
      | ok st2 =>
        rw [hk2] at h4
        exact ⟨h4.1, h3.trans h4.2⟩

/-- Nothing left to try, nothing left to test. -/
def noTest : N → Prop := fun _ => False

theorem KHInv.finished {cur : N} {st : KSt N K C P} (h : KHInv A cs L cfg S lab0 kin0 (todo cur []) noTest st) :
    KHInv A cs L cfg S lab0 kin0 (todo cur []) noTest st := h

/-- No move is pending. -/
def noMove : N → (K → List K → Option (C × K)) → Prop := fun _ _ => False

theorem KHInv.toNoMove {cur : N} {st : KSt N K C P} (h : KHInv A cs L cfg S lab0 kin0 (todo cur []) noTest st) :
    KHInv A cs L cfg S lab0 kin0 noMove noTest st := by
  refine h.same (s' := st.s) (fun m => ⟨rfl, rfl, Iff.rfl⟩) (fun n hn => hn) h.cands h.candGood ?_ h.tested
  intro u hu
  rcases h.relaxed u hu with h1 | h1
  · exact .inl h1
  · right
    intro mv hmv
    rcases h1 mv hmv with ⟨_, h2⟩ | h2
    · cases h2
    · exact .inr h2

/-- The chain of predecessors gives the poses of the path. -/
theorem Back.cellTraceHist (ok : KCostOk A cs) {st : KSt N K C P} (hc : KHCore A cs S cfg.start lab0 st.s.lab)
    (startKin : ∀ s ∈ cfg.start, st.kin s = kin0 s)
    (edge : ∀ n, n ∉ cfg.start → Touched cfg.start lab0 st.s.lab n → KEdge A cfg.start kin0 st.s.lab st.kin n)
    {B : Algo N C} {n l d} (h : Back B cfg.start st.s.lab n l d) (ht : ∀ m ∈ l, Touched cfg.start lab0 st.s.lab m) :
    ∃ d', CellTrace A cfg.start kin0 (l.map st.kin) d' ∧ (d' : WithTop C) ≤ (st.s.lab n).dist ∧
      ∃ s ∈ cfg.start, (l.map st.kin).head? = some (kin0 s) := by
  induction h with
  | @start s hs =>
    refine ⟨A.zero, ?_, ?_, s, hs, by simp [startKin s hs]⟩
    · simp only [List.map_cons, List.map_nil, startKin s hs]
      exact .start hs
    · rw [(hc st.s.lab st.kin).s0 s hs]
      exact le_refl _
  | @step n p l d c hn hp hb he hle ih =>
    obtain ⟨p', c', k1, mv, ps, d1, h1, h2, h3, h4, h5, h6, h7, h8⟩ := edge n hn (ht n (by simp))
    rw [hp] at h1
    cases h1
    have hpd1 : (st.s.lab p).dist ≤ d1 := by
      rcases h7 with ⟨_, e⟩ | ⟨_, _, e⟩
      · exact e.ge
      · exact e.le
    obtain ⟨d', t1, t2, s, hs, t3⟩ := ih fun m hm => ht m (List.mem_append_left _ hm)
    obtain ⟨l', hl, hne⟩ := hb.last
    have htp : Touched cfg.start lab0 st.s.lab p := ht p (by rw [hl]; simp)
    refine ⟨A.add d' c', ?_, ?_, s, hs, ?_⟩
    · have hls : LegalStep A k1 c' (st.kin n) := ⟨mv, h2, ps, h3, h4⟩
      subst hl
      simp only [List.map_append, List.map_cons, List.map_nil] at t1 ⊢
      rcases h7 with ⟨e, _⟩ | ⟨e1, e2, _⟩
      · subst e; exact .exact t1 hls
      · exact .jump t1 (by simpa using hne e1) ⟨p, e2, (edge p e1 htp).reachable.1⟩ h8 hls
    · rw [h6, ← A.addW_coe]
      exact ok.addW_mono (t2.trans hpd1) c'
    · rw [List.map_append, List.head?_append, t3]; rfl

/-- What is known when the search ends. -/
structure KHDone (A : KAlgo N K C) (cs : List C) (L : Lawful P) (cfg : SCfg N C) (S : List N) (lab0 : Labels N C)
    (kin0 : N → K) (r : CRes (List N)) (st : KSt N K C P) : Prop where
  throw : ∀ e, r = .throw e → MapThrows A cfg.start kin0 e
  ub : r = .ub → MapUb A cfg.start kin0
  ok : ∀ p, r = .ok p → KHCore A cs S cfg.start lab0 st.s.lab ∧ (∀ s ∈ cfg.start, st.kin s = kin0 s) ∧
    (∀ n, ¬ Touched cfg.start lab0 st.s.lab n → st.kin n = kin0 n) ∧
    (∀ n, n ∉ cfg.start → Touched cfg.start lab0 st.s.lab n → KEdge A cfg.start kin0 st.s.lab st.kin n) ∧
    ((p = [] ∧ st.s.cands = [] ∧
        ((KHInv A cs L cfg S lab0 kin0 noMove noTest st ∧ P.next st.s.opn = none) ∨
          cfg.abort st.s.expansions = true)) ∨
      (∃ n d, (∀ m ∈ p, Touched cfg.start lab0 st.s.lab m) ∧
        Back (A.full cs st.s.lab st.kin) cfg.start st.s.lab n p d ∧
        (∃ k w, GoalMet A cfg.start cfg.goal kin0 k w ∧
          (k = st.kin n ∨ (n ∉ cfg.start ∧ A.lookup k = .ok (some n)))) ∧
        (cfg.useCands = false → ∃ w, GoalMet A cfg.start cfg.goal kin0 (st.kin n) w)))

theorem khdone_finish (ht : TopOk cfg.top) {st : KSt N K C P}
    (core : KHCore A cs S cfg.start lab0 st.s.lab) (cands : ∀ x ∈ st.s.cands, Touched cfg.start lab0 st.s.lab x.1)
    (startKin : ∀ s ∈ cfg.start, st.kin s = kin0 s)
    (newKin : ∀ n, ¬ Touched cfg.start lab0 st.s.lab n → st.kin n = kin0 n)
    (edge : ∀ n, n ∉ cfg.start → Touched cfg.start lab0 st.s.lab n → KEdge A cfg.start kin0 st.s.lab st.kin n)
    (candGood : ∀ x ∈ st.s.cands, ∃ k, GoalMet A cfg.start cfg.goal kin0 k x.2 ∧
      (k = st.kin x.1 ∨ (x.1 ∉ cfg.start ∧ A.lookup k = .ok (some x.1))))
    (noc : cfg.useCands = false → st.s.cands = [])
    (why : st.s.cands = [] → (KHInv A cs L cfg S lab0 kin0 noMove noTest st ∧ P.next st.s.opn = none) ∨
      cfg.abort st.s.expansions = true) :
    KHDone A cs L cfg S lab0 kin0 (finish cfg st.s) st := by
  have hC := core st.s.lab st.kin
  unfold finish
  cases h : cfg.top st.s.cands with
  | none =>
    have h1 := (ht.none_iff _).1 h
    refine ⟨by simp, by simp, fun p hp => ⟨core, startKin, newKin, edge, .inl ?_⟩⟩
    cases hp
    exact ⟨rfl, h1, why h1⟩
  | some x =>
    have hx := ht.mem _ _ h
    obtain ⟨l, d, hb, htl⟩ := hC.back x.1 (cands x hx)
    simp only [hb.backtrack hC.nself]
    refine ⟨by simp, by simp, fun p hp => ⟨core, startKin, newKin, edge, .inr ?_⟩⟩
    cases hp
    obtain ⟨k, q1, q2⟩ := candGood x hx
    refine ⟨x.1, d, htl, hb, ⟨k, x.2, q1, q2⟩, fun hu => ?_⟩
    rw [noc hu] at hx; cases hx

/-- The pose of a goal node. -/
theorem KHInv.goalKin {pend pt} {st : KSt N K C P} (h : KHInv A cs L cfg S lab0 kin0 pend pt st) (g : N) :
    st.kin g = kin0 g ∨
      (g ∉ cfg.start ∧ A.lookup (st.kin g) = .ok (some g) ∧ Reachable A cfg.start kin0 (st.kin g)) := by
  by_cases hs : g ∈ cfg.start
  · exact .inl (h.startKin g hs)
  · by_cases hd : Touched cfg.start lab0 st.s.lab g
    · exact .inr ⟨hs, (h.edge g hs hd).reachable⟩
    · exact .inl (h.newKin g hd)

/-- Popping a node. -/
theorem khpop_spec {st : KSt N K C P} (h : KHInv A cs L cfg S lab0 kin0 noMove noTest st) {cur : N} {o : P.O}
    (hn : P.next st.s.opn = some (cur, o)) {B : Algo N C} :
    let s1 := popNode B cfg st.s cur o
    KHInv A cs L cfg S lab0 kin0 (fun u _ => u = cur) (fun u => u = cur) { s := s1, kin := st.kin } ∧
      (∀ n, (s1.lab n).dist = (st.s.lab n).dist) ∧ s1.cands = st.s.cands ∧ s1.opn = o ∧
      Touched cfg.start lab0 st.s.lab cur := by
  intro s1
  obtain ⟨hk, hsub, hsup⟩ := L.next_some _ _ _ hn
  have hcur := h.mem cur hk
  have hself : s1.lab cur = { st.s.lab cur with
      opn := false, closed := true, expanded := true
      h := match cfg.goal with
        | [] => match cfg.heurGoal with
          | none => (st.s.lab cur).h
          | some H => H cur
        | g :: _ => B.heur cur g } := by
    exact setLab_self _ _ _
  have hoth : ∀ n, n ≠ cur → s1.lab n = st.s.lab n := fun n hne => setLab_ne _ _ hne
  have hd : ∀ n, (s1.lab n).dist = (st.s.lab n).dist := by
    intro n
    by_cases e : n = cur
    · subst e; rw [hself]
    · rw [hoth n e]
  refine ⟨?_, hd, rfl, rfl, hcur⟩
  refine h.same (s' := s1) (fun m => ⟨hd m, ?_, ?_⟩) (fun n hn' => hsub n hn') h.cands h.candGood ?_ ?_
  · by_cases e : m = cur
    · subst e; rw [hself]
    · rw [hoth m e]
  · by_cases e : m = cur
    · subst e
      rw [hself]
      have := ((h.core st.s.lab st.kin).reach m).1 ((h.core st.s.lab st.kin).fin hcur)
      simp [this]
    · rw [hoth m e]
  · intro u hu
    by_cases e : u = cur
    · exact .inr fun mv _ => .inl e
    · rcases h.relaxed u hu with h1 | h1
      · rcases hsup u h1 with h2 | h2
        · exact absurd h2 e
        · exact .inl h2
      · right
        intro mv hmv
        rcases h1 mv hmv with h2 | h2
        · exact h2.elim
        · exact .inr h2
  · intro h0 u hu
    by_cases e : u = cur
    · exact .inr (.inl e)
    · rcases h.tested h0 u hu with h1 | h1 | h1
      · rcases hsup u h1 with h2 | h2
        · exact absurd h2 e
        · exact .inl h2
      · exact h1.elim
      · exact .inr (.inr h1)

/-- One iteration keeps the invariant and makes progress, or ends correctly. -/
theorem khIterate_spec (ok : Spec.KCostOk A cs) (ht : TopOk cfg.top) {st : KSt N K C P}
    (h : KHInv A cs L cfg S lab0 kin0 noMove noTest st) (noc : cfg.useCands = false → st.s.cands = []) :
    match kIterate A cfg st with
    | .more st' => KHInv A cs L cfg S lab0 kin0 noMove noTest st' ∧ (cfg.useCands = false → st'.s.cands = []) ∧
        (∀ lab kin, potential (A.full cs lab kin) st'.s.lab < potential (A.full cs lab kin) st.s.lab ∨
          (potential (A.full cs lab kin) st'.s.lab = potential (A.full cs lab kin) st.s.lab ∧
            L.size st'.s.opn < L.size st.s.opn))
    | .done r st' => KHDone A cs L cfg S lab0 kin0 r st' := by
  unfold kIterate
  cases hn : P.next st.s.opn with
  | none =>
    exact khdone_finish ht h.core h.cands h.startKin h.newKin h.edge h.candGood noc (fun _ => .inl ⟨h, hn⟩)
  | some co =>
    obtain ⟨cur, o⟩ := co
    simp only
    by_cases hab : cfg.abort st.s.expansions = true
    · rw [if_pos hab]
      exact khdone_finish ht h.core h.cands h.startKin h.newKin h.edge h.candGood noc (fun _ => .inr hab)
    · rw [if_neg hab]
      obtain ⟨hx, hd, hcs, hopn1, hcurT0⟩ := khpop_spec h hn (B := A.alg st.s.lab st.kin)
      generalize popNode (A.alg st.s.lab st.kin) cfg st.s cur o = s1 at *
      have hC := hx.core s1.lab st.kin
      have hcurT : Touched cfg.start lab0 s1.lab cur := (touched_congr (hd cur)).2 hcurT0
      obtain ⟨lb, db, hb, htb⟩ := hC.back cur hcurT
      obtain ⟨t, ht1, hlab, hopn, hmono, hcand, hterm, hnot⟩ :=
        hist_goalLoop (A := A.full cs s1.lab st.kin) (cfg := A.cfg cfg st.kin) (P := P) (cur := cur)
          cfg.goal s1 (fun g hg => hg) hC.nself hb
      rw [goalLoop_full A cs]
      rw [ht1]
      simp only
      have hcore : KHCore A cs S cfg.start lab0 t.st.lab := by rw [hlab]; exact hx.core
      have hcands : ∀ x ∈ t.st.cands, Touched cfg.start lab0 t.st.lab x.1 := by
        intro x hx1
        rw [hlab]
        rcases hcand x hx1 with h1 | h1
        · exact hx.cands x h1
        · rw [h1.1]; exact hcurT
      have hgk : ∀ g, st.kin g = kin0 g ∨
          (A.lookup (st.kin g) = .ok (some g) ∧ Reachable A cfg.start kin0 (st.kin g)) := fun g =>
        (h.goalKin g).imp id And.right
      have hcr : Reachable A cfg.start kin0 (st.kin cur) := h.reachable hcurT0
      have hgood : ∀ x ∈ t.st.cands, ∃ k, GoalMet A cfg.start cfg.goal kin0 k x.2 ∧
          (k = st.kin x.1 ∨ (x.1 ∉ cfg.start ∧ A.lookup k = .ok (some x.1))) := by
        intro x hx1
        rcases hcand x hx1 with h1 | ⟨e, g, hg, h1, h2⟩
        · exact hx.candGood x h1
        · exact ⟨st.kin cur, ⟨hcr, g, hg, st.kin g, _, h1, h2, hgk g⟩, .inl (by rw [e])⟩
      have hdist : ∀ n, (t.st.lab n).dist = (st.s.lab n).dist := fun n => by rw [hlab]; exact hd n
      have hnoc' : cfg.useCands = false → t.st.cands = [] := by
        intro hu
        have := goalLoop_nocands (A := A.full cs s1.lab st.kin) (cfg := A.cfg cfg st.kin) hu _ _ _ ht1
        rw [this, hcs]; exact noc hu
      have hnew : ∀ n, ¬ Touched cfg.start lab0 t.st.lab n → st.kin n = kin0 n := by rw [hlab]; exact hx.newKin
      have hedge : ∀ n, n ∉ cfg.start → Touched cfg.start lab0 t.st.lab n →
          KEdge A cfg.start kin0 t.st.lab st.kin n := by rw [hlab]; exact hx.edge
      have hfin : t.st.cands ≠ [] → KHDone A cs L cfg S lab0 kin0 (finish cfg t.st) { st with s := t.st } := by
        intro hne
        exact khdone_finish (st := { st with s := t.st }) ht hcore hcands h.startKin hnew hedge
          hgood hnoc' (fun e => absurd e hne)
      by_cases hT : t.term = true
      · rw [if_pos hT]
        obtain ⟨hres, g, hg, hgg⟩ := hterm hT
        have hne : t.result ≠ [] := by rw [hres]; exact hb.ne_nil
        rw [if_pos hne]
        refine ⟨by simp, by simp, fun p hp' => ⟨hcore, h.startKin, hnew, hedge, .inr ?_⟩⟩
        cases hp'
        have hm : GoalMet A cfg.start cfg.goal kin0 (st.kin cur) (A.distTo (st.kin g) (st.kin cur)) :=
          ⟨hcr, g, hg, st.kin g, _, hgg, rfl, hgk g⟩
        refine ⟨cur, db, ?_, ?_, ⟨_, _, hm, .inl rfl⟩, fun _ => ⟨_, hm⟩⟩
        · show ∀ m ∈ t.result, Touched cfg.start lab0 t.st.lab m
          rw [hlab, hres]; exact htb
        show Back (A.full cs t.st.lab st.kin) cfg.start t.st.lab cur t.result db
        rw [hlab, hres]; exact hb
      · rw [if_neg hT]
        by_cases hov : (cfg.useCands && !t.st.cands.isEmpty &&
            decide ((A.alg t.st.lab st.kin).addW t.st.firstW cfg.oversearch <
              (A.alg t.st.lab st.kin).total (t.st.lab cur))) = true
        · rw [if_pos hov]
          apply hfin
          intro e
          simp [e] at hov
        · rw [if_neg hov]
          have hX : KHInv A cs L cfg S lab0 kin0 (todo cur A.moves) noTest { s := t.st, kin := st.kin } := by
            refine hx.same (s' := t.st) (fun m => by rw [hlab]; exact ⟨rfl, rfl, Iff.rfl⟩)
              (fun n hn' => by rw [hopn] at hn'; exact hn') (by rw [← hlab]; exact hcands) hgood ?_ ?_
            · intro u hu
              rw [hopn]
              rcases hx.relaxed u hu with h1 | h1
              · exact .inl h1
              · right
                intro mv hmv
                rcases h1 mv hmv with h2 | h2
                · exact .inl ⟨h2, hmv⟩
                · exact .inr h2
            · intro h0 u hu
              rw [hopn]
              have hs0 : s1.cands = [] := by
                rw [List.eq_nil_iff_forall_not_mem]
                intro x hx1
                have := hmono x hx1
                rw [h0] at this; cases this
              rcases hx.tested hs0 u hu with h1 | h1 | h1
              · exact .inl h1
              · right; right
                intro g hg _
                refine ⟨(s1.lab cur).prev.map st.kin, ?_⟩
                rw [show u = cur from h1, ← Bool.not_eq_true]
                intro hgg
                exact hnot (by simpa using hT) g hg hgg h0
              · exact .inr (.inr h1)
          have hE := khExpand_spec ok A.moves { s := t.st, kin := st.kin } (fun m hm => hm) hX
            (by show Touched cfg.start lab0 t.st.lab cur; rw [hlab]; exact hcurT)
          cases hk : kExpand A cfg.goal cur A.moves { s := t.st, kin := st.kin } with
          | throw e =>
            rw [hk] at hE
            exact ⟨fun e' he' => by cases he'; exact hE, by simp, by simp⟩
          | ub =>
            rw [hk] at hE
            exact ⟨by simp, fun _ => hE, by simp⟩
          | ok st' =>
            rw [hk] at hE
            obtain ⟨g1, g2⟩ := hE
            refine ⟨g1.toNoMove, fun hu => by rw [g2.cands]; exact hnoc' hu, fun lab kin => ?_⟩
            have hpot : potential (A.full cs lab kin) t.st.lab =
                potential (A.full cs lab kin) st.s.lab := by
              unfold potential; simp only [hdist]
            have hle := g2.pot lab kin
            have heq := g2.potEq lab kin
            simp only at hle heq
            rcases lt_or_eq_of_le hle with h7 | h7
            · left; omega
            · right
              refine ⟨by omega, ?_⟩
              rw [heq h7, hopn, hopn1]
              exact L.next_size _ _ _ hn

theorem khInit_inv (hh : KHist A cs S lab0) (hS : ∀ s ∈ cfg.start, s ∈ S) :
    KHInv A cs L cfg S lab0 kin0 noMove noTest (kInitOn A P cfg lab0 kin0) ∧
    (kInitOn A P cfg lab0 kin0).s.cands = [] := by
  obtain ⟨h1, h2⟩ := hist_init (A := A.full cs lab0 kin0) (P := P) L cfg (hh lab0 kin0) hS
  have hs : (kInitOn A P cfg lab0 kin0).s = initSearch (A.full cs lab0 kin0) P cfg lab0 := rfl
  have key : ∀ (ss : List N) (st : SSt N C P), (∀ n, n ∉ ss → ((ss.foldl (addStart (A.full cs lab0 kin0)) st).lab n).dist = (st.lab n).dist) ∧
      ∀ n, n ∈ ss ∨ L.mem st.opn n → L.mem (ss.foldl (addStart (A.full cs lab0 kin0)) st).opn n := by
    intro ss
    induction ss with
    | nil => intro st; exact ⟨fun n _ => rfl, fun n hn => hn.resolve_left (by simp)⟩
    | cons s ss ih =>
      intro st
      obtain ⟨i1, i2⟩ := ih (addStart (A.full cs lab0 kin0) st s)
      refine ⟨fun n hn => ?_, fun n hn => ?_⟩
      · simp only [List.mem_cons, not_or] at hn
        have := i1 n hn.2
        simp only [List.foldl_cons]
        rw [this]
        have e : (addStart (A.full cs lab0 kin0) st s).lab n = st.lab n := setLab_ne _ _ hn.1
        rw [e]
      · simp only [List.foldl_cons]
        refine i2 n ?_
        by_cases e : n ∈ ss
        · exact .inl e
        · right
          refine (L.add_mem _ _ _ _).2 ?_
          rcases hn with hn | hn
          · rcases List.mem_cons.1 hn with e2 | e2
            · exact .inl e2
            · exact absurd e2 e
          · exact .inr hn
  have hdist : ∀ n, n ∉ cfg.start → ((kInitOn A P cfg lab0 kin0).s.lab n).dist = (lab0 n).dist := by
    intro n hn
    rw [hs]
    exact (key cfg.start _).1 n hn
  have hmemS : ∀ n ∈ cfg.start, L.mem (kInitOn A P cfg lab0 kin0).s.opn n := by
    intro n hn
    rw [hs]
    exact (key cfg.start _).2 n (.inl hn)
  have honly : ∀ n, Touched cfg.start lab0 (kInitOn A P cfg lab0 kin0).s.lab n → n ∈ cfg.start := by
    rintro n (hn | hn)
    · exact hn
    · by_contra hns
      rw [hdist n hns] at hn
      exact lt_irrefl _ hn
  have hcn : (kInitOn A P cfg lab0 kin0).s.cands = [] := by rw [hs]; exact h2
  refine ⟨⟨?_, ?_, ?_, fun s _ => rfl, fun n _ => rfl, ?_, ?_, ?_, ?_⟩, hcn⟩
  · rw [hs]; exact KHCore.of h1.core
  · rw [hs]; exact h1.mem
  · rw [hs]; exact h1.cands
  · intro n hn ht; exact absurd (honly n ht) hn
  · intro u hu; exact .inl (hmemS u (honly u hu))
  · intro _ u hu; exact .inl (hmemS u (honly u hu))
  · intro x hx; rw [hcn] at hx; cases hx

/-- Every run ends, correctly. -/
theorem khLoop_spec (ok : Spec.KCostOk A cs) (ht : TopOk cfg.top) (st : KSt N K C P)
    (h : KHInv A cs L cfg S lab0 kin0 noMove noTest st) (noc : cfg.useCands = false → st.s.cands = []) :
    ∃ fuel r st', kLoop A cfg fuel st = some (r, st') ∧ KHDone A cs L cfg S lab0 kin0 r st' := by
  have hs := khIterate_spec ok ht h noc
  cases hi : kIterate A cfg st with
  | done r st' =>
    rw [hi] at hs
    exact ⟨1, r, st', by rw [kLoop, hi], hs⟩
  | more st' =>
    rw [hi] at hs
    obtain ⟨h1, h2, h4⟩ := hs
    obtain ⟨fuel, r, st2, h5, h6⟩ := khLoop_spec ok ht st' h1 h2
    exact ⟨fuel + 1, r, st2, by rw [kLoop, hi]; exact h5, h6⟩
termination_by (potential (A.full cs (fun _ => Label.fresh A.zero) kin0) st.s.lab, L.size st.s.opn)
decreasing_by
  rcases h4 (fun _ => Label.fresh A.zero) kin0 with h4 | ⟨h4, h5⟩
  · exact Prod.Lex.left _ _ h4
  · rw [h4]; exact Prod.Lex.right _ h5

theorem kFindOn_spec (ok : Spec.KCostOk A cs) (L : Lawful P) (ht : TopOk cfg.top) (hh : KHist A cs S lab0)
    (hS : ∀ s ∈ cfg.start, s ∈ S) :
    ∃ fuel r st', kFindOn A P cfg lab0 kin0 fuel = some (r, st') ∧ KHDone A cs L cfg S lab0 kin0 r st' := by
  obtain ⟨h1, h2⟩ := khInit_inv (P := P) (L := L) (kin0 := kin0) hh hS
  exact khLoop_spec ok ht _ h1 (fun _ => h2)

end
end PathPlanning
