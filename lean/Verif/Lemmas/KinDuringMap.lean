import Verif.Model.KinDuringMap
import Verif.Spec.KinDuringMap
import Verif.Lemmas.KinSearchRun

/-!
# Invariants of the search over nodes with stored poses on a map that changes (C120)

`A` is the search with the steps that any of the maps accepts, `i` are the steps that all of them accept, `a` those of the map
of the moment.
-/

namespace PathPlanning.KDur
open Spec
set_option linter.unusedSectionVars false

variable {N K C : Type} [DecidableEq N] [LinearOrder C] [Fintype N]
variable {P : OpenList N C}

/-- One move on another map. -/
theorem kTry_wu (A : KAlgo N K C) (a : K → K → CRes Bool) (goal : List N) (cur : N) (mv) (st : KSt N K C P) :
    kTry (A.withUsable a) goal cur mv st =
      match mv (st.kin cur) (kPreds st.s.lab st.kin cur A.predDepth) with
      | none => .ok st
      | some (c, k) =>
        (a (st.kin cur) k).bind fun u =>
          if u then
            (A.lookup k).bind fun r =>
              match r with
              | none => .ok st
              | some n =>
                let s' := processNeighbor (A.alg st.s.lab st.kin) goal st.s cur n c
                if processAdds A st.s cur n c then
                  if n = cur then .ub
                  else .ok { s := s', kin := fun m => if m = n then k else st.kin m }
                else .ok { s := s', kin := st.kin }
          else .ok st := rfl

/-- One iteration on another map. -/
theorem kIterate_wu (A : KAlgo N K C) (a : K → K → CRes Bool) (cfg : SCfg N C) (st : KSt N K C P) :
    kIterate (A.withUsable a) cfg st =
      match P.next st.s.opn with
      | none => .done (finish cfg st.s) st
      | some (cur, o) =>
        if cfg.abort st.s.expansions then .done (finish cfg st.s) st
        else
          let s1 := popNode (A.alg st.s.lab st.kin) cfg st.s cur o
          match goalLoop (A.alg s1.lab st.kin) (A.cfg cfg st.kin) cur cfg.goal s1 with
          | .throw e => .done (.throw e) { st with s := s1 }
          | .ub => .done .ub { st with s := s1 }
          | .ok t =>
            if t.term then
              if t.result ≠ [] then .done (.ok t.result) { st with s := t.st }
              else .done (finish cfg t.st) { st with s := t.st }
            else if cfg.useCands && !t.st.cands.isEmpty &&
                decide ((A.alg t.st.lab st.kin).addW t.st.firstW cfg.oversearch <
                  (A.alg t.st.lab st.kin).total (t.st.lab cur)) then
              .done (finish cfg t.st) { st with s := t.st }
            else
              match kExpand (A.withUsable a) cfg.goal cur A.moves { st with s := t.st } with
              | .throw e => .done (.throw e) { st with s := t.st }
              | .ub => .done .ub { st with s := t.st }
              | .ok st' => .more st' := rfl

/-- State invariant.  `pend u mv`: move `mv` of the expanded node `u` has not been tried yet. -/
structure VKInv (A : KAlgo N K C) (i : K → K → CRes Bool) (cs : List C) (L : Lawful P) (cfg : SCfg N C) (kin0 : N → K)
    (pend : N → (K → List K → Option (C × K)) → Prop) (st : KSt N K C P) : Prop where
  core : KCore A cs cfg.start st.s.lab
  openMem : ∀ n, (st.s.lab n).opn = true → L.mem st.s.opn n
  memReach : ∀ n, L.mem st.s.opn n → (st.s.lab n).dist ≠ ⊤
  cands : ∀ x ∈ st.s.cands, (st.s.lab x.1).closed = true
  startKin : ∀ s ∈ cfg.start, st.kin s = kin0 s
  newKin : ∀ n, (st.s.lab n).dist = ⊤ → st.kin n = kin0 n
  edge : ∀ n, n ∉ cfg.start → (st.s.lab n).dist ≠ ⊤ → KEdge A cfg.start kin0 st.s.lab st.kin n
  relaxed : ∀ u, (st.s.lab u).closed = true → (st.s.lab u).opn = false → ∀ mv ∈ A.moves,
    pend u mv ∨ ∃ ps, ∀ c k v, mv (st.kin u) ps = some (c, k) → i (st.kin u) k = .ok true →
      A.lookup k = .ok (some v) → (st.s.lab v).dist ≤ A.addW (st.s.lab u).dist c
  tested : st.s.cands = [] → ∀ u, (st.s.lab u).closed = true → (st.s.lab u).opn = false →
    ∀ g ∈ cfg.goal, ((st.s.lab g).dist = ⊤ ∨ g = u) →
      ∃ pv, A.isGoal (st.kin g) (st.kin u) pv = false
  candGood : ∀ x ∈ st.s.cands, ∃ k, GoalMet A cfg.start cfg.goal kin0 k x.2 ∧
    (k = st.kin x.1 ∨ (x.1 ∉ cfg.start ∧ A.lookup k = .ok (some x.1)))

section
variable {A : KAlgo N K C} {i a : K → K → CRes Bool} {cs : List C} {L : Lawful P} {cfg : SCfg N C} {kin0 : N → K}

theorem VKInv.same {pend pend' : N → (K → List K → Option (C × K)) → Prop} {st : KSt N K C P}
    (h : VKInv A i cs L cfg kin0 pend st) {s' : SSt N C P} (hs : ∀ m, SameLab (st.s.lab m) (s'.lab m))
    (ho : s'.opn = st.s.opn) (hc : s'.cands = st.s.cands)
    (hp : ∀ u mv, mv ∈ A.moves → (st.s.lab u).closed = true → (st.s.lab u).opn = false → pend u mv → pend' u mv ∨ ∃ ps, ∀ c k v, mv (st.kin u) ps = some (c, k) →
      i (st.kin u) k = .ok true → A.lookup k = .ok (some v) →
      (st.s.lab v).dist ≤ A.addW (st.s.lab u).dist c) :
    VKInv A i cs L cfg kin0 pend' { s := s', kin := st.kin } where
  core lab kin := (h.core lab kin).congr (fun m => ⟨(hs m).1, (hs m).2.1⟩)
    (fun m => by rw [(hs m).2.2.1, (hs m).2.2.2])
  openMem n hn := by
    have hn' : (s'.lab n).opn = true := hn
    rw [(hs n).2.2.1] at hn'
    rw [ho]; exact h.openMem n hn'
  memReach n hn := by
    have hn' : L.mem s'.opn n := hn
    rw [ho] at hn'
    show (s'.lab n).dist ≠ ⊤
    rw [(hs n).1]; exact h.memReach n hn'
  cands x hx := by
    have hx' : x ∈ s'.cands := hx
    rw [hc] at hx'
    show (s'.lab x.1).closed = true
    rw [(hs _).2.2.2]; exact h.cands x hx'
  startKin := h.startKin
  newKin n hn := h.newKin n (by rw [← (hs n).1]; exact hn)
  edge n hn hd := (h.edge n hn (by rw [← (hs n).1]; exact hd)).same hs
  relaxed u h1 h2 mv hmv := by
    have h1' : (st.s.lab u).closed = true := by rw [← (hs u).2.2.2]; exact h1
    have h2' : (st.s.lab u).opn = false := by rw [← (hs u).2.2.1]; exact h2
    have key : pend' u mv ∨ ∃ ps, ∀ c k v, mv (st.kin u) ps = some (c, k) →
      i (st.kin u) k = .ok true → A.lookup k = .ok (some v) →
      (st.s.lab v).dist ≤ A.addW (st.s.lab u).dist c := by
      rcases h.relaxed u h1' h2' mv hmv with h3 | h3
      · exact hp u mv hmv h1' h2' h3
      · exact .inr h3
    rcases key with h3 | ⟨ps, h3⟩
    · exact .inl h3
    · right
      refine ⟨ps, fun c k v e1 e2 e3 => ?_⟩
      show (s'.lab v).dist ≤ A.addW (s'.lab u).dist c
      rw [(hs v).1, (hs u).1]
      exact h3 c k v e1 e2 e3
  tested h0 u h1 h2 g hg hd := by
    refine h.tested (by rw [← hc]; exact h0) u (by rw [← (hs u).2.2.2]; exact h1)
      (by rw [← (hs u).2.2.1]; exact h2) g hg ?_
    rcases hd with hd | hd
    · left; rw [← (hs g).1]; exact hd
    · exact .inr hd
  candGood x hx := h.candGood x (by rw [← hc]; exact hx)

theorem VKInv.drop {st : KSt N K C P} {cur : N} {mv} {ms : List (K → List K → Option (C × K))}
    (h : VKInv A i cs L cfg kin0 (todo cur (mv :: ms)) st)
    (hp : ∃ ps, ∀ c k v, mv (st.kin cur) ps = some (c, k) →
      i (st.kin cur) k = .ok true → A.lookup k = .ok (some v) →
      (st.s.lab v).dist ≤ A.addW (st.s.lab cur).dist c) :
    VKInv A i cs L cfg kin0 (todo cur ms) st := by
  refine h.same (s' := st.s) (fun m => ⟨rfl, rfl, rfl, rfl⟩) rfl rfl ?_
  intro u mv' _ _ _ hpend
  obtain ⟨e, hm⟩ := hpend
  rcases List.mem_cons.1 hm with e2 | hm
  · right; rw [e, e2]; exact hp
  · exact .inl ⟨e, hm⟩

/-- Stored poses are reachable. -/
theorem VKInv.reachable {pend} {st : KSt N K C P} (h : VKInv A i cs L cfg kin0 pend st) {n : N}
    (hd : (st.s.lab n).dist ≠ ⊤) : Reachable A cfg.start kin0 (st.kin n) := by
  by_cases hs : n ∈ cfg.start
  · rw [h.startKin n hs]; exact .start hs
  · exact (h.edge n hs hd).reachable.2

/-- One move. -/
theorem vkTry_spec (ok : Spec.KCostOk A cs) (hup : ∀ k k', a k k' = .ok true → A.usable k k' = .ok true)
    (hlo : ∀ k k', i k k' = .ok true → a k k' = .ok true) {st : KSt N K C P} {cur : N} {mv}
    {ms : List (K → List K → Option (C × K))} (hmv : mv ∈ A.moves)
    (h : VKInv A i cs L cfg kin0 (todo cur (mv :: ms)) st)
    (hcur : (st.s.lab cur).closed = true ∧ (st.s.lab cur).opn = false) :
    match kTry (A.withUsable a) cfg.goal cur mv st with
    | .ok st' => VKInv A i cs L cfg kin0 (todo cur ms) st' ∧ KStep A cs cur st st'
    | .throw e => Thrown A a cfg.start kin0 e
    | .ub => Misbehaves A a cfg.start kin0 := by
  rw [kTry_wu]
  cases hm : mv (st.kin cur) (kPreds st.s.lab st.kin cur A.predDepth) with
  | none =>
    simp only
    exact ⟨h.drop ⟨kPreds st.s.lab st.kin cur A.predDepth, fun c k v e => by rw [hm] at e; cases e⟩, KStep.refl _ _ _ _⟩
  | some ck =>
    obtain ⟨c, k⟩ := ck
    have hask : Asked A cfg.start kin0 (st.kin cur) k := by
      have hdc := ((h.core st.s.lab st.kin).reach cur).2 (.inr hcur.1)
      exact ⟨h.reachable hdc, mv, hmv, _, c, hm⟩
    simp only
    cases hus : a (st.kin cur) k with
    | throw e => exact ⟨_, _, hask, .inl hus⟩
    | ub => exact ⟨_, _, hask, .inl hus⟩
    | ok b =>
      simp only [CRes.bind]
      cases b with
      | false =>
        simp only [Bool.false_eq_true, if_false]
        refine ⟨h.drop ⟨kPreds st.s.lab st.kin cur A.predDepth, fun c' k' v e1 e2 => ?_⟩, KStep.refl _ _ _ _⟩
        rw [hm] at e1
        cases e1
        have e2' := hlo _ _ e2
        rw [hus] at e2'
        cases e2'
      | true =>
        simp only [if_true]
        cases hlk : A.lookup k with
        | throw e => exact ⟨_, _, hask, .inr ⟨hus, hlk⟩⟩
        | ub => exact ⟨_, _, hask, .inr ⟨hus, hlk⟩⟩
        | ok r =>
          simp only
          cases r with
          | none =>
            refine ⟨h.drop ⟨kPreds st.s.lab st.kin cur A.predDepth, fun c' k' v e1 e2 e3 => ?_⟩, KStep.refl _ _ _ _⟩
            rw [hm] at e1
            cases e1
            rw [hlk] at e3
            cases e3
          | some n =>
            simp only
            have hcs : c ∈ cs := ok.costs mv hmv _ _ _ _ hm
            have hC := h.core st.s.lab st.kin
            have hu : (st.s.lab cur).dist ≠ ⊤ := (hC.reach cur).2 (.inr hcur.1)
            obtain ⟨c1, c2, c3, hcase⟩ := process_cases_reach (A := A.alg st.s.lab st.kin)
              (goal := cfg.goal) (c := c) (hC.reach n) hu
            have hadd := processAdds_iff (A := A) (c := c) (hC.reach n) hu
            generalize processNeighbor (A.alg st.s.lab st.kin) cfg.goal st.s cur n c = s' at *
            simp only [KAlgo.alg_addW] at hcase
            rcases hcase with ⟨hncl, hop, hsame⟩ | ⟨hcl, hop, hv, hvc, _, hother⟩
            · -- not closer
              have : processAdds A st.s cur n c = false := by
                rw [← Bool.not_eq_true, hadd]; exact hncl
              rw [this]
              simp only [Bool.false_eq_true, if_false]
              have hs : ∀ m, SameLab (st.s.lab m) (s'.lab m) := fun m => (hsame m).1
              refine ⟨?_, ?_⟩
              · refine h.same hs hop c1 ?_
                intro u mv' _ _ _ hpend
                obtain ⟨e, hm'⟩ := hpend
                rcases List.mem_cons.1 hm' with e2 | hm'
                · right
                  rw [e, e2]
                  refine ⟨kPreds st.s.lab st.kin cur A.predDepth, fun c' k' v e1 e2 e3 => ?_⟩
                  rw [hm] at e1
                  cases e1
                  rw [hlk] at e3
                  cases e3
                  exact not_lt.1 hncl
                · exact .inl ⟨e, hm'⟩
              · refine ⟨fun m => ((hs m).1).le, c1, c2, c3, ⟨(hs cur).1, (hs cur).2.2.2, (hs cur).2.2.1⟩, rfl,
                  fun _ _ => potential_le fun m => ((hs m).1).le, fun _ _ _ => hop⟩
            · -- closer
              rw [hadd.2 hcl]
              simp only [if_true]
              have hne : n ≠ cur := by
                rintro rfl
                exact absurd (ok.le_addW hcs _) (not_le.2 hcl)
              rw [if_neg hne]
              have hle : ∀ m, (s'.lab m).dist ≤ (st.s.lab m).dist := by
                intro m
                by_cases e : m = n
                · subst e; rw [hv.1]; exact hcl.le
                · rw [hother m e]
              have hnstart : n ∉ cfg.start := by
                intro hs
                rw [hC.s0 n hs] at hcl
                exact absurd ((hC.low cur).trans (ok.le_addW hcs _)) (not_le.2 hcl)
              have hcore : KCore A cs cfg.start s'.lab := by
                apply KCore.of (lab' := st.s.lab) (kin := st.kin)
                refine hC.relax (ok.full _ _) hu (A.full_succ hcs) hcl hv (fun m hm => ?_)
                rw [hother m hm]; exact ⟨rfl, rfl, rfl, rfl⟩
              have hcurlab : s'.lab cur = st.s.lab cur := hother cur (Ne.symm hne)
              have hdn : (s'.lab n).dist ≠ ⊤ := by
                rw [hv.1, Ne, A.addW_eq_top]; exact hu
              refine ⟨⟨hcore, ?_, ?_, ?_, ?_, ?_, ?_, ?_, ?_, ?_⟩, ?_⟩
              · intro m hm'
                show L.mem s'.opn m
                rw [hop]
                by_cases e : m = n
                · exact (L.add_mem _ _ _ _).2 (.inl e)
                · refine (L.add_mem _ _ _ _).2 (.inr (h.openMem m ?_))
                  rw [← hother m e]; exact hm'
              · intro m hm'
                have hm2 : L.mem s'.opn m := hm'
                show (s'.lab m).dist ≠ ⊤
                rw [hop] at hm2
                rcases (L.add_mem _ _ _ _).1 hm2 with e | h1
                · rw [e]; exact hdn
                · exact ne_top_of_le_ne_top (h.memReach m h1) (hle m)
              · intro x hx
                have hx' : x ∈ s'.cands := hx
                rw [c1] at hx'
                show (s'.lab x.1).closed = true
                by_cases e : x.1 = n
                · rw [e, hvc, ← e]; exact h.cands x hx'
                · rw [hother _ e]; exact h.cands x hx'
              · intro s hs
                have : s ≠ n := fun e => hnstart (e ▸ hs)
                simp only [this, if_false]
                exact h.startKin s hs
              · intro m hm'
                have hm2 : (s'.lab m).dist = ⊤ := hm'
                have : m ≠ n := fun e => hdn (e ▸ hm2)
                simp only [this, if_false]
                rw [hother m this] at hm2
                exact h.newKin m hm2
              · intro m hms hmd
                by_cases e : m = n
                · subst e
                  refine ⟨cur, c, st.kin cur, mv, _, (st.s.lab cur).dist, hv.2.1, hmv,
                    by simpa using hm, by simpa using hup _ _ hus, by simpa using hlk, hv.1, .inl ⟨?_, ?_⟩, h.reachable hu⟩
                  · simp [Ne.symm hne]
                  · show _ = (s'.lab cur).dist
                    rw [hcurlab]
                · have hmd' : (st.s.lab m).dist ≠ ⊤ := by rw [← hother m e]; exact hmd
                  obtain ⟨p, c', k1, mv', ps, d1, g1, g2, g3, g4, g5, g6, g7, g8⟩ := h.edge m hms hmd'
                  refine ⟨p, c', k1, mv', ps, d1, ?_, g2, by simpa [e] using g3, by simpa [e] using g4,
                    by simpa [e] using g5, ?_, ?_, g8⟩
                  · show (s'.lab m).prev = some p
                    rw [hother m e]; exact g1
                  · show (s'.lab m).dist = _
                    rw [hother m e]; exact g6
                  · by_cases ep : p = n
                    · right
                      subst ep
                      refine ⟨hnstart, ?_, ?_⟩
                      · rcases g7 with ⟨e1, e2⟩ | ⟨_, e2, _⟩
                        · have hpd : (st.s.lab p).dist ≠ ⊤ := by
                            intro ht
                            rw [e2, ht] at g6
                            exact hmd' g6
                          obtain ⟨_, _, _, _, _, _, _, _, _, _, q5, _, _⟩ := h.edge p hnstart hpd
                          rw [e1]; exact q5
                        · exact e2
                      · show (s'.lab p).dist < d1
                        rw [hv.1]
                        rcases g7 with ⟨_, e2⟩ | ⟨_, _, e3⟩
                        · rw [e2]; exact hcl
                        · exact hcl.trans e3
                    · simp only [ep, if_false]
                      show (k1 = st.kin p ∧ d1 = (s'.lab p).dist) ∨ (p ∉ cfg.start ∧
                        A.lookup k1 = .ok (some p) ∧ (s'.lab p).dist < d1)
                      rw [hother p ep]
                      exact g7
              · intro u h1 h2 mv' hmv'
                have hun : u ≠ n := by
                  rintro rfl
                  have h2' : (s'.lab u).opn = false := h2
                  rw [hv.2.2] at h2'
                  cases h2'
                have h1' : (st.s.lab u).closed = true := by rw [← hother u hun]; exact h1
                have h2' : (st.s.lab u).opn = false := by rw [← hother u hun]; exact h2
                simp only [hun, if_false]
                show _ ∨ ∃ ps, ∀ c k v, _ → _ → _ → (s'.lab v).dist ≤ A.addW (s'.lab u).dist c
                rw [hother u hun]
                rcases h.relaxed u h1' h2' mv' hmv' with h3 | ⟨ps, h3⟩
                · obtain ⟨e, hm'⟩ := h3
                  rcases List.mem_cons.1 hm' with e2 | hm'
                  · right
                    rw [e, e2]
                    refine ⟨kPreds st.s.lab st.kin cur A.predDepth, fun c' k' v e1 e2 e3 => ?_⟩
                    rw [hm] at e1
                    cases e1
                    rw [hlk] at e3
                    cases e3
                    exact hv.1.le
                  · exact .inl ⟨e, hm'⟩
                · right
                  exact ⟨ps, fun c k v e1 e2 e3 => (hle v).trans (h3 c k v e1 e2 e3)⟩
              · intro h0 u h1 h2 g hg hd
                have hun : u ≠ n := by
                  rintro rfl
                  have h2' : (s'.lab u).opn = false := h2
                  rw [hv.2.2] at h2'
                  cases h2'
                have h1' : (st.s.lab u).closed = true := by rw [← hother u hun]; exact h1
                have h2' : (st.s.lab u).opn = false := by rw [← hother u hun]; exact h2
                have hgn : g ≠ n := by
                  rintro rfl
                  rcases hd with hd | hd
                  · exact hdn hd
                  · exact hun hd.symm
                simp only [hun, hgn, if_false]
                refine h.tested (by rw [← c1]; exact h0) u h1' h2' g hg ?_
                rcases hd with hd | hd
                · left; rw [← hother g hgn]; exact hd
                · exact .inr hd
              · intro x hx
                have hx' : x ∈ s'.cands := hx
                rw [c1] at hx'
                obtain ⟨kx, q1, q2⟩ := h.candGood x hx'
                refine ⟨kx, q1, ?_⟩
                by_cases e : x.1 = n
                · right
                  refine ⟨e ▸ hnstart, ?_⟩
                  rcases q2 with q2 | q2
                  · have hxd : (st.s.lab x.1).dist ≠ ⊤ := (hC.reach _).2 (.inr (h.cands x hx'))
                    obtain ⟨_, _, _, _, _, _, _, _, _, _, q5, _, _⟩ := h.edge x.1 (e ▸ hnstart) hxd
                    rw [q2]; exact q5
                  · exact q2.2
                · simp only [e, if_false]; exact q2
              · refine ⟨hle, c1, c2, c3, ?_, by simp [Ne.symm hne], fun _ _ => potential_le hle,
                  fun lab kin heq => ?_⟩
                · show (s'.lab cur).dist = _ ∧ (s'.lab cur).closed = _ ∧ (s'.lab cur).opn = _
                  rw [hcurlab]; exact ⟨rfl, rfl, rfl⟩
                · exact absurd heq (ne_of_lt (potential_lt (hcore lab kin) hle
                    (by show (s'.lab n).dist < _; rw [hv.1]; exact hcl)))

/-- The pose of a goal node. -/
theorem VKInv.goalKin {pend} {st : KSt N K C P} (h : VKInv A i cs L cfg kin0 pend st) (g : N) :
    st.kin g = kin0 g ∨
      (g ∉ cfg.start ∧ A.lookup (st.kin g) = .ok (some g) ∧ Reachable A cfg.start kin0 (st.kin g)) := by
  by_cases hs : g ∈ cfg.start
  · exact .inl (h.startKin g hs)
  · by_cases hd : (st.s.lab g).dist = ⊤
    · exact .inl (h.newKin g hd)
    · exact .inr ⟨hs, (h.edge g hs hd).reachable⟩

/-- All remaining moves of `cur`. -/
theorem vkExpand_spec (ok : Spec.KCostOk A cs) (hup : ∀ k k', a k k' = .ok true → A.usable k k' = .ok true)
    (hlo : ∀ k k', i k k' = .ok true → a k k' = .ok true) {cur : N} :
    ∀ (ms : List (K → List K → Option (C × K))) (st : KSt N K C P), (∀ mv ∈ ms, mv ∈ A.moves) →
      VKInv A i cs L cfg kin0 (todo cur ms) st →
      ((st.s.lab cur).closed = true ∧ (st.s.lab cur).opn = false) →
    match kExpand (A.withUsable a) cfg.goal cur ms st with
    | .ok st' => VKInv A i cs L cfg kin0 (todo cur []) st' ∧ KStep A cs cur st st'
    | .throw e => Thrown A a cfg.start kin0 e
    | .ub => Misbehaves A a cfg.start kin0 := by
  intro ms
  induction ms with
  | nil => intro st _ h _; exact ⟨h, KStep.refl _ _ _ _⟩
  | cons mv ms ih =>
    intro st hsub h hcur
    rw [kExpand]
    have h1 := vkTry_spec ok hup hlo (hsub mv (by simp)) h hcur
    cases hk : kTry (A.withUsable a) cfg.goal cur mv st with
    | throw e => rw [hk] at h1; exact h1
    | ub => rw [hk] at h1; exact h1
    | ok st1 =>
      rw [hk] at h1
      obtain ⟨h2, h3⟩ := h1
      have h4 := ih st1 (fun m hm => hsub m (List.mem_cons_of_mem _ hm)) h2
        (by rw [h3.curLab.2.1, h3.curLab.2.2]; exact hcur)
      simp only [CRes.bind]
      cases hk2 : kExpand (A.withUsable a) cfg.goal cur ms st1 with
      | throw e => rw [hk2] at h4; exact h4
      | ub => rw [hk2] at h4; exact h4
      | ok st2 =>
        rw [hk2] at h4
        exact ⟨h4.1, h3.trans h4.2⟩

theorem VKInv.finished {st : KSt N K C P} {cur : N} (h : VKInv A i cs L cfg kin0 (todo cur []) st) :
    VKInv A i cs L cfg kin0 nopend st :=
  h.same (s' := st.s) (fun m => ⟨rfl, rfl, rfl, rfl⟩) rfl rfl
    (fun u mv _ _ _ hp => by simp [todo] at hp)

/-- What the goal test and the popping leave: everything but the goal tests of `cur`. -/
structure VKPop (A : KAlgo N K C) (i : K → K → CRes Bool) (cs : List C) (L : Lawful P) (cfg : SCfg N C) (kin0 : N → K) (cur : N)
    (st : KSt N K C P) : Prop where
  core : KCore A cs cfg.start st.s.lab
  openMem : ∀ n, (st.s.lab n).opn = true → L.mem st.s.opn n
  memReach : ∀ n, L.mem st.s.opn n → (st.s.lab n).dist ≠ ⊤
  cands : ∀ x ∈ st.s.cands, (st.s.lab x.1).closed = true
  startKin : ∀ s ∈ cfg.start, st.kin s = kin0 s
  newKin : ∀ n, (st.s.lab n).dist = ⊤ → st.kin n = kin0 n
  edge : ∀ n, n ∉ cfg.start → (st.s.lab n).dist ≠ ⊤ → KEdge A cfg.start kin0 st.s.lab st.kin n
  curOk : (st.s.lab cur).closed = true ∧ (st.s.lab cur).opn = false
  relaxed : ∀ u, (st.s.lab u).closed = true → (st.s.lab u).opn = false → ∀ mv ∈ A.moves,
    u = cur ∨ ∃ ps, ∀ c k v, mv (st.kin u) ps = some (c, k) → i (st.kin u) k = .ok true →
      A.lookup k = .ok (some v) → (st.s.lab v).dist ≤ A.addW (st.s.lab u).dist c
  tested : st.s.cands = [] → ∀ u, u ≠ cur → (st.s.lab u).closed = true → (st.s.lab u).opn = false →
    ∀ g ∈ cfg.goal, ((st.s.lab g).dist = ⊤ ∨ g = u) →
      ∃ pv, A.isGoal (st.kin g) (st.kin u) pv = false
  candGood : ∀ x ∈ st.s.cands, ∃ k, GoalMet A cfg.start cfg.goal kin0 k x.2 ∧
    (k = st.kin x.1 ∨ (x.1 ∉ cfg.start ∧ A.lookup k = .ok (some x.1)))

theorem vkpop_spec {st : KSt N K C P} (h : VKInv A i cs L cfg kin0 nopend st) {cur : N} {o : P.O}
    (hn : P.next st.s.opn = some (cur, o)) {B : Algo N C} :
    let s1 := popNode B cfg st.s cur o
    VKPop A i cs L cfg kin0 cur { s := s1, kin := st.kin } ∧ (∀ n, (s1.lab n).dist = (st.s.lab n).dist) ∧
      (∀ n, (s1.lab n).prev = (st.s.lab n).prev) ∧
      (∀ n, n ≠ cur → s1.lab n = st.s.lab n) ∧ s1.cands = st.s.cands ∧ s1.firstW = st.s.firstW ∧
      s1.expansions = st.s.expansions + 1 ∧ s1.opn = o := by
  obtain ⟨hk, hsub, hsup⟩ := L.next_some _ _ _ hn
  have hcur : (st.s.lab cur).dist ≠ ⊤ := h.memReach cur hk
  intro s1
  have hself : s1.lab cur = { st.s.lab cur with
      opn := false, closed := true, expanded := true
      h := match cfg.goal with
        | [] => match cfg.heurGoal with
          | none => (st.s.lab cur).h
          | some H => H cur
        | g :: _ => B.heur cur g } := by
    exact setLab_self _ _ _
  have hoth : ∀ n, n ≠ cur → s1.lab n = st.s.lab n := fun n hne => setLab_ne _ _ hne
  have hd : ∀ n, (s1.lab n).dist = (st.s.lab n).dist := by
    intro n
    by_cases e : n = cur
    · subst e; rw [hself]
    · rw [hoth n e]
  have hp : ∀ n, (s1.lab n).prev = (st.s.lab n).prev := by
    intro n
    by_cases e : n = cur
    · subst e; rw [hself]
    · rw [hoth n e]
  refine ⟨⟨?_, ?_, ?_, ?_, h.startKin, ?_, ?_, ?_, ?_, ?_, h.candGood⟩, hd, hp, hoth, rfl, rfl, rfl, rfl⟩
  · intro lab kin
    refine (h.core lab kin).congr (fun m => ⟨hd m, hp m⟩) (fun m => ?_)
    show ((s1.lab m).opn = true ∨ (s1.lab m).closed = true) ↔ _
    by_cases e : m = cur
    · subst e
      rw [hself]
      have := ((h.core lab kin).reach m).1 hcur
      simp [this]
    · rw [hoth m e]
  · intro n hop
    have hop' : (s1.lab n).opn = true := hop
    by_cases e : n = cur
    · subst e; rw [hself] at hop'; cases hop'
    · rw [hoth n e] at hop'
      rcases hsup n (h.openMem n hop') with e' | h1
      · exact absurd e' e
      · exact h1
  · intro n hk'
    show (s1.lab n).dist ≠ ⊤
    rw [hd n]; exact h.memReach n (hsub n hk')
  · intro x hx
    show (s1.lab x.1).closed = true
    by_cases e : x.1 = cur
    · rw [e, hself]
    · rw [hoth _ e]; exact h.cands x hx
  · intro n hn'
    exact h.newKin n (by rw [← hd n]; exact hn')
  · intro n hns hnd
    obtain ⟨p, c, k1, mv, ps, d1, h1, h2, h3, h4, h5, h6, h7, h8⟩ := h.edge n hns (by rw [← hd n]; exact hnd)
    refine ⟨p, c, k1, mv, ps, d1, (hp n).trans h1, h2, h3, h4, h5, (hd n).trans h6, ?_, h8⟩
    show _ ∨ (_ ∧ _ ∧ (s1.lab p).dist < d1)
    rw [hd p]
    rcases h7 with ⟨e1, e2⟩ | h7
    · exact .inl ⟨e1, e2⟩
    · exact .inr h7
  · show (s1.lab cur).closed = true ∧ (s1.lab cur).opn = false
    rw [hself]; exact ⟨rfl, rfl⟩
  · intro u h1 h2 mv hmv
    by_cases e : u = cur
    · exact .inl e
    · right
      have h1' : (st.s.lab u).closed = true := by rw [← hoth u e]; exact h1
      have h2' : (st.s.lab u).opn = false := by rw [← hoth u e]; exact h2
      rcases h.relaxed u h1' h2' mv hmv with h3 | ⟨ps, h3⟩
      · exact h3.elim
      · refine ⟨ps, fun c k v e1 e2 e3 => ?_⟩
        show (s1.lab v).dist ≤ A.addW (s1.lab u).dist c
        rw [hd v, hd u]; exact h3 c k v e1 e2 e3
  · intro h0 u hu h1 h2 g hg hd'
    refine h.tested h0 u (by rw [← hoth u hu]; exact h1) (by rw [← hoth u hu]; exact h2) g hg ?_
    rcases hd' with hd' | hd'
    · left; rw [← hd g]; exact hd'
    · exact .inr hd'

/-- The invariant after a goal test that did not end the search. -/
theorem VKPop.afterTest {kin : N → K} {s1 : SSt N C P} {cur : N}
    (hx : VKPop A i cs L cfg kin0 cur { s := s1, kin := kin }) {s2 : SSt N C P} (hlab : s2.lab = s1.lab)
    (hopn : s2.opn = s1.opn) (hmono : ∀ x ∈ s1.cands, x ∈ s2.cands)
    (hclosed : ∀ x ∈ s2.cands, (s2.lab x.1).closed = true)
    (hgood : ∀ x ∈ s2.cands, ∃ k, GoalMet A cfg.start cfg.goal kin0 k x.2 ∧
      (k = kin x.1 ∨ (x.1 ∉ cfg.start ∧ A.lookup k = .ok (some x.1))))
    (hnot : ∀ g ∈ cfg.goal, A.isGoal (kin g) (kin cur) ((s1.lab cur).prev.map kin) = true → s2.cands ≠ []) :
    VKInv A i cs L cfg kin0 (todo cur A.moves) { s := s2, kin := kin } := by
  refine ⟨(by rw [show ({ s := s2, kin := kin } : KSt N K C P).s.lab = s1.lab from hlab]; exact hx.core), ?_, ?_, hclosed, hx.startKin, ?_, (by rw [show ({ s := s2, kin := kin } : KSt N K C P).s.lab = s1.lab from hlab]; exact hx.edge), ?_, ?_, hgood⟩
  · show ∀ n, (s2.lab n).opn = true → L.mem s2.opn n
    rw [hlab, hopn]; exact hx.openMem
  · show ∀ n, L.mem s2.opn n → (s2.lab n).dist ≠ ⊤
    rw [hlab, hopn]; exact hx.memReach
  · show ∀ n, (s2.lab n).dist = ⊤ → _
    rw [hlab]; exact hx.newKin
  · show ∀ u, (s2.lab u).closed = true → (s2.lab u).opn = false → _
    intro u h1 h2 mv hmv
    show _ ∨ ∃ ps, ∀ c k v, _ → _ → _ → (s2.lab v).dist ≤ A.addW (s2.lab u).dist c
    rw [hlab] at h1 h2 ⊢
    rcases hx.relaxed u h1 h2 mv hmv with e | h3
    · exact .inl ⟨e, hmv⟩
    · exact .inr h3
  · show s2.cands = [] → ∀ u, (s2.lab u).closed = true → (s2.lab u).opn = false → _
    intro h0 u h1 h2 g hg hd'
    have hd2 : (s2.lab g).dist = ⊤ ∨ g = u := hd'
    rw [hlab] at h1 h2 hd2
    by_cases e : u = cur
    · subst e
      refine ⟨(s1.lab u).prev.map kin, ?_⟩
      rw [← Bool.not_eq_true]
      intro hgg
      exact hnot g hg hgg h0
    · have hs0 : s1.cands = [] := by
        rw [List.eq_nil_iff_forall_not_mem]
        intro x hx1
        have := hmono x hx1
        rw [h0] at this; cases this
      exact hx.tested hs0 u e h1 h2 g hg hd2

/-- What is known when the search ends. -/
structure VKDone (A : KAlgo N K C) (i a : K → K → CRes Bool) (cs : List C) (L : Lawful P) (cfg : SCfg N C) (kin0 : N → K)
    (r : CRes (List N)) (st : KSt N K C P) : Prop where
  throw : ∀ e, r = .throw e → Thrown A a cfg.start kin0 e
  ub : r = .ub → Misbehaves A a cfg.start kin0
  ok : ∀ p, r = .ok p → KCore A cs cfg.start st.s.lab ∧ (∀ s ∈ cfg.start, st.kin s = kin0 s) ∧
    (∀ n, n ∉ cfg.start → (st.s.lab n).dist ≠ ⊤ → KEdge A cfg.start kin0 st.s.lab st.kin n) ∧
    ((p = [] ∧ st.s.cands = [] ∧
        ((VKInv A i cs L cfg kin0 nopend st ∧ P.next st.s.opn = none) ∨
          cfg.abort st.s.expansions = true)) ∨
      (∃ n d, (st.s.lab n).dist ≠ ⊤ ∧ Back (A.full cs st.s.lab st.kin) cfg.start st.s.lab n p d ∧
        (∃ k w, GoalMet A cfg.start cfg.goal kin0 k w ∧
          (k = st.kin n ∨ (n ∉ cfg.start ∧ A.lookup k = .ok (some n)))) ∧
        (cfg.useCands = false → ∃ w, GoalMet A cfg.start cfg.goal kin0 (st.kin n) w)))

theorem vkdone_finish (ht : TopOk cfg.top) {st : KSt N K C P}
    (core : KCore A cs cfg.start st.s.lab) (cands : ∀ x ∈ st.s.cands, (st.s.lab x.1).closed = true)
    (startKin : ∀ s ∈ cfg.start, st.kin s = kin0 s)
    (edge : ∀ n, n ∉ cfg.start → (st.s.lab n).dist ≠ ⊤ → KEdge A cfg.start kin0 st.s.lab st.kin n)
    (candGood : ∀ x ∈ st.s.cands, ∃ k, GoalMet A cfg.start cfg.goal kin0 k x.2 ∧
      (k = st.kin x.1 ∨ (x.1 ∉ cfg.start ∧ A.lookup k = .ok (some x.1))))
    (noc : cfg.useCands = false → st.s.cands = [])
    (why : st.s.cands = [] → (VKInv A i cs L cfg kin0 nopend st ∧ P.next st.s.opn = none) ∨
      cfg.abort st.s.expansions = true) :
    VKDone A i a cs L cfg kin0 (finish cfg st.s) st := by
  have hC := core st.s.lab st.kin
  rcases finish_spec (A := A.full cs st.s.lab st.kin) ht hC cands with
    ⟨h1, h2⟩ | ⟨x, l, d, h1, h2, h3, h4⟩
  · rw [h2]
    refine ⟨by simp, by simp, fun p hp => ⟨core, startKin, edge, .inl ?_⟩⟩
    cases hp
    exact ⟨rfl, h1, why h1⟩
  · rw [h4]
    refine ⟨by simp, by simp, fun p hp => ⟨core, startKin, edge, .inr ?_⟩⟩
    cases hp
    obtain ⟨k, q1, q2⟩ := candGood x h1
    refine ⟨x.1, d, (hC.reach _).2 (.inr (cands x h1)), h3, ⟨k, x.2, q1, q2⟩, fun hu => ?_⟩
    rw [noc hu] at h1; cases h1

theorem VKInv.toFinish {st : KSt N K C P} (ht : TopOk cfg.top) (h : VKInv A i cs L cfg kin0 nopend st)
    (noc : cfg.useCands = false → st.s.cands = [])
    (why : P.next st.s.opn = none ∨ cfg.abort st.s.expansions = true) :
    VKDone A i a cs L cfg kin0 (finish cfg st.s) st :=
  vkdone_finish ht h.core h.cands h.startKin h.edge h.candGood noc
    (fun _ => why.imp (fun w => ⟨h, w⟩) id)

/-- One iteration keeps the invariant and makes progress, or ends correctly. -/
theorem vkIterate_spec (ok : Spec.KCostOk A cs) (hup : ∀ k k', a k k' = .ok true → A.usable k k' = .ok true)
    (hlo : ∀ k k', i k k' = .ok true → a k k' = .ok true) (ht : TopOk cfg.top) {st : KSt N K C P}
    (h : VKInv A i cs L cfg kin0 nopend st) (noc : cfg.useCands = false → st.s.cands = []) :
    match kIterate (A.withUsable a) cfg st with
    | .more st' => VKInv A i cs L cfg kin0 nopend st' ∧ (cfg.useCands = false → st'.s.cands = []) ∧
        (∀ n, (st'.s.lab n).dist ≤ (st.s.lab n).dist) ∧
        (∀ lab kin, potential (A.full cs lab kin) st'.s.lab < potential (A.full cs lab kin) st.s.lab ∨
          (potential (A.full cs lab kin) st'.s.lab = potential (A.full cs lab kin) st.s.lab ∧
            L.size st'.s.opn < L.size st.s.opn))
    | .done r st' => VKDone A i a cs L cfg kin0 r st' := by
  rw [kIterate_wu]
  cases hn : P.next st.s.opn with
  | none => exact h.toFinish ht noc (.inl hn)
  | some co =>
    obtain ⟨cur, o⟩ := co
    simp only
    by_cases hab : cfg.abort st.s.expansions = true
    · rw [if_pos hab]; exact h.toFinish ht noc (.inr hab)
    · rw [if_neg hab]
      obtain ⟨hx, hd, hp, hoth, hcs, hf, he, hopn1⟩ := vkpop_spec h hn (B := A.alg st.s.lab st.kin)
      generalize popNode (A.alg st.s.lab st.kin) cfg st.s cur o = s1 at *
      have hC := hx.core s1.lab st.kin
      obtain ⟨t, ht1, hlab, hopn, hexp, hmono, hcand, hnoc, hterm, hnot, _, _⟩ :=
        goalLoop_spec (A := A.full cs s1.lab st.kin) (cfg := A.cfg cfg st.kin) (P := P) (cur := cur)
          cfg.goal s1 (fun g hg => hg) hC hx.curOk.1
      rw [goalLoop_full A cs]
      rw [ht1]
      simp only
      have hcore : KCore A cs cfg.start t.st.lab := by rw [hlab]; exact hx.core
      have hclosed : ∀ x ∈ t.st.cands, (t.st.lab x.1).closed = true := by
        intro x hx1
        rw [hlab]
        rcases hcand x hx1 with h1 | h1
        · exact hx.cands x h1
        · rw [h1.1]; exact hx.curOk.1
      have hgk : ∀ g, st.kin g = kin0 g ∨
          (A.lookup (st.kin g) = .ok (some g) ∧ Reachable A cfg.start kin0 (st.kin g)) := fun g =>
        (h.goalKin g).imp id And.right
      have hcr : Reachable A cfg.start kin0 (st.kin cur) :=
        h.reachable (by rw [← hd cur]; exact (hC.reach _).2 (.inr hx.curOk.1))
      have hgood : ∀ x ∈ t.st.cands, ∃ k, GoalMet A cfg.start cfg.goal kin0 k x.2 ∧
          (k = st.kin x.1 ∨ (x.1 ∉ cfg.start ∧ A.lookup k = .ok (some x.1))) := by
        intro x hx1
        rcases hcand x hx1 with h1 | ⟨e, g, hg, h1, h2⟩
        · exact hx.candGood x h1
        · exact ⟨st.kin cur, ⟨hcr, g, hg, st.kin g, _, h1, h2, hgk g⟩, .inl (by rw [e])⟩
      have hdist : ∀ n, (t.st.lab n).dist = (st.s.lab n).dist := fun n => by rw [hlab]; exact hd n
      have hnoc' : cfg.useCands = false → t.st.cands = [] := by
        intro hu
        rw [hnoc hu, hcs]; exact noc hu
      have hedge : ∀ n, n ∉ cfg.start → (t.st.lab n).dist ≠ ⊤ →
          KEdge A cfg.start kin0 t.st.lab st.kin n := by rw [hlab]; exact hx.edge
      have hfin : t.st.cands ≠ [] → VKDone A i a cs L cfg kin0 (finish cfg t.st) { st with s := t.st } := by
        intro hne
        exact vkdone_finish (st := { st with s := t.st }) ht hcore hclosed h.startKin hedge
          hgood hnoc' (fun e => absurd e hne)
      by_cases hT : t.term = true
      · rw [if_pos hT]
        obtain ⟨d, hb, g, hg, hgg⟩ := hterm hT
        have hne : t.result ≠ [] := hb.ne_nil
        rw [if_pos hne]
        refine ⟨by simp, by simp, fun p hp' => ⟨hcore, h.startKin, hedge, .inr ?_⟩⟩
        cases hp'
        have hm : GoalMet A cfg.start cfg.goal kin0 (st.kin cur) (A.distTo (st.kin g) (st.kin cur)) :=
          ⟨hcr, g, hg, st.kin g, _, hgg, rfl, hgk g⟩
        refine ⟨cur, d, ?_, ?_, ⟨_, _, hm, .inl rfl⟩, fun _ => ⟨_, hm⟩⟩
        · show (t.st.lab cur).dist ≠ ⊤
          rw [hlab]; exact (hC.reach _).2 (.inr hx.curOk.1)
        show Back (A.full cs t.st.lab st.kin) cfg.start t.st.lab cur t.result d
        rw [hlab]; exact hb
      · rw [if_neg hT]
        by_cases hov : (cfg.useCands && !t.st.cands.isEmpty &&
            decide ((A.alg t.st.lab st.kin).addW t.st.firstW cfg.oversearch <
              (A.alg t.st.lab st.kin).total (t.st.lab cur))) = true
        · rw [if_pos hov]
          apply hfin
          intro e
          simp [e] at hov
        · rw [if_neg hov]
          have hX : VKInv A i cs L cfg kin0 (todo cur A.moves) { s := t.st, kin := st.kin } :=
            hx.afterTest hlab hopn hmono hclosed hgood (fun g hg hgg e => by
              have := (hnot (by simpa using hT) g hg hgg).2
              rw [e] at this; cases this)
          have hE := vkExpand_spec ok hup hlo A.moves { s := t.st, kin := st.kin } (fun m hm => hm) hX
            (by show (t.st.lab cur).closed = true ∧ (t.st.lab cur).opn = false; rw [hlab]; exact hx.curOk)
          cases hk : kExpand (A.withUsable a) cfg.goal cur A.moves { s := t.st, kin := st.kin } with
          | throw e =>
            rw [hk] at hE
            exact ⟨fun e' he' => by cases he'; exact hE, by simp, by simp⟩
          | ub =>
            rw [hk] at hE
            exact ⟨by simp, fun _ => hE, by simp⟩
          | ok st' =>
            rw [hk] at hE
            obtain ⟨g1, g2⟩ := hE
            refine ⟨g1.finished, fun hu => by rw [g2.cands]; exact hnoc' hu,
              fun n => (g2.dist n).trans (hdist n).le, fun lab kin => ?_⟩
            have hpot : potential (A.full cs lab kin) t.st.lab =
                potential (A.full cs lab kin) st.s.lab := by
              unfold potential; simp only [hdist]
            have hle := g2.pot lab kin
            have heq := g2.potEq lab kin
            simp only at hle heq
            rcases lt_or_eq_of_le hle with h7 | h7
            · left; omega
            · right
              refine ⟨by omega, ?_⟩
              rw [heq h7, hopn, hopn1]
              exact L.next_size _ _ _ hn

theorem vkInit_inv : VKInv A i cs L cfg kin0 nopend (kInit A P cfg kin0) ∧
    (kInit A P cfg kin0).s.cands = [] := by
  obtain ⟨k1, k2, k3, k4, k5⟩ :=
    init_facts (A := A.full cs (fun _ => Label.fresh A.zero) kin0) (L := L) (cfg := cfg)
  have hI := init_inv (A := A.full cs (fun _ => Label.fresh A.zero) kin0) (L := L) (cfg := cfg)
  have hs : (kInit A P cfg kin0).s = initSearch (A.full cs (fun _ => Label.fresh A.zero) kin0) P cfg
      (freshLabels (A.full cs (fun _ => Label.fresh A.zero) kin0)) := rfl
  have hclosed : ∀ u, ((kInit A P cfg kin0).s.lab u).closed = false := by
    intro u
    rw [hs]
    by_cases hu : u ∈ cfg.start
    · rw [k1 u hu]; rfl
    · rw [k2 u hu]; rfl
  have hcn : (kInit A P cfg kin0).s.cands = [] := by rw [hs]; exact k5
  refine ⟨⟨?_, ?_, ?_, ?_, fun s _ => rfl, fun n _ => rfl, ?_, ?_, ?_, ?_⟩, hcn⟩
  · rw [hs]; exact KCore.of hI.core
  · rw [hs]; exact hI.openMem
  · rw [hs]; exact hI.memReach
  · rw [hs]; exact hI.cands
  · intro n hn hd
    rw [hs, k2 n hn] at hd
    exact absurd rfl hd
  · intro u h1; rw [hclosed u] at h1; cases h1
  · intro _ u h1; rw [hclosed u] at h1; cases h1
  · intro x hx; rw [hcn] at hx; cases hx

end
end PathPlanning.KDur
