import Verif.Props.KinSearch
import Verif.Lemmas.KinSearchDom

/-!
# What a search without heuristic overlooks (C98)
-/

namespace PathPlanning
open Spec
set_option linter.unusedSectionVars false

variable {N K C : Type} [DecidableEq N] [LinearOrder C] [Fintype N]
variable {P : OpenList N C} {A : KAlgo N K C} {cs : List C} {L : Lawful P} {cfg : SCfg N C} {kin0 : N → K}

/-- The pose stored at a reached node, its distance and its predecessors are those of a drive. -/
theorem DomEnd.stored {st : KSt N K C P} {dd : WithTop C} (h : DomEnd A cs cfg kin0 dd st) {B : Algo N C} {n l d}
    (hb : Back B cfg.start st.s.lab n l d) (hd : (st.s.lab n).dist ≠ ⊤) :
    ∃ l' d', l.map st.kin = l' ++ [st.kin n] ∧ DriveFrom A cfg.start kin0 (l' ++ [st.kin n]) d' ∧
      (st.s.lab n).dist = (d' : WithTop C) ∧ (∀ k, kPreds st.s.lab st.kin n k = l'.reverse.take k) ∧
      (n ∈ cfg.start → l' = []) := by
  have hC := h.core st.s.lab st.kin
  induction hb with
  | @start s hs =>
    refine ⟨[], A.zero, rfl, ⟨.start _, ⟨s, hs, by simp [h.startKin s hs]⟩, by simp⟩, hC.s0 s hs, ?_, fun _ => rfl⟩
    intro k
    cases k with
    | zero => rfl
    | succ k => rw [kPreds, hC.sp s hs]; rfl
  | @step n p l d c hn hp hb he hle ih =>
    obtain ⟨p', c', mv, h1, h2, h3, h4, h5⟩ := h.edge n hn hd
    rw [hp] at h1
    cases h1
    have hpd : (st.s.lab p).dist ≠ ⊤ := by
      intro e
      rw [h5, e] at hd
      exact hd rfl
    obtain ⟨l', d', e1, ⟨e2, ⟨s, hs, e3⟩, e4⟩, e5, e6, _⟩ := ih hpd
    refine ⟨l' ++ [st.kin p], A.add d' c', ?_, ⟨?_, ⟨s, hs, ?_⟩, ?_⟩, ?_, ?_, fun hc => absurd hc hn⟩
    · rw [List.map_append, e1]; rfl
    · refine .step e2 h2 ?_ h4
      rw [← e6]; exact h3
    · rw [List.head?_append, e3]; rfl
    · intro k hk
      rw [List.tail_append_of_ne_nil (by simp)] at hk
      rcases List.mem_append.1 hk with hk | hk
      · exact e4 k hk
      · simp only [List.mem_singleton] at hk
        rw [hk]
        exact ⟨n, (h.kedge n hn hd).reachable.1⟩
    · rw [h5, e5, A.addW_coe]
    · intro k
      cases k with
      | zero => rfl
      | succ k =>
        rw [kPreds, hp]
        simp only [e6 k]
        simp

theorem DomEnd.reached {st : KSt N K C P} {dd : WithTop C} (h : DomEnd A cs cfg kin0 dd st) {n : N}
    (hd : (st.s.lab n).dist ≠ ⊤) :
    ∃ l' d', DriveFrom A cfg.start kin0 (l' ++ [st.kin n]) d' ∧ (st.s.lab n).dist = (d' : WithTop C) ∧
      (∀ k, kPreds st.s.lab st.kin n k = l'.reverse.take k) ∧ (n ∈ cfg.start → l' = []) := by
  obtain ⟨l, d, hb⟩ := (h.core st.s.lab st.kin).back n hd
  obtain ⟨l', d', _, h2, h3, h4, h5⟩ := h.stored hb hd
  exact ⟨l', d', h2, h3, h4, h5⟩

/-- Along a drive cheaper than `dd` the search has stored the drive itself, or a rival of a part of it. -/
theorem DomEnd.follow {st : KSt N K C P} {dd : WithTop C} (ok : KCostOk A cs) (h : DomEnd A cs cfg kin0 dd st) {H : Nat}
    (hH : A.predDepth ≤ H) {q : List K} {D : C} (hq : Drive A q D) :
    (∃ s ∈ cfg.start, q.head? = some (kin0 s)) → (∀ k ∈ q.tail, ∃ n, A.lookup k = .ok (some n)) →
    (D : WithTop C) < dd →
    (∃ l k v, q = l ++ [k] ∧ st.kin v = k ∧ (st.s.lab v).dist ≤ D ∧
      kPreds st.s.lab st.kin v H = l.reverse.take H) ∨
    ∃ l k D1, (l ++ [k]) <+: q ∧ DriveFrom A cfg.start kin0 (l ++ [k]) D1 ∧ D1 ≤ D ∧
      Rival A cfg.start kin0 H l k D1 := by
  have hC := h.core st.s.lab st.kin
  have hmonoW : ∀ {a : WithTop C} {b c : C}, a ≤ b → A.addW a c ≤ (A.add b c : C) := by
    intro a b c hab
    cases a with
    | top => exact absurd hab (by simp)
    | coe a =>
      rw [A.addW_coe]
      exact_mod_cast ok.mono a b c (by exact_mod_cast hab)
  induction hq with
  | start k =>
    rintro ⟨s, hs, e⟩ _ _
    simp only [List.head?_cons, Option.some.injEq] at e
    refine .inl ⟨[], k, s, rfl, by rw [e]; exact h.startKin s hs, (hC.s0 s hs).le, ?_⟩
    cases H with
    | zero => rfl
    | succ H => rw [kPreds, hC.sp s hs]; rfl
  | @step l k c k' d mv hdrive hmv hmove hus ih =>
    rintro ⟨s, hs, e⟩ hcells hlt
    have hcs : c ∈ cs := ok.costs mv hmv _ _ _ _ hmove
    have hhead : (l ++ [k]).head? = some (kin0 s) := by
      rw [List.head?_append_of_ne_nil _ (by simp)] at e; exact e
    have htail : ∀ x ∈ (l ++ [k]).tail, ∃ n, A.lookup x = .ok (some n) := by
      intro x hx
      apply hcells
      rw [List.tail_append_of_ne_nil (by simp)]
      exact List.mem_append_left _ hx
    have hle : (d : WithTop C) ≤ (A.add d c : C) := by exact_mod_cast ok.infl c hcs d
    rcases ih ⟨s, hs, hhead⟩ htail (hle.trans_lt hlt) with ⟨l1, k1, v, e1, e2, e3, e4⟩ | ⟨l1, k1, D1, e1, e2, e3, e4⟩
    · obtain ⟨rfl, e1'⟩ := List.append_inj' e1 rfl
      simp only [List.cons.injEq, and_true] at e1'
      subst e1'
      obtain ⟨v', hv'⟩ := hcells k' (by rw [List.tail_append_of_ne_nil (by simp)]; simp)
      have hpd : kPreds st.s.lab st.kin v A.predDepth = l.reverse.take A.predDepth := by
        have htake : ∀ (a b : Nat) (n : N), a ≤ b →
            kPreds st.s.lab st.kin n a = (kPreds st.s.lab st.kin n b).take a := by
          intro a
          induction a with
          | zero => intro b n _; rfl
          | succ a iha =>
            intro b n hab
            obtain ⟨b, rfl⟩ : ∃ b', b = b' + 1 := ⟨b - 1, by omega⟩
            rw [kPreds, kPreds]
            cases (st.s.lab n).prev with
            | none => rfl
            | some p =>
              simp only [List.take_succ_cons]
              rw [iha b p (by omega)]
        rw [htake _ H v hH, e4, List.take_take, min_eq_left hH]
      have hrel := h.relaxed v (e3.trans_lt (hle.trans_lt hlt)) mv hmv c k' v'
        (by rw [e2, hpd]; exact hmove) (by rw [e2]; exact hus) hv'
      have hle2 : (st.s.lab v').dist ≤ (A.add d c : C) := hrel.trans (hmonoW e3)
      by_cases hsame : st.kin v' = k' ∧ kPreds st.s.lab st.kin v' H = (l ++ [k]).reverse.take H
      · exact .inl ⟨l ++ [k], k', v', rfl, hsame.1, hle2, hsame.2⟩
      · right
        have hvd : (st.s.lab v').dist ≠ ⊤ := ne_top_of_le_ne_top (by simp) hle2
        obtain ⟨l2, D2, g1, g2, g3, g4⟩ := h.reached hvd
        refine ⟨l ++ [k], k', A.add d c, List.prefix_rfl, ⟨.step hdrive hmv hmove hus, ⟨s, hs, e⟩, hcells⟩, le_refl _, ?_⟩
        refine ⟨l2, st.kin v', D2, v', g1, by rw [g2] at hle2; exact_mod_cast hle2, hv', ?_, ?_⟩
        · by_cases hvs : v' ∈ cfg.start
          · exact .inr ⟨hvs, g4 hvs, h.startKin v' hvs⟩
          · exact .inl (h.kedge v' hvs hvd).reachable.1
        · rw [← g3]; exact hsame
    · right
      exact ⟨l1, k1, D1, e1.trans (List.prefix_append _ _), e2, e3.trans (ok.infl c hcs d), e4⟩

/-- The drive `q` ends at a pose that passes the goal test against the pose `kin0 g` written into a goal node. -/
def EndsInGoal (A : KAlgo N K C) (kin0 : N → K) (g : N) (q : List K) : Prop :=
  ∃ l k, q = l ++ [k] ∧ A.isGoal (kin0 g) k l.getLast? = true

theorem DomEnd.dominated {st : KSt N K C P} {dd : WithTop C} (ok : KCostOk A cs) (h : DomEnd A cs cfg kin0 dd st) {H : Nat}
    (hH : A.predDepth ≤ H) (hpv : 1 ≤ H ∨ ∀ g k pv pv', A.isGoal g k pv = A.isGoal g k pv') {q : List K} {D : C}
    (hq : DriveFrom A cfg.start kin0 q D) {g : N} (hg : g ∈ cfg.goal) (hend : EndsInGoal A kin0 g q)
    (hlt : (D : WithTop C) < dd) :
    (∃ l k D1, (l ++ [k]) <+: q ∧ DriveFrom A cfg.start kin0 (l ++ [k]) D1 ∧ D1 ≤ D ∧ Rival A cfg.start kin0 H l k D1) ∨
    ∃ kg, kg ≠ kin0 g ∧ A.lookup kg = .ok (some g) ∧ Reachable A cfg.start kin0 kg ∧
      ∃ l k, q = l ++ [k] ∧ A.isGoal kg k l.getLast? = false := by
  rcases h.follow ok hH hq.drive hq.head hq.cells hlt with ⟨l, k, v, e1, e2, e3, e4⟩ | h1
  · right
    obtain ⟨l', k', e5, e6⟩ := hend
    rw [e1] at e5
    obtain ⟨rfl, e5'⟩ := List.append_inj' e5 rfl
    simp only [List.cons.injEq, and_true] at e5'
    subst e5'
    obtain ⟨kg, h1, h2⟩ := h.tested v (e3.trans_lt hlt) g hg
    rw [e2] at h2
    have hpv' : A.isGoal kg k l.getLast? = false := by
      rcases hpv with h3 | h3
      · have : (st.s.lab v).prev.map st.kin = l.getLast? := by
          obtain ⟨H, rfl⟩ : ∃ H', H = H' + 1 := ⟨H - 1, by omega⟩
          rw [kPreds] at e4
          have := congrArg List.head? e4
          rw [List.head?_take] at this
          simp only [Nat.add_eq_zero_iff, one_ne_zero, and_false, if_false, List.head?_reverse] at this
          rw [← this]
          cases (st.s.lab v).prev with
          | none => rfl
          | some p => rfl
        rw [← this]; exact h2
      · rw [h3 kg k _ ((st.s.lab v).prev.map st.kin)]; exact h2
    rcases h1 with h1 | ⟨h3, h4⟩
    · rw [h1, e6] at hpv'; cases hpv'
    · refine ⟨kg, ?_, h3, h4, l, k, e1, hpv'⟩
      rintro rfl
      rw [e6] at hpv'; cases hpv'
  · exact .inl h1

/-- **C98.**  A search without heuristic (and with a priority queue as open list, without goal candidates, not stopped by a time limit)
overlooks a cheaper drive to the goal only if a part of that drive has a rival — the search has reached the same cell at most as
expensively with another pose or other predecessors —, or if the goal node itself was overwritten with a pose from
which the end of that drive is no longer in the goal region. `H` poses of the history count: as many as the
neighbourhood and the goal test look at. -/
theorem kin_overlooks (ok : KCostOk A cs) (L : Lawful P) (M : MinFirst P) (ht : TopOk cfg.top)
    (hheur : ∀ k g, A.heur k g = A.zero) (hhg : cfg.heurGoal = none) (hadd : ∀ a, A.add a A.zero = a)
    (huse : cfg.useCands = false) (hab : ∀ i, cfg.abort i = false) {H : Nat}
    (hH : A.predDepth ≤ H) (hpv : 1 ≤ H ∨ ∀ g k pv pv', A.isGoal g k pv = A.isGoal g k pv') {fuel : Nat} {r : List K}
    (h : kFindPath A P cfg kin0 fuel = some (.ok r)) :
    ∃ d : WithTop C, (r = [] ↔ d = ⊤) ∧ (∀ c : C, d = c → DriveFrom A cfg.start kin0 r c) ∧
      ∀ q D, DriveFrom A cfg.start kin0 q D → ∀ g ∈ cfg.goal, EndsInGoal A kin0 g q → (D : WithTop C) < d →
        (∃ l k D1, (l ++ [k]) <+: q ∧ DriveFrom A cfg.start kin0 (l ++ [k]) D1 ∧ D1 ≤ D ∧
          Rival A cfg.start kin0 H l k D1) ∨
        ∃ kg, kg ≠ kin0 g ∧ A.lookup kg = .ok (some g) ∧ Reachable A cfg.start kin0 kg ∧
          ∃ l k, q = l ++ [k] ∧ A.isGoal kg k l.getLast? = false := by
  obtain ⟨r0, st', _, hrun, hq⟩ := kFindPath_done ok L ht h
  obtain ⟨p, rfl, rfl⟩ := hq r rfl
  obtain ⟨h1, h2⟩ := kInit_inv (A := A) (cs := cs) (L := L) (cfg := cfg) (kin0 := kin0)
  obtain ⟨k1, k2, _, _, _⟩ :=
    init_facts (A := A.alg (fun _ => Label.fresh A.zero) kin0) (L := L) (cfg := cfg)
  have hcl : ∀ u, ((kInit A P cfg kin0).s.lab u).closed = false := by
    intro u
    show ((initSearch (A.alg (fun _ => Label.fresh A.zero) kin0) P cfg
      (freshLabels (A.alg (fun _ => Label.fresh A.zero) kin0))).lab u).closed = false
    by_cases hu : u ∈ cfg.start
    · rw [k1 u hu]; rfl
    · rw [k2 u hu]; rfl
  have hD := kLoop_dom (M := M) L ok ht hheur hhg hadd huse fuel _ h1 h2 (kInit_mono L hadd)
    (fun u hu => by rw [hcl u] at hu; cases hu) _ _ hrun p rfl
  rcases hD with ⟨rfl, hwhy⟩ | ⟨n, B, d, hnd, hb, hE⟩
  · rcases hwhy with ⟨i, hi⟩ | hE
    · rw [hab] at hi; cases hi
    · refine ⟨⊤, by simp, by simp, fun q D hq' g hg he hlt => hE.dominated ok hH hpv hq' hg he hlt⟩
  · obtain ⟨l', d', e1, e2, e3, _⟩ := hE.stored hb hnd
    refine ⟨(st'.s.lab n).dist, ⟨?_, fun e => absurd e hnd⟩, ?_,
      fun q D hq' g hg he hlt => hE.dominated ok hH hpv hq' hg he hlt⟩
    · intro e
      rw [e1] at e
      simp at e
    · intro c hc
      rw [e3] at hc
      have : d' = c := by exact_mod_cast hc
      rw [e1, ← this]; exact e2

/-- **C98 (lattices).**  If no cell of the map holds two different poses, and neither the moves nor the goal test look at
predecessors, the returned path is a cheapest drive to the goal, and there is none if there is no path. -/
theorem kin_cheapest_lattice (ok : KCostOk A cs) (L : Lawful P) (M : MinFirst P) (ht : TopOk cfg.top)
    (hheur : ∀ k g, A.heur k g = A.zero) (hhg : cfg.heurGoal = none) (hadd : ∀ a, A.add a A.zero = a)
    (huse : cfg.useCands = false) (hab : ∀ i, cfg.abort i = false)
    (hpred : A.predDepth = 0) (hgoalpv : ∀ g k pv pv', A.isGoal g k pv = A.isGoal g k pv')
    (hinj : ∀ k k' n, A.lookup k = .ok (some n) → A.lookup k' = .ok (some n) → k = k')
    (hstart : ∀ s ∈ cfg.start, ∀ k, A.lookup k = .ok (some s) → k = kin0 s)
    (hgoal : ∀ g ∈ cfg.goal, ∀ k, A.lookup k = .ok (some g) → k = kin0 g) {fuel : Nat} {r : List K}
    (h : kFindPath A P cfg kin0 fuel = some (.ok r)) :
    (r = [] → ∀ q D, DriveFrom A cfg.start kin0 q D → ∀ g ∈ cfg.goal, ¬ EndsInGoal A kin0 g q) ∧
    (r ≠ [] → ∃ d, DriveFrom A cfg.start kin0 r d ∧
      ∀ q D, DriveFrom A cfg.start kin0 q D → ∀ g ∈ cfg.goal, EndsInGoal A kin0 g q → d ≤ D) := by
  obtain ⟨d, h1, h2, h3⟩ := kin_overlooks (H := 0) ok L M ht hheur hhg hadd huse hab (by omega) (.inr hgoalpv) h
  have key : ∀ q D, DriveFrom A cfg.start kin0 q D → ∀ g ∈ cfg.goal, EndsInGoal A kin0 g q → d ≤ (D : WithTop C) := by
    intro q D hq g hg he
    by_contra hc
    rcases h3 q D hq g hg he (not_le.1 hc) with
      ⟨l, k, D1, e1, e2, e3, l2, k2, D2, v, f1, f2, f3, f4, f5⟩ | ⟨kg, e1, e2, _⟩
    · apply f5
      refine ⟨?_, by simp⟩
      rcases f4 with f4 | ⟨f4, f6, f7⟩
      · exact hinj _ _ _ f4 f3
      · rw [f7]; exact (hstart v f4 k f3).symm
    · exact e1 (hgoal g hg kg e2)
  constructor
  · intro hr q D hq g hg he
    have := key q D hq g hg he
    rw [h1.1 hr] at this
    exact absurd this (by simp)
  · intro hr
    cases d with
    | top => exact absurd (h1.2 rfl) hr
    | coe d => exact ⟨d, h2 d rfl, fun q D hq g hg he => by exact_mod_cast key q D hq g hg he⟩

end PathPlanning
