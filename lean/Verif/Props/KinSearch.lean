import Verif.Lemmas.KinSearchMono

/-!
# Properties of the search over nodes with stored poses
-/

namespace PathPlanning
open Spec
set_option linter.unusedSectionVars false

variable {N K C : Type} [DecidableEq N] [LinearOrder C] [Fintype N]
variable {P : OpenList N C} {A : KAlgo N K C} {cs : List C} {L : Lawful P} {cfg : SCfg N C} {kin0 : N → K}

/-- The search always ends; it throws or misbehaves only if the map does. -/
theorem kin_search_ends (ok : KCostOk A cs) (L : Lawful P) (ht : TopOk cfg.top) :
    ∃ fuel r, kFindPath A P cfg kin0 fuel = some r ∧ (∀ e, r = .throw e → MapThrows A cfg.start kin0 e) ∧
      (r = .ub → MapUb A cfg.start kin0) := by
  obtain ⟨h1, h2⟩ := kInit_inv (A := A) (cs := cs) (L := L) (cfg := cfg) (kin0 := kin0)
  obtain ⟨fuel, r, st', h3, h4⟩ := kLoop_spec ok ht _ h1 (fun _ => h2)
  cases r with
  | ok p => exact ⟨fuel, .ok (p.map st'.kin), by simp [kFindPath, h3], by simp, by simp⟩
  | throw e =>
    exact ⟨fuel, .throw e, by simp [kFindPath, h3], fun e' he => by cases he; exact h4.throw e rfl, by simp⟩
  | ub => exact ⟨fuel, .ub, by simp [kFindPath, h3], by simp, fun _ => h4.ub rfl⟩

/-- On a well-behaved map the search ends with a path or an empty list. -/
theorem kin_search_total (ok : KCostOk A cs) (L : Lawful P) (ht : TopOk cfg.top) (hm : MapOk A cfg.start kin0) :
    ∃ fuel q, kFindPath A P cfg kin0 fuel = some (.ok q) := by
  obtain ⟨fuel, r, h1, h2, h3⟩ := kin_search_ends (A := A) (kin0 := kin0) ok L ht
  cases r with
  | ok q => exact ⟨fuel, q, h1⟩
  | throw e =>
    obtain ⟨k, k', h0, h4⟩ := h2 e rfl
    obtain ⟨b, hb⟩ := hm.usable k k' h0
    rcases h4 with h4 | ⟨h4, h5⟩
    · rw [hb] at h4; cases h4
    · obtain ⟨r, hr⟩ := hm.lookup k k' h0 h4
      rw [hr] at h5; cases h5
  | ub =>
    obtain ⟨k, k', h0, h4⟩ := h3 rfl
    obtain ⟨b, hb⟩ := hm.usable k k' h0
    rcases h4 with h4 | ⟨h4, h5⟩
    · rw [hb] at h4; cases h4
    · obtain ⟨r, hr⟩ := hm.lookup k k' h0 h4
      rw [hr] at h5; cases h5

/-- A finished run, taken apart. -/
theorem kFindPath_done (ok : KCostOk A cs) (L : Lawful P) (ht : TopOk cfg.top) {fuel : Nat} {r : CRes (List K)}
    (h : kFindPath A P cfg kin0 fuel = some r) :
    ∃ r0 st', KDone A cs L cfg kin0 r0 st' ∧ kLoop A cfg fuel (kInit A P cfg kin0) = some (r0, st') ∧
      ∀ q, r = .ok q → ∃ p, r0 = .ok p ∧ q = p.map st'.kin := by
  obtain ⟨h1, h2⟩ := kInit_inv (A := A) (cs := cs) (L := L) (cfg := cfg) (kin0 := kin0)
  obtain ⟨f, r1, st', h3, h4⟩ := kLoop_spec ok ht _ h1 (fun _ => h2)
  unfold kFindPath at h
  cases hk : kLoop A cfg fuel (kInit A P cfg kin0) with
  | none => rw [hk] at h; simp at h
  | some x =>
    have hx := kLoop_fuel _ _ _ _ _ hk h3
    subst hx
    rw [hk] at h
    refine ⟨r1, st', h4, rfl, fun q hq => ?_⟩
    subst hq
    cases r1 with
    | ok p =>
      simp only [Option.map_some, Option.some.injEq, CRes.ok.injEq] at h
      exact ⟨p, rfl, h.symm⟩
    | throw e => simp at h
    | ub => simp at h

/-- A returned path begins at a start pose, takes only legal steps, each from a reachable pose in the cell of the
previous one (from the start pose itself for the first), every pose of it can be reached, it has at most as many poses as there are cells, and
ends at a pose for which (or for an earlier pose of the same cell) the goal test succeeded. -/
theorem kin_path (ok : KCostOk A cs) (L : Lawful P) (ht : TopOk cfg.top) {fuel : Nat} {q : List K}
    (h : kFindPath A P cfg kin0 fuel = some (.ok q)) (hne : q ≠ []) :
    (∃ d, CellTrace A cfg.start kin0 q d) ∧ (∃ s ∈ cfg.start, q.head? = some (kin0 s)) ∧
      (∀ k ∈ q, Reachable A cfg.start kin0 k) ∧ q.length ≤ Fintype.card N ∧
      ∃ kl, q.getLast? = some kl ∧
        (∃ k w, GoalMet A cfg.start cfg.goal kin0 k w ∧ (k = kl ∨ SameCell A k kl)) ∧
        (cfg.useCands = false → ∃ w, GoalMet A cfg.start cfg.goal kin0 kl w) := by
  obtain ⟨r0, st', hd, _, hq⟩ := kFindPath_done ok L ht h
  obtain ⟨p, rfl, rfl⟩ := hq q rfl
  obtain ⟨hc, hsk, hedge, hcase⟩ := hd.ok p rfl
  rcases hcase with ⟨e, _⟩ | ⟨n, d, hnd, hb, ⟨k, w, hg, hk⟩, hg2⟩
  · rw [e] at hne; exact absurd rfl hne
  · obtain ⟨d', t1, _, s, hs, t2⟩ := hb.cellTrace ok hc hsk hedge hnd
    obtain ⟨l', hl, _⟩ := hb.last
    refine ⟨⟨d', t1⟩, ⟨s, hs, t2⟩, ?_, ?_, st'.kin n, ?_, ⟨k, w, hg, ?_⟩, hg2⟩
    · intro k hk
      obtain ⟨v, hv, rfl⟩ := List.mem_map.1 hk
      have hvd := hb.reached ok hc hedge hnd v hv
      by_cases hvs : v ∈ cfg.start
      · rw [hsk v hvs]; exact .start hvs
      · exact (hedge v hvs hvd).reachable.2
    · rw [List.length_map, ← List.toFinset_card_of_nodup hb.nodup]
      exact Finset.card_le_univ _
    · rw [hl]; simp
    · rcases hk with hk | ⟨hk1, hk2⟩
      · exact .inl hk
      · right
        exact ⟨n, hk2, (hedge n hk1 hnd).reachable.1⟩

open Classical in
/-- The final state of a search that gives up. -/
theorem kdone_complete {st' : KSt N K C P} (hd : KDone A cs L cfg kin0 (.ok []) st')
    (hab : ∀ i, cfg.abort i = false) (hrefl : ∀ k pv, A.isGoal k k pv = true) :
    ∃ κ, Saturated A cfg.start kin0 κ ∧ (∀ g ∈ cfg.goal, κ g = none) ∧
      (∀ n k, κ n = some k → ∀ g ∈ cfg.goal, ∃ pv, A.isGoal (kin0 g) k pv = false) ∧
      (∀ n, κ n ≠ none → (st'.s.lab n).closed = true ∧ (st'.s.lab n).opn = false) ∧
      ∀ n, κ n = if (st'.s.lab n).dist = ⊤ then none else some (st'.kin n) := by
  obtain ⟨hc, hsk, hedge, hcase⟩ := hd.ok [] rfl
  have hC := hc st'.s.lab st'.kin
  rcases hcase with ⟨_, hcands, hwhy⟩ | ⟨n, d, _, hb, _⟩
  · rcases hwhy with ⟨hI, hnone⟩ | hwhy
    swap
    · rw [hab] at hwhy; cases hwhy
    have hnomem := (L.next_none _).1 hnone
    have hnopen : ∀ n, (st'.s.lab n).opn = false := by
      intro n
      rw [← Bool.not_eq_true]
      intro ho
      exact hnomem n (hI.openMem n ho)
    have hclosed : ∀ n, (st'.s.lab n).dist ≠ ⊤ → (st'.s.lab n).closed = true := by
      intro n hn
      rcases (hC.reach n).1 hn with h1 | h1
      · rw [hnopen n] at h1; cases h1
      · exact h1
    have hgoal : ∀ g ∈ cfg.goal, (st'.s.lab g).dist = ⊤ := by
      intro g hg
      by_contra hd'
      obtain ⟨pv, hpv⟩ := hI.tested hcands g (hclosed g hd') (hnopen g) g hg (.inr rfl)
      rw [hrefl] at hpv; cases hpv
    refine ⟨fun n => if (st'.s.lab n).dist = ⊤ then none else some (st'.kin n), ⟨?_, ?_, ?_, ?_⟩, ?_, ?_, ?_, fun _ => rfl⟩
    · intro s hs
      simp [hC.s0 s hs, hsk s hs]
    · intro n k hk
      try simp only at hk
      split_ifs at hk with hdn
      cases hk
      by_cases hns : n ∈ cfg.start
      · exact .inl hns
      · right
        exact (hedge n hns hdn).reachable.1
    · intro n k hk mv hmv
      try simp only at hk
      split_ifs at hk with hdn
      cases hk
      rcases hI.relaxed n (hclosed n hdn) (hnopen n) mv hmv with h1 | ⟨ps, h1⟩
      · exact h1.elim
      · refine ⟨ps, fun c k' v e1 e2 e3 => ?_⟩
        have := h1 c k' v e1 e2 e3
        have hv : (st'.s.lab v).dist ≠ ⊤ :=
          ne_top_of_le_ne_top (by rw [Ne, A.addW_eq_top]; exact hdn) this
        simp [hv]
    · intro n k hk
      try simp only at hk
      split_ifs at hk with hdn
      cases hk
      exact hI.reachable hdn
    · intro g hg
      simp [hgoal g hg]
    · intro n k hk g hg
      try simp only at hk
      split_ifs at hk with hdn
      cases hk
      rw [← hI.newKin g (hgoal g hg)]
      exact hI.tested hcands n (hclosed n hdn) (hnopen n) g hg (.inl (hgoal g hg))
    · intro n hn
      by_cases hdn : (st'.s.lab n).dist = ⊤
      · simp [hdn] at hn
      · exact ⟨hclosed n hdn, hnopen n⟩
  · exact absurd rfl hb.ne_nil

/-- If the search gives up although its time was not limited, it had seen everything: the poses it stored cannot
be left by a legal move, and none of them passes the goal test. -/
theorem kin_complete (ok : KCostOk A cs) (L : Lawful P) (ht : TopOk cfg.top) {fuel : Nat}
    (hab : ∀ i, cfg.abort i = false) (hrefl : ∀ k pv, A.isGoal k k pv = true)
    (h : kFindPath A P cfg kin0 fuel = some (.ok [])) :
    ∃ κ, Saturated A cfg.start kin0 κ ∧ (∀ g ∈ cfg.goal, κ g = none) ∧
      ∀ n k, κ n = some k → ∀ g ∈ cfg.goal, ∃ pv, A.isGoal (kin0 g) k pv = false := by
  obtain ⟨r0, st', hd, _, hq⟩ := kFindPath_done ok L ht h
  obtain ⟨p, rfl, hp⟩ := hq [] rfl
  have hp : p = [] := by
    cases p with
    | nil => rfl
    | cons a l => simp at hp
  subst hp
  obtain ⟨κ, h1, h2, h3, _⟩ := kdone_complete hd hab hrefl
  exact ⟨κ, h1, h2, h3⟩

/-- On a map whose cells never hold two different poses (a lattice) the search is complete: if it gives up, no
drive from a start pose ends at a pose in the goal region. -/
theorem kin_complete_lattice (ok : KCostOk A cs) (L : Lawful P) (ht : TopOk cfg.top) {fuel : Nat}
    (hab : ∀ i, cfg.abort i = false) (hrefl : ∀ k pv, A.isGoal k k pv = true) (hm : MapOk A cfg.start kin0)
    (hpred : ∀ mv ∈ A.moves, ∀ k ps ps', mv k ps = mv k ps')
    (hgoalpv : ∀ g k pv pv', A.isGoal g k pv = A.isGoal g k pv')
    (hnull : ∀ k, A.lookup k ≠ .ok none)
    (hinj : ∀ k k' n, A.lookup k = .ok (some n) → A.lookup k' = .ok (some n) → k = k')
    (hstart : ∀ s ∈ cfg.start, ∀ k, A.lookup k = .ok (some s) → k = kin0 s)
    (h : kFindPath A P cfg kin0 fuel = some (.ok [])) :
    ∀ q d k s, Drive A (q ++ [k]) d → s ∈ cfg.start → (q ++ [k]).head? = some (kin0 s) →
      ∀ g ∈ cfg.goal, ∀ pv, A.isGoal (kin0 g) k pv = false := by
  obtain ⟨κ, hsat, _, htest⟩ := kin_complete ok L ht hab hrefl h
  intro q d k s hdrive hs hhead g hg pv
  have key : ∀ (l : List K) (d : C), Drive A l d → l.head? = some (kin0 s) →
      ∃ l' k n, l = l' ++ [k] ∧ κ n = some k := by
    intro l d hl
    induction hl with
    | start k =>
      intro hh
      simp only [List.head?_cons, Option.some.injEq] at hh
      exact ⟨[], k, s, rfl, by rw [hh]; exact hsat.init s hs⟩
    | @step l k c k' d mv _ hmv hmove hus ih =>
      intro hh
      obtain ⟨l', k1, n, e, hn⟩ := ih (by
        rw [List.head?_append_of_ne_nil _ (by simp)] at hh; exact hh)
      have : k1 = k := by
        have := congrArg List.getLast? e
        simpa using this.symm
      subst this
      obtain ⟨ps, hps⟩ := hsat.moves n k1 hn mv hmv
      have hask : Asked A cfg.start kin0 k1 k' := by
        exact ⟨hsat.reach n k1 hn, mv, hmv, _, c, hmove⟩
      obtain ⟨r, hr⟩ := hm.lookup k1 k' hask hus
      cases r with
      | none => exact absurd hr (hnull k')
      | some v =>
        have hv := hps c k' v (by rw [hpred mv hmv k1 ps _]; exact hmove) hus hr
        obtain ⟨k2, hk2⟩ := Option.ne_none_iff_exists'.1 hv
        refine ⟨_, k', v, rfl, ?_⟩
        rw [hk2]
        rcases hsat.cell v k2 hk2 with hvs | hvl
        · have e1 := hstart v hvs k' hr
          have e2 := hsat.init v hvs
          rw [hk2] at e2
          rw [e1]; exact e2
        · rw [hinj k2 k' v hvl hr]
  obtain ⟨l', k1, n, e, hn⟩ := key _ d hdrive hhead
  have : k1 = k := by
    have := congrArg List.getLast? e
    simpa using this.symm
  subst this
  obtain ⟨pv', hpv'⟩ := htest n k1 hn g hg
  rw [hgoalpv _ _ pv pv']; exact hpv'

/-- Without heuristic (and with a priority queue as open list) a returned path is a drive from a start pose whose
last pose passes the goal test: no step begins at another pose than the one the path shows. -/
theorem kin_exact_without_heuristic (ok : KCostOk A cs) (L : Lawful P) (M : MinFirst P) (ht : TopOk cfg.top)
    (hheur : ∀ k g, A.heur k g = A.zero) (hhg : cfg.heurGoal = none) (hadd : ∀ a, A.add a A.zero = a) {fuel : Nat} {q : List K}
    (h : kFindPath A P cfg kin0 fuel = some (.ok q)) (hne : q ≠ []) :
    (∃ d, Drive A q d) ∧ (∃ s ∈ cfg.start, q.head? = some (kin0 s)) ∧
      ∃ kl w, q.getLast? = some kl ∧ GoalMet A cfg.start cfg.goal kin0 kl w := by
  obtain ⟨r0, st', hd, hrun, hq⟩ := kFindPath_done ok L ht h
  obtain ⟨p, rfl, rfl⟩ := hq q rfl
  obtain ⟨hc, hsk, _, _⟩ := hd.ok p rfl
  obtain ⟨h1, h2⟩ := kInit_inv (A := A) (cs := cs) (L := L) (cfg := cfg) (kin0 := kin0)
  have hmd := kLoop_mono (M := M) L ok ht hheur hhg hadd fuel _ h1 (fun _ => h2) (kInit_mono L hadd) _ _ hrun
  obtain ⟨hedge, n, B, d, w, hnd, hb, hg⟩ := hmd.ok p rfl (by intro e; rw [e] at hne; exact hne rfl)
  obtain ⟨l', d', e1, e2, _, s, hs, e4⟩ := hb.drive (hc st'.s.lab st'.kin).sp hedge hnd
  rw [e1] at e4 ⊢
  exact ⟨⟨d', e2⟩, ⟨s, hs, by rw [e4, hsk s hs]⟩, st'.kin n, w, by simp, hg⟩

end PathPlanning
