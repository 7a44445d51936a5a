import Verif.Lemmas.KinDuringMap
import Verif.Lemmas.DuringSearch
import Verif.Lemmas.KinCount
import Verif.Props.KinSearch

/-!
# Steering searches on a map that changes meanwhile (C120)
-/

namespace PathPlanning.KDur
open PathPlanning Spec
set_option linter.unusedSectionVars false

variable {N K C : Type} [DecidableEq N] [LinearOrder C] [Fintype N]
variable {A : KAlgo N K C} {cs : List C} {P : OpenList N C} {cfg : SCfg N C} {kin0 : N → K} {us : Nat → K → K → CRes Bool}

/-! ### Counting expansions -/

theorem more_expansions {st st' : KSt N K C P} (h : kIterate A cfg st = .more st') :
    st'.s.expansions = st.s.expansions + 1 := by
  unfold kIterate at h
  cases hn : P.next st.s.opn with
  | none => rw [hn] at h; cases h
  | some co =>
    obtain ⟨cur, o⟩ := co
    rw [hn] at h
    simp only at h
    by_cases hab : cfg.abort st.s.expansions = true
    · rw [if_pos hab] at h; cases h
    rw [if_neg hab] at h
    cases ht : goalLoop (A.alg (popNode (A.alg st.s.lab st.kin) cfg st.s cur o).lab st.kin) (A.cfg cfg st.kin) cur cfg.goal
        (popNode (A.alg st.s.lab st.kin) cfg st.s cur o) with
    | throw e => rw [ht] at h; cases h
    | ub => rw [ht] at h; cases h
    | ok t =>
      have hexp := During.goalLoop_expansions _ _ _ ht
      rw [ht] at h
      simp only at h
      split_ifs at h
      cases hk : kExpand A cfg.goal cur A.moves { st with s := t.st } with
      | throw e => rw [hk] at h; cases h
      | ub => rw [hk] at h; cases h
      | ok s2 =>
        rw [hk] at h
        cases h
        have := (kExpand_touched _ _ _ hk).1
        simp only at this
        rw [this, hexp]; rfl

/-- The last iteration: either it stops at once, or it is counted. -/
theorem done_cases {st st' : KSt N K C P} {r : CRes (List N)} (h : kIterate A cfg st = .done r st') :
    (r = finish cfg st.s ∧ st' = st ∧ (P.next st.s.opn = none ∨ cfg.abort st.s.expansions = true)) ∨
      st.s.expansions < st'.s.expansions := by
  unfold kIterate at h
  cases hn : P.next st.s.opn with
  | none => rw [hn] at h; cases h; exact .inl ⟨rfl, rfl, .inl rfl⟩
  | some co =>
    obtain ⟨cur, o⟩ := co
    rw [hn] at h
    simp only at h
    by_cases hab : cfg.abort st.s.expansions = true
    · rw [if_pos hab] at h; cases h; exact .inl ⟨rfl, rfl, .inr hab⟩
    right
    rw [if_neg hab] at h
    have hp : st.s.expansions < (popNode (A.alg st.s.lab st.kin) cfg st.s cur o).expansions := Nat.lt_succ_self _
    cases ht : goalLoop (A.alg (popNode (A.alg st.s.lab st.kin) cfg st.s cur o).lab st.kin) (A.cfg cfg st.kin) cur cfg.goal
        (popNode (A.alg st.s.lab st.kin) cfg st.s cur o) with
    | throw e => rw [ht] at h; cases h; exact hp
    | ub => rw [ht] at h; cases h; exact hp
    | ok t =>
      have hexp := During.goalLoop_expansions _ _ _ ht
      rw [← hexp] at hp
      rw [ht] at h
      simp only at h
      split_ifs at h
      · cases h; exact hp
      · cases h; exact hp
      · cases h; exact hp
      · cases hk : kExpand A cfg.goal cur A.moves { st with s := t.st } with
        | throw e => rw [hk] at h; cases h; exact hp
        | ub => rw [hk] at h; cases h; exact hp
        | ok s2 => rw [hk] at h; cases h

theorem done_expansions {st st' : KSt N K C P} {r} (h : kIterate A cfg st = .done r st') :
    st.s.expansions ≤ st'.s.expansions := by
  rcases done_cases h with ⟨_, rfl, _⟩ | h
  · exact le_refl _
  · exact h.le

/-- The expansions at the end of a run are at least those at its beginning. -/
theorem run_expansions : ∀ (f : Nat) (st st' : KSt N K C P) (r), kLoopDuring A us cfg f st = some (r, st') →
    st.s.expansions ≤ st'.s.expansions := by
  intro f
  induction f with
  | zero => intro st st' r h; simp [kLoopDuring] at h
  | succ f ih =>
    intro st st' r h
    rw [kLoopDuring] at h
    cases hi : kIterate (A.withUsable (us st.s.expansions)) cfg st with
    | done r1 st1 =>
      rw [hi] at h
      simp only [Option.some.injEq, Prod.mk.injEq] at h
      obtain ⟨rfl, rfl⟩ := h
      exact done_expansions hi
    | more st1 =>
      rw [hi] at h
      have := ih _ _ _ h
      have := more_expansions hi
      omega

/-- An invariant along a run: it holds at the beginning of the last iteration. -/
theorem run_last {Inv : KSt N K C P → Prop} {E : Nat}
    (pres : ∀ st st', st.s.expansions < E → Inv st →
      kIterate (A.withUsable (us st.s.expansions)) cfg st = .more st' → Inv st') :
    ∀ (f : Nat) (st st' : KSt N K C P) (r), kLoopDuring A us cfg f st = some (r, st') → st'.s.expansions ≤ E →
      Inv st → ∃ st1, Inv st1 ∧ kIterate (A.withUsable (us st1.s.expansions)) cfg st1 = .done r st' := by
  intro f
  induction f with
  | zero => intro st st' r h; simp [kLoopDuring] at h
  | succ f ih =>
    intro st st' r h hE hI
    rw [kLoopDuring] at h
    cases hi : kIterate (A.withUsable (us st.s.expansions)) cfg st with
    | done r1 st1 =>
      rw [hi] at h
      simp only [Option.some.injEq, Prod.mk.injEq] at h
      obtain ⟨rfl, rfl⟩ := h
      exact ⟨st, hI, hi⟩
    | more st1 =>
      rw [hi] at h
      have h1 := run_expansions _ _ _ _ h
      have h2 := more_expansions hi
      exact ih st1 st' r h hE (pres st st1 (by omega) hI hi)

/-! ### Ends -/

theorem wu_wu (A : KAlgo N K C) (a b : K → K → CRes Bool) : (A.withUsable a).withUsable b = A.withUsable b := rfl

/-- Costs do not depend on the map. -/
theorem costOk_wu (ok : KCostOk A cs) (a : K → K → CRes Bool) : KCostOk (A.withUsable a) cs := ⟨ok.costs, ok.infl, ok.mono⟩

theorem loop_ends (ok : KCostOk A cs) (L : Lawful P) (ht : TopOk cfg.top) (st : KSt N K C P)
    (h : VKInv (A.withUsable fun _ _ => .ok true) (fun _ _ => .ok false) cs L cfg kin0 nopend st)
    (noc : cfg.useCands = false → st.s.cands = []) :
    ∃ fuel r st', kLoopDuring A us cfg fuel st = some (r, st') := by
  have hs := vkIterate_spec (a := us st.s.expansions) (costOk_wu ok _) (fun _ _ _ => rfl) (fun _ _ e => by cases e) ht h noc
  rw [wu_wu] at hs
  cases hi : kIterate (A.withUsable (us st.s.expansions)) cfg st with
  | done r st' => exact ⟨1, r, st', by rw [kLoopDuring, hi]⟩
  | more st' =>
    rw [hi] at hs
    obtain ⟨h1, h2, h3, h4⟩ := hs
    obtain ⟨fuel, r, st2, h5⟩ := loop_ends ok L ht st' h1 h2
    exact ⟨fuel + 1, r, st2, by rw [kLoopDuring, hi]; exact h5⟩
termination_by (potential ((A.withUsable fun _ _ => .ok true).full cs (fun _ => Label.fresh A.zero) kin0) st.s.lab, L.size st.s.opn)
decreasing_by
  rcases h4 (fun _ => Label.fresh A.zero) kin0 with h4 | ⟨h4, h5⟩
  · exact Prod.Lex.left _ _ h4
  · rw [h4]; exact Prod.Lex.right _ h5

/-- **C120 (end).**  The search ends, however the callback changes the map. -/
theorem ends (ok : KCostOk A cs) (L : Lawful P) (ht : TopOk cfg.top) :
    ∃ fuel r E, kFindPathDuring A us P cfg kin0 fuel = some (r, E) := by
  obtain ⟨h1, h2⟩ := vkInit_inv (A := A.withUsable fun _ _ => .ok true) (i := fun _ _ => .ok false) (cs := cs) (L := L)
    (cfg := cfg) (kin0 := kin0)
  obtain ⟨fuel, r, st', h3⟩ := loop_ends (us := us) ok L ht _ h1 (fun _ => h2)
  exact ⟨fuel, _, _, by unfold kFindPathDuring; rw [show kInit A P cfg kin0 = kInit (A.withUsable fun _ _ => .ok true) P cfg kin0 from rfl, h3]; rfl⟩

open Classical in
/-- What all maps accept. -/
noncomputable def all (us : Nat → K → K → CRes Bool) (E : Nat) : K → K → CRes Bool :=
  fun k k' => .ok (decide (∀ j < E, us j k k' = .ok true))

theorem all_iff {E : Nat} {k k' : K} : all us E k k' = .ok true ↔ ∀ j < E, us j k k' = .ok true := by simp [all]

theorem onSome_iff {E : Nat} {k k' : K} : (onSome A us E).usable k k' = .ok true ↔ ∃ j < E, us j k k' = .ok true := by
  simp [onSome]

theorem onAll_iff {E : Nat} {k k' : K} : (onAll A us E).usable k k' = .ok true ↔ ∀ j < E, us j k k' = .ok true := by
  simp [onAll]

/-- The end of a run. -/
theorem run_done (ok : KCostOk A cs) (L : Lawful P) (ht : TopOk cfg.top) {fuel : Nat} {r : CRes (List N)} {st' : KSt N K C P}
    (hrun : kLoopDuring A us cfg fuel (kInit A P cfg kin0) = some (r, st')) :
    ∃ j, VKDone (onSome A us st'.s.expansions) (all us st'.s.expansions) (us j) cs L cfg kin0 r st' ∧
      ((∀ p, r ≠ .ok p) → j < st'.s.expansions) := by
  have okU : KCostOk (onSome A us st'.s.expansions) cs := costOk_wu ok _
  obtain ⟨h1, h2⟩ := vkInit_inv (A := onSome A us st'.s.expansions) (i := all us st'.s.expansions) (cs := cs) (L := L)
    (cfg := cfg) (kin0 := kin0)
  have hup : ∀ j < st'.s.expansions, ∀ k k', us j k k' = .ok true →
      (onSome A us st'.s.expansions).usable k k' = .ok true := fun j hj k k' e => onSome_iff.2 ⟨j, hj, e⟩
  have hlo : ∀ j < st'.s.expansions, ∀ k k', all us st'.s.expansions k k' = .ok true → us j k k' = .ok true :=
    fun j hj k k' e => all_iff.1 e j hj
  obtain ⟨st1, ⟨g1, g2⟩, h3⟩ := run_last (A := A) (us := us) (cfg := cfg)
    (Inv := fun st => VKInv (onSome A us st'.s.expansions) (all us st'.s.expansions) cs L cfg kin0 nopend st ∧
      (cfg.useCands = false → st.s.cands = [])) (E := st'.s.expansions)
    (fun st st2 hk h hi => by
      have hs := vkIterate_spec (a := us st.s.expansions) okU (hup _ hk) (hlo _ hk) ht h.1 h.2
      rw [show (onSome A us st'.s.expansions).withUsable (us st.s.expansions) = A.withUsable (us st.s.expansions) from rfl,
        hi] at hs
      exact ⟨hs.1, hs.2.1⟩) fuel _ st' r hrun (le_refl _) ⟨h1, fun _ => h2⟩
  refine ⟨st1.s.expansions, ?_⟩
  rcases done_cases h3 with ⟨rfl, rfl, hw⟩ | hlt
  · refine ⟨g1.toFinish ht g2 hw, fun hr => ?_⟩
    rcases finish_spec (A := (onSome A us st'.s.expansions).full cs st'.s.lab st'.kin) ht (g1.core st'.s.lab st'.kin) g1.cands with
      ⟨_, e⟩ | ⟨_, l, _, _, _, _, e⟩
    · exact absurd e (hr _)
    · exact absurd e (hr _)
  · have hs := vkIterate_spec (a := us st1.s.expansions) okU (hup _ hlt) (hlo _ hlt) ht g1 g2
    rw [show (onSome A us st'.s.expansions).withUsable (us st1.s.expansions) = A.withUsable (us st1.s.expansions) from rfl,
      h3] at hs
    exact ⟨hs, fun _ => hlt⟩

/-- A finished run, taken apart. -/
theorem find_done (ok : KCostOk A cs) (L : Lawful P) (ht : TopOk cfg.top) {fuel : Nat} {r : CRes (List K)} {E : Nat}
    (h : kFindPathDuring A us P cfg kin0 fuel = some (r, E)) :
    ∃ r0 st' j, E = st'.s.expansions ∧ VKDone (onSome A us E) (all us E) (us j) cs L cfg kin0 r0 st' ∧
      ((∀ p, r0 ≠ .ok p) → j < E) ∧ (∀ q, r = .ok q → ∃ p, r0 = .ok p ∧ q = p.map st'.kin) ∧
      (∀ e, r = .throw e → r0 = .throw e) ∧ (r = .ub → r0 = .ub) := by
  unfold kFindPathDuring at h
  cases hk : kLoopDuring A us cfg fuel (kInit A P cfg kin0) with
  | none => rw [hk] at h; simp at h
  | some x =>
    obtain ⟨r0, st'⟩ := x
    rw [hk] at h
    simp only [Option.map_some, Option.some.injEq, Prod.mk.injEq] at h
    obtain ⟨e1, e2⟩ := h
    obtain ⟨j, h1, h2⟩ := run_done ok L ht hk
    subst e2
    refine ⟨r0, st', j, rfl, h1, h2, ?_⟩
    subst e1
    cases r0 with
    | ok p => exact ⟨fun q hq => (by cases hq; exact ⟨p, rfl, rfl⟩), fun e he => (by cases he), fun he => (by cases he)⟩
    | throw e => exact ⟨fun q hq => (by cases hq), fun e he => (by cases he; rfl), fun he => (by cases he)⟩
    | ub => exact ⟨fun q hq => (by cases hq), fun e he => (by cases he), fun _ => rfl⟩

/-- **C120 (exceptions).**  If the search throws, the map of some moment (or the lookup after a step it accepted) has thrown for a
step from a pose that was reached by steps each accepted by one of the maps. -/
theorem throws (ok : KCostOk A cs) (L : Lawful P) (ht : TopOk cfg.top) {fuel : Nat} {r : CRes (List K)} {E : Nat}
    (h : kFindPathDuring A us P cfg kin0 fuel = some (r, E)) :
    (∀ e, r = .throw e → ∃ j < E, Thrown (onSome A us E) (us j) cfg.start kin0 e) ∧
      (r = .ub → ∃ j < E, Misbehaves (onSome A us E) (us j) cfg.start kin0) := by
  obtain ⟨r0, st', j, rfl, hd, hj, _, h2, h3⟩ := find_done ok L ht h
  refine ⟨fun e he => ?_, fun he => ?_⟩
  · have := h2 e he
    subst this
    exact ⟨j, hj (fun p hp => by cases hp), hd.throw e rfl⟩
  · have := h3 he
    subst this
    exact ⟨j, hj (fun p hp => by cases hp), hd.ub rfl⟩

/-- **C120 (result).**  A returned path begins at a start pose; each of its steps was accepted by one of the maps the search has
seen and begins at the previous pose or at a reachable pose of the same cell; its last pose (or an earlier one of that cell)
passed the goal test. -/
theorem path (ok : KCostOk A cs) (L : Lawful P) (ht : TopOk cfg.top) {fuel : Nat} {q : List K} {E : Nat}
    (h : kFindPathDuring A us P cfg kin0 fuel = some (.ok q, E)) (hne : q ≠ []) :
    (∃ d, CellTrace (onSome A us E) cfg.start kin0 q d) ∧ (∃ s ∈ cfg.start, q.head? = some (kin0 s)) ∧
      (∀ k ∈ q, Reachable (onSome A us E) cfg.start kin0 k) ∧ q.length ≤ Fintype.card N ∧
      ∃ kl, q.getLast? = some kl ∧
        (∃ k w, GoalMet (onSome A us E) cfg.start cfg.goal kin0 k w ∧ (k = kl ∨ SameCell A k kl)) ∧
        (cfg.useCands = false → ∃ w, GoalMet (onSome A us E) cfg.start cfg.goal kin0 kl w) := by
  obtain ⟨r0, st', j, rfl, hd, _, hq, _⟩ := find_done ok L ht h
  obtain ⟨p, rfl, rfl⟩ := hq q rfl
  have okU : KCostOk (onSome A us st'.s.expansions) cs := costOk_wu ok _
  obtain ⟨hc, hsk, hedge, hcase⟩ := hd.ok p rfl
  rcases hcase with ⟨e, _⟩ | ⟨n, d, hnd, hb, ⟨k, w, hg, hk⟩, hg2⟩
  · rw [e] at hne; exact absurd rfl hne
  · obtain ⟨d', t1, _, s, hs, t2⟩ := hb.cellTrace okU hc hsk hedge hnd
    obtain ⟨l', hl, _⟩ := hb.last
    refine ⟨⟨d', t1⟩, ⟨s, hs, t2⟩, ?_, ?_, st'.kin n, ?_, ⟨k, w, hg, ?_⟩, hg2⟩
    · intro k hk
      obtain ⟨v, hv, rfl⟩ := List.mem_map.1 hk
      have hvd := hb.reached okU hc hedge hnd v hv
      by_cases hvs : v ∈ cfg.start
      · rw [hsk v hvs]; exact .start hvs
      · exact (hedge v hvs hvd).reachable.2
    · rw [List.length_map, ← List.toFinset_card_of_nodup hb.nodup]
      exact Finset.card_le_univ _
    · rw [hl]; simp
    · rcases hk with hk | ⟨hk1, hk2⟩
      · exact .inl hk
      · right
        exact ⟨n, hk2, (hedge n hk1 hnd).reachable.1⟩

open Classical in
/-- **C120 (completeness).**  If the search gives up although its time was not limited, then the poses it has stored cannot be
left by a move that all maps it has seen accept, and none of them passes the goal test. -/
theorem complete (ok : KCostOk A cs) (L : Lawful P) (ht : TopOk cfg.top) {fuel : Nat} {E : Nat}
    (hab : ∀ i, cfg.abort i = false) (hrefl : ∀ k pv, A.isGoal k k pv = true)
    (h : kFindPathDuring A us P cfg kin0 fuel = some (.ok [], E)) :
    ∃ κ, ClosedUnder A us E cfg.start kin0 κ ∧ (∀ g ∈ cfg.goal, κ g = none) ∧
      ∀ n k, κ n = some k → ∀ g ∈ cfg.goal, ∃ pv, A.isGoal (kin0 g) k pv = false := by
  obtain ⟨r0, st', j, rfl, hd, _, hq, _⟩ := find_done ok L ht h
  obtain ⟨p, rfl, hp⟩ := hq [] rfl
  have hp : p = [] := by
    cases p with
    | nil => rfl
    | cons a l => simp at hp
  subst hp
  obtain ⟨hc, hsk, hedge, hcase⟩ := hd.ok [] rfl
  have hC := hc st'.s.lab st'.kin
  rcases hcase with ⟨_, hcands, hwhy⟩ | ⟨n, d, _, hb, _⟩
  swap
  · exact absurd rfl hb.ne_nil
  rcases hwhy with ⟨hI, hnone⟩ | hwhy
  swap
  · rw [hab] at hwhy; cases hwhy
  have hnomem := (L.next_none _).1 hnone
  have hnopen : ∀ n, (st'.s.lab n).opn = false := by
    intro n
    rw [← Bool.not_eq_true]
    intro ho
    exact hnomem n (hI.openMem n ho)
  have hclosed : ∀ n, (st'.s.lab n).dist ≠ ⊤ → (st'.s.lab n).closed = true := by
    intro n hn
    rcases (hC.reach n).1 hn with h1 | h1
    · rw [hnopen n] at h1; cases h1
    · exact h1
  have hgoal : ∀ g ∈ cfg.goal, (st'.s.lab g).dist = ⊤ := by
    intro g hg
    by_contra hd'
    obtain ⟨pv, hpv⟩ := hI.tested hcands g (hclosed g hd') (hnopen g) g hg (.inr rfl)
    have := hrefl (st'.kin g) pv
    rw [show A.isGoal (st'.kin g) (st'.kin g) pv = false from hpv] at this
    cases this
  refine ⟨fun n => if (st'.s.lab n).dist = ⊤ then none else some (st'.kin n), ⟨?_, ?_, ?_, ?_⟩, ?_, ?_⟩
  · intro s hs
    simp [hC.s0 s hs, hsk s hs]
  · intro n k hk
    try simp only at hk
    split_ifs at hk with hdn
    cases hk
    by_cases hns : n ∈ cfg.start
    · exact .inl hns
    · right
      exact (hedge n hns hdn).reachable.1
  · intro n k hk mv hmv
    try simp only at hk
    split_ifs at hk with hdn
    cases hk
    rcases hI.relaxed n (hclosed n hdn) (hnopen n) mv hmv with h1 | ⟨ps, h1⟩
    · exact h1.elim
    · refine ⟨ps, fun c k' v e1 e2 e3 => ?_⟩
      have := h1 c k' v e1 (all_iff.2 e2) e3
      have hv : (st'.s.lab v).dist ≠ ⊤ :=
        ne_top_of_le_ne_top (by rw [Ne, KAlgo.addW_eq_top]; exact hdn) this
      simp [hv]
  · intro n k hk
    try simp only at hk
    split_ifs at hk with hdn
    cases hk
    exact hI.reachable hdn
  · intro g hg
    simp [hgoal g hg]
  · intro n k hk g hg
    try simp only at hk
    split_ifs at hk with hdn
    cases hk
    rw [← hI.newKin g (hgoal g hg)]
    exact hI.tested hcands n (hclosed n hdn) (hnopen n) g hg (.inl (hgoal g hg))

/-- **C120 (completeness on a lattice).**  If no cell can hold two different poses: a search that gives up without time limit
proves that no drive along lines free on all maps it has seen leads from the start into the goal region. -/
theorem complete_lattice (ok : KCostOk A cs) (L : Lawful P) (ht : TopOk cfg.top) {fuel : Nat} {E : Nat}
    (hab : ∀ i, cfg.abort i = false) (hrefl : ∀ k pv, A.isGoal k k pv = true)
    (hm : ∀ k k', Asked (onSome A us E) cfg.start kin0 k k' → (∀ j < E, us j k k' = .ok true) → ∃ v, A.lookup k' = .ok (some v))
    (hpred : ∀ mv ∈ A.moves, ∀ k ps ps', mv k ps = mv k ps')
    (hgoalpv : ∀ g k pv pv', A.isGoal g k pv = A.isGoal g k pv')
    (hinj : ∀ k k' n, A.lookup k = .ok (some n) → A.lookup k' = .ok (some n) → k = k')
    (hstart : ∀ s ∈ cfg.start, ∀ k, A.lookup k = .ok (some s) → k = kin0 s)
    (h : kFindPathDuring A us P cfg kin0 fuel = some (.ok [], E)) :
    ∀ q d k s, Drive (onAll A us E) (q ++ [k]) d → s ∈ cfg.start → (q ++ [k]).head? = some (kin0 s) →
      ∀ g ∈ cfg.goal, ∀ pv, A.isGoal (kin0 g) k pv = false := by
  obtain ⟨κ, hsat, _, htest⟩ := complete ok L ht hab hrefl h
  intro q d k s hdrive hs hhead g hg pv
  have key : ∀ (l : List K) (d : C), Drive (onAll A us E) l d → l.head? = some (kin0 s) →
      ∃ l' k n, l = l' ++ [k] ∧ κ n = some k := by
    intro l d hl
    induction hl with
    | start k =>
      intro hh
      simp only [List.head?_cons, Option.some.injEq] at hh
      exact ⟨[], k, s, rfl, by rw [hh]; exact hsat.init s hs⟩
    | @step l k c k' d mv _ hmv hmove hus ih =>
      intro hh
      obtain ⟨l', k1, n, e, hn⟩ := ih (by
        rw [List.head?_append_of_ne_nil _ (by simp)] at hh; exact hh)
      have : k1 = k := by
        have := congrArg List.getLast? e
        simpa using this.symm
      subst this
      have hus' := onAll_iff.1 hus
      obtain ⟨ps, hps⟩ := hsat.moves n k1 hn mv hmv
      obtain ⟨v, hr⟩ := hm k1 k' ⟨hsat.reach n k1 hn, mv, hmv, _, c, hmove⟩ hus'
      have hv := hps c k' v (by rw [hpred mv hmv k1 ps _]; exact hmove) hus' hr
      obtain ⟨k2, hk2⟩ := Option.ne_none_iff_exists'.1 hv
      refine ⟨_, k', v, rfl, ?_⟩
      rw [hk2]
      rcases hsat.cell v k2 hk2 with hvs | hvl
      · have e1 := hstart v hvs k' hr
        have e2 := hsat.init v hvs
        rw [hk2] at e2
        rw [e1]; exact e2
      · rw [hinj k2 k' v hvl hr]
  obtain ⟨l', k1, n, e, hn⟩ := key _ d hdrive hhead
  have : k1 = k := by
    have := congrArg List.getLast? e
    simpa using this.symm
  subst this
  obtain ⟨pv', hpv'⟩ := htest n k1 hn g hg
  rw [hgoalpv _ _ pv pv']; exact hpv'

/-- **C120 (no change).**  If the callback leaves the map alone, the search is the ordinary one. -/
theorem unchanged {fuel : Nat} (hus : ∀ j, us j = A.usable) :
    (kFindPathDuring A us P cfg kin0 fuel).map Prod.fst = kFindPath A P cfg kin0 fuel := by
  have key : ∀ f (st : KSt N K C P), kLoopDuring A us cfg f st = kLoop A cfg f st := by
    intro f
    induction f with
    | zero => intro st; rfl
    | succ f ih =>
      intro st
      rw [kLoopDuring, kLoop, hus]
      show (match kIterate A cfg st with | .done r st' => some (r, st') | .more st' => kLoopDuring A us cfg f st') = _
      cases kIterate A cfg st with
      | done r st' => rfl
      | more st' => exact ih st'
  unfold kFindPathDuring kFindPath
  rw [key]
  cases kLoop A cfg fuel (kInit A P cfg kin0) <;> rfl

/-- The result does not depend on how long one waits. -/
theorem fuel_unique : ∀ (f g : Nat) (x y), kFindPathDuring A us P cfg kin0 f = some x →
    kFindPathDuring A us P cfg kin0 g = some y → x = y := by
  have key : ∀ (f g : Nat) (st : KSt N K C P) (x y), kLoopDuring A us cfg f st = some x →
      kLoopDuring A us cfg g st = some y → x = y := by
    intro f
    induction f with
    | zero => intro g st x y h; simp [kLoopDuring] at h
    | succ f ih =>
      intro g st x y h1 h2
      cases g with
      | zero => simp [kLoopDuring] at h2
      | succ g =>
        rw [kLoopDuring] at h1 h2
        cases hi : kIterate (A.withUsable (us st.s.expansions)) cfg st with
        | done r st' => rw [hi] at h1 h2; simp only [Option.some.injEq] at h1 h2; rw [← h1, ← h2]
        | more st' => rw [hi] at h1 h2; exact ih g st' x y h1 h2
  intro f g x y h1 h2
  unfold kFindPathDuring at h1 h2
  cases hf : kLoopDuring A us cfg f (kInit A P cfg kin0) with
  | none => rw [hf] at h1; cases h1
  | some a =>
    cases hg : kLoopDuring A us cfg g (kInit A P cfg kin0) with
    | none => rw [hg] at h2; cases h2
    | some b =>
      have := key _ _ _ _ _ hf hg
      subst this
      rw [hf] at h1
      rw [hg] at h2
      exact (Option.some.inj h1).symm.trans (Option.some.inj h2)

end PathPlanning.KDur
