import Verif.Lemmas.KinCustomDuring
import Verif.Props.KinDuringExact
import Verif.Props.KinCustom

/-!
# Searches with a goal test on a map that changes meanwhile (C122)
-/

namespace PathPlanning.TDur
open PathPlanning Spec KDur
set_option linter.unusedSectionVars false

variable {N K C : Type} [DecidableEq N] [LinearOrder C] [Fintype N]
variable {A : KAlgo N K C} {cs : List C} {P : OpenList N C} {cfg : SCfg N C} {kin0 : N → K} {us : Nat → K → K → CRes Bool}
  {T : KGoalTest N K C P}

/-! ### Counting expansions -/

theorem more_expansions {st st' : KSt N K C P} (h : kIterateT A cfg T st = .more st') :
    st'.s.expansions = st.s.expansions + 1 := by
  obtain ⟨cur, o, _, _, hsim, _⟩ := kIterateT_more h
  exact KDur.more_expansions (st := st.bare) (st' := st'.bare) hsim

/-- The last iteration: either it stops at once, or it is counted. -/
theorem done_cases {st st' : KSt N K C P} {r : CRes (List N)} (h : kIterateT A cfg T st = .done r st') :
    (r = finish cfg st.s ∧ st' = st ∧ (P.next st.s.opn = none ∨ cfg.abort st.s.expansions = true)) ∨
      st.s.expansions < st'.s.expansions := by
  unfold kIterateT at h
  cases hn : P.next st.s.opn with
  | none => rw [hn] at h; cases h; exact .inl ⟨rfl, rfl, .inl rfl⟩
  | some co =>
    obtain ⟨cur, o⟩ := co
    rw [hn] at h
    simp only at h
    by_cases hab : cfg.abort st.s.expansions = true
    · rw [if_pos hab] at h; cases h; exact .inl ⟨rfl, rfl, .inr hab⟩
    right
    rw [if_neg hab] at h
    obtain ⟨p1, p2, p3, p4, p5, p6⟩ := kTest_parts (A := A) (T := T) (popT A cfg T st cur o) cur
    have hp : st.s.expansions < (kTest A T (popT A cfg T st cur o) cur).s.expansions := by
      rw [p4]; exact Nat.lt_succ_self _
    change (if (T.terminate (popT A cfg T st cur o) cur).2 = true then
        KIter.done _ (kTest A T (popT A cfg T st cur o) cur) else
      if (cfg.useCands && !(kTest A T (popT A cfg T st cur o) cur).s.cands.isEmpty && _) = true then
        KIter.done _ (kTest A T (popT A cfg T st cur o) cur) else
        match kExpand A [] cur A.moves (kTest A T (popT A cfg T st cur o) cur) with
        | .throw e => .done (.throw e) (kTest A T (popT A cfg T st cur o) cur)
        | .ub => .done .ub (kTest A T (popT A cfg T st cur o) cur)
        | .ok st' => .more st') = _ at h
    have hst : st' = kTest A T (popT A cfg T st cur o) cur := by
      split at h
      · injection h with _ e; exact e.symm
      · split at h
        · injection h with _ e; exact e.symm
        · split at h
          · injection h with _ e; exact e.symm
          · injection h with _ e; exact e.symm
          · cases h
    rw [hst]; exact hp

/-- The expansions at the end of a run are at least those at its beginning. -/
theorem run_expansions : ∀ (f : Nat) (st st' : KSt N K C P) (r), kLoopTDuring A us cfg T f st = some (r, st') →
    st.s.expansions ≤ st'.s.expansions := by
  intro f
  induction f with
  | zero => intro st st' r h; simp [kLoopTDuring] at h
  | succ f ih =>
    intro st st' r h
    rw [kLoopTDuring] at h
    cases hi : kIterateT (A.withUsable (us st.s.expansions)) cfg T st with
    | done r1 st1 =>
      rw [hi] at h
      simp only [Option.some.injEq, Prod.mk.injEq] at h
      obtain ⟨rfl, rfl⟩ := h
      rcases done_cases hi with ⟨_, rfl, _⟩ | h
      · exact le_refl _
      · exact h.le
    | more st1 =>
      rw [hi] at h
      have := ih _ _ _ h
      have := more_expansions hi
      omega

/-- An invariant along a run: it holds at the beginning of the last iteration. -/
theorem run_last {Inv : KSt N K C P → Prop} {E : Nat}
    (pres : ∀ st st', st.s.expansions < E → Inv st →
      kIterateT (A.withUsable (us st.s.expansions)) cfg T st = .more st' → Inv st') :
    ∀ (f : Nat) (st st' : KSt N K C P) (r), kLoopTDuring A us cfg T f st = some (r, st') → st'.s.expansions ≤ E →
      Inv st → ∃ st1, Inv st1 ∧ kIterateT (A.withUsable (us st1.s.expansions)) cfg T st1 = .done r st' := by
  intro f
  induction f with
  | zero => intro st st' r h; simp [kLoopTDuring] at h
  | succ f ih =>
    intro st st' r h hE hI
    rw [kLoopTDuring] at h
    cases hi : kIterateT (A.withUsable (us st.s.expansions)) cfg T st with
    | done r1 st1 =>
      rw [hi] at h
      simp only [Option.some.injEq, Prod.mk.injEq] at h
      obtain ⟨rfl, rfl⟩ := h
      exact ⟨st, hI, hi⟩
    | more st1 =>
      rw [hi] at h
      have h1 := run_expansions _ _ _ _ h
      have h2 := more_expansions hi
      exact ih st1 st' r h hE (pres st st1 (by omega) hI hi)

/-! ### Ends -/

theorem loop_ends (ok : KCostOk A cs) (L : Lawful P) (ht : TopOk cfg.top) (st : KSt N K C P)
    (h : VTInv (A.withUsable fun _ _ => .ok true) (fun _ _ => .ok false) cs L cfg T kin0 st) :
    ∃ fuel r st', kLoopTDuring A us cfg T fuel st = some (r, st') := by
  cases hi : kIterateT (A.withUsable (us st.s.expansions)) cfg T st with
  | done r st' => exact ⟨1, r, st', by rw [kLoopTDuring, hi]⟩
  | more st' =>
    have hs := VTInv.more (A := A.withUsable fun _ _ => .ok true) (a := us st.s.expansions) (costOk_wu ok _)
      (fun _ _ _ => rfl) (fun _ _ e => by cases e) ht h (by rw [wu_wu]; exact hi)
    have h4 := hs.2
    obtain ⟨fuel, r, st2, h5⟩ := loop_ends ok L ht st' hs.1
    exact ⟨fuel + 1, r, st2, by rw [kLoopTDuring, hi]; exact h5⟩
termination_by (potential ((A.withUsable fun _ _ => .ok true).full cs (fun _ => Label.fresh A.zero) kin0) st.s.lab, L.size st.s.opn)
decreasing_by
  rcases h4 with h4 | ⟨h4, h5⟩
  · exact Prod.Lex.left _ _ h4
  · rw [← show potential ((A.withUsable fun _ _ => .ok true).full cs (fun _ => Label.fresh A.zero) kin0) st'.s.lab =
        potential ((A.withUsable fun _ _ => .ok true).full cs (fun _ => Label.fresh A.zero) kin0) st.s.lab from h4]
    exact Prod.Lex.right _ h5

/-- **C122 (end).**  The search ends, however the callback changes the map and whatever the goal test does. -/
theorem ends (ok : KCostOk A cs) (L : Lawful P) (ht : TopOk cfg.top) (T : KGoalTest N K C P) :
    ∃ fuel r st', kFindTestDuring A us P cfg T kin0 fuel = some (r, st') := by
  obtain ⟨fuel, r, st', h3⟩ := loop_ends (us := us) ok L ht _
    (vtInit_inv (A := A.withUsable fun _ _ => .ok true) (i := fun _ _ => .ok false) (cs := cs) (L := L) (cfg := cfg)
      (kin0 := kin0) (T := T))
  exact ⟨fuel, _, _, by
    unfold kFindTestDuring
    rw [show kInit A P cfg kin0 = kInit (A.withUsable fun _ _ => .ok true) P cfg kin0 from rfl, h3]; rfl⟩

/-- The end of a run. -/
theorem run_done (ok : KCostOk A cs) (L : Lawful P) (ht : TopOk cfg.top) {fuel : Nat} {r : CRes (List N)} {st' : KSt N K C P}
    (hrun : kLoopTDuring A us cfg T fuel (kInit A P cfg kin0) = some (r, st')) :
    ∃ j, VTDone (onSome A us st'.s.expansions) (all us st'.s.expansions) (us j) cs L cfg T kin0 r st' ∧
      ((∀ p, r ≠ .ok p) → j < st'.s.expansions) := by
  have okU : KCostOk (onSome A us st'.s.expansions) cs := costOk_wu ok _
  have h1 := vtInit_inv (A := onSome A us st'.s.expansions) (i := all us st'.s.expansions) (cs := cs) (L := L)
    (cfg := cfg) (kin0 := kin0) (T := T)
  have hup : ∀ j < st'.s.expansions, ∀ k k', us j k k' = .ok true →
      (onSome A us st'.s.expansions).usable k k' = .ok true := fun j hj k k' e => onSome_iff.2 ⟨j, hj, e⟩
  have hlo : ∀ j < st'.s.expansions, ∀ k k', all us st'.s.expansions k k' = .ok true → us j k k' = .ok true :=
    fun j hj k k' e => all_iff.1 e j hj
  have hwu : ∀ u, (onSome A us st'.s.expansions).withUsable u = A.withUsable u := fun _ => rfl
  obtain ⟨st1, g1, h3⟩ := run_last (A := A) (us := us) (cfg := cfg) (T := T)
    (Inv := fun st => VTInv (onSome A us st'.s.expansions) (all us st'.s.expansions) cs L cfg T kin0 st)
    (E := st'.s.expansions)
    (fun st st2 hk h hi => (h.more (a := us st.s.expansions) okU (hup _ hk) (hlo _ hk) ht (by rw [hwu]; exact hi)).1)
    fuel _ st' r hrun (le_refl _) h1
  refine ⟨st1.s.expansions, ?_⟩
  rcases done_cases h3 with ⟨rfl, rfl, hw⟩ | hlt
  · obtain ⟨p, hp⟩ : ∃ p, finish cfg st'.s = .ok p := by
      rcases finish_spec (A := (onSome A us st'.s.expansions).full cs st'.s.lab st'.kin) (st := st'.s) ht
        (g1.inv.core st'.s.lab st'.kin) g1.closed with ⟨_, e⟩ | ⟨_, l, _, _, _, _, e⟩
      · exact ⟨_, e⟩
      · exact ⟨_, e⟩
    refine ⟨⟨fun e he => (by rw [hp] at he; cases he), fun he => (by rw [hp] at he; cases he), fun q hq => ?_⟩,
      fun hr => absurd hp (hr p)⟩
    refine ⟨g1.toEnd, hq, ?_⟩
    rcases hw with hw | hw
    · exact .inl ⟨g1, hw⟩
    · exact .inr (.inl hw)
  · exact ⟨g1.done (a := us st1.s.expansions) okU (hup _ hlt) (hlo _ hlt) ht (by rw [hwu]; exact h3), fun _ => hlt⟩

/-- A finished run, taken apart. -/
theorem find_done (ok : KCostOk A cs) (L : Lawful P) (ht : TopOk cfg.top) {fuel : Nat} {r : CRes (List K)} {st' : KSt N K C P}
    (h : kFindTestDuring A us P cfg T kin0 fuel = some (r, st')) :
    ∃ r0 j, kLoopTDuring A us cfg T fuel (kInit A P cfg kin0) = some (r0, st') ∧
      VTDone (onSome A us st'.s.expansions) (all us st'.s.expansions) (us j) cs L cfg T kin0 r0 st' ∧
      ((∀ p, r0 ≠ .ok p) → j < st'.s.expansions) ∧ (∀ q, r = .ok q → ∃ p, r0 = .ok p ∧ q = p.map st'.kin) ∧
      (∀ e, r = .throw e → r0 = .throw e) ∧ (r = .ub → r0 = .ub) := by
  unfold kFindTestDuring at h
  cases hk : kLoopTDuring A us cfg T fuel (kInit A P cfg kin0) with
  | none => rw [hk] at h; simp at h
  | some x =>
    obtain ⟨r0, st2⟩ := x
    rw [hk] at h
    simp only [Option.map_some, Option.some.injEq, Prod.mk.injEq] at h
    obtain ⟨e1, rfl⟩ := h
    obtain ⟨j, h1, h2⟩ := run_done ok L ht hk
    refine ⟨r0, j, rfl, h1, h2, ?_⟩
    subst e1
    cases r0 with
    | ok p => exact ⟨fun q hq => (by cases hq; exact ⟨p, rfl, rfl⟩), fun e he => (by cases he), fun he => (by cases he)⟩
    | throw e => exact ⟨fun q hq => (by cases hq), fun e he => (by cases he; rfl), fun he => (by cases he)⟩
    | ub => exact ⟨fun q hq => (by cases hq), fun e he => (by cases he), fun _ => rfl⟩

/-- **C122 (exceptions).**  If the search throws, the map of some moment (or the lookup after a step it accepted) has thrown for a
step from a pose that was reached by steps each accepted by one of the maps. -/
theorem throws (ok : KCostOk A cs) (L : Lawful P) (ht : TopOk cfg.top) {fuel : Nat} {r : CRes (List K)} {st' : KSt N K C P}
    (h : kFindTestDuring A us P cfg T kin0 fuel = some (r, st')) :
    (∀ e, r = .throw e → ∃ j < st'.s.expansions, Thrown (onSome A us st'.s.expansions) (us j) cfg.start kin0 e) ∧
      (r = .ub → ∃ j < st'.s.expansions, Misbehaves (onSome A us st'.s.expansions) (us j) cfg.start kin0) := by
  obtain ⟨r0, j, _, hd, hj, _, h2, h3⟩ := find_done ok L ht h
  refine ⟨fun e he => ?_, fun he => ?_⟩
  · have := h2 e he
    subst this
    exact ⟨j, hj (fun p hp => by cases hp), hd.throw e rfl⟩
  · have := h3 he
    subst this
    exact ⟨j, hj (fun p hp => by cases hp), hd.ub rfl⟩

/-- **C122 (result).**  A returned path begins at a start pose; each of its steps was accepted by one of the maps the search has
seen and begins at the previous pose or at a reachable pose of the same cell; it ends in a node the goal test has handed to the
search - none of those had a smaller weight - for the pose shown or another one of the same cell. -/
theorem path (ok : KCostOk A cs) (L : Lawful P) (ht : TopOk cfg.top) {fuel : Nat} {q : List K} {st' : KSt N K C P}
    (h : kFindTestDuring A us P cfg T kin0 fuel = some (.ok q, st')) (hne : q ≠ []) :
    (∃ d, CellTrace (onSome A us st'.s.expansions) cfg.start kin0 q d) ∧ (∃ s ∈ cfg.start, q.head? = some (kin0 s)) ∧
      (∀ k ∈ q, Reachable (onSome A us st'.s.expansions) cfg.start kin0 k) ∧ q.length ≤ Fintype.card N ∧
      ∃ n w kl k, q.getLast? = some kl ∧ (n, w) ∈ st'.s.cands ∧ (∀ y ∈ st'.s.cands, w ≤ y.2) ∧
        Reachable (onSome A us st'.s.expansions) cfg.start kin0 k ∧ PoseAccepted T k w ∧ (k = kl ∨ SameCell A k kl) := by
  obtain ⟨r0, j, _, hd, _, hq, _⟩ := find_done ok L ht h
  obtain ⟨p, rfl, rfl⟩ := hq q rfl
  have okU : KCostOk (onSome A us st'.s.expansions) cs := costOk_wu ok _
  obtain ⟨he, hfin, _⟩ := hd.ok p rfl
  have hC := he.core st'.s.lab st'.kin
  rcases finish_spec (A := (onSome A us st'.s.expansions).full cs st'.s.lab st'.kin) (st := st'.s) ht hC he.closed with
    ⟨_, h2⟩ | ⟨x, l, d, h1, h2, hb, h4⟩
  · rw [h2] at hfin; cases hfin; exact absurd rfl hne
  · rw [h4] at hfin
    cases hfin
    have hnd : (st'.s.lab x.1).dist ≠ ⊤ := (hC.reach _).2 (.inr (he.closed x h1))
    obtain ⟨d', t1, _, s, hs, t2⟩ := hb.cellTrace okU he.core he.startKin he.edge hnd
    obtain ⟨l', hl, _⟩ := hb.last
    obtain ⟨k, g1, g2, g3⟩ := he.good x h1
    refine ⟨⟨d', t1⟩, ⟨s, hs, t2⟩, ?_, ?_, x.1, x.2, st'.kin x.1, k, ?_, h1, h2, g1, g2, ?_⟩
    · intro k hk
      obtain ⟨v, hv, rfl⟩ := List.mem_map.1 hk
      have hvd := hb.reached okU he.core he.edge hnd v hv
      by_cases hvs : v ∈ cfg.start
      · rw [he.startKin v hvs]; exact .start hvs
      · exact (he.edge v hvs hvd).reachable.2
    · rw [List.length_map, ← List.toFinset_card_of_nodup hb.nodup]
      exact Finset.card_le_univ _
    · rw [hl]; simp
    · rcases g3 with g3 | ⟨g3, g4⟩
      · exact .inl g3
      · exact .inr ⟨x.1, g4, (he.edge x.1 g3 hnd).reachable.1⟩

open Classical in
/-- **C122 (completeness).**  Without a time limit, and if the goal test stops the search only at nodes it hands to the search, an
empty result means that the poses the search has stored cannot be left by a move that all maps it has seen accept, and that none
of them is one the goal test always accepts. -/
theorem complete (ok : KCostOk A cs) (L : Lawful P) (ht : TopOk cfg.top) (hab : ∀ i, cfg.abort i = false)
    (hT : StopsAtAccepted T) {fuel : Nat} {st' : KSt N K C P}
    (h : kFindTestDuring A us P cfg T kin0 fuel = some (.ok [], st')) :
    ∃ κ, ClosedUnder A us st'.s.expansions cfg.start kin0 κ ∧ ∀ n k, κ n = some k → ¬ PoseAlwaysAccepted T k := by
  obtain ⟨r0, j, _, hd, _, hq, _⟩ := find_done ok L ht h
  obtain ⟨p, rfl, hp⟩ := hq [] rfl
  have hp : p = [] := by
    cases p with
    | nil => rfl
    | cons a l => simp at hp
  subst hp
  obtain ⟨he, hfin, hwhy⟩ := hd.ok [] rfl
  have hC := he.core st'.s.lab st'.kin
  have hcands : st'.s.cands = [] := by
    rcases finish_spec (A := (onSome A us st'.s.expansions).full cs st'.s.lab st'.kin) (st := st'.s) ht hC he.closed with
      ⟨h1, _⟩ | ⟨x, l, d, _, _, hb, h4⟩
    · exact h1
    · rw [h4] at hfin
      cases hfin
      exact absurd rfl hb.ne_nil
  rcases hwhy with ⟨hI, hnone⟩ | hwhy | hwhy | ⟨st1, n, h1, h2⟩
  · have hnomem := (L.next_none _).1 hnone
    have hnopen : ∀ n, (st'.s.lab n).opn = false := by
      intro n
      rw [← Bool.not_eq_true]
      intro ho
      exact hnomem n (hI.inv.openMem n ho)
    have hclosed : ∀ n, (st'.s.lab n).dist ≠ ⊤ → (st'.s.lab n).closed = true := by
      intro n hn
      rcases (hC.reach n).1 hn with h1 | h1
      · rw [hnopen n] at h1; cases h1
      · exact h1
    refine ⟨fun n => if (st'.s.lab n).dist = ⊤ then none else some (st'.kin n), ⟨?_, ?_, ?_, ?_⟩, ?_⟩
    · intro s hs
      simp [hC.s0 s hs, he.startKin s hs]
    · intro n k hk
      try simp only at hk
      split_ifs at hk with hdn
      cases hk
      by_cases hns : n ∈ cfg.start
      · exact .inl hns
      · exact .inr (he.edge n hns hdn).reachable.1
    · intro n k hk mv hmv
      try simp only at hk
      split_ifs at hk with hdn
      cases hk
      rcases hI.inv.relaxed n (hclosed n hdn) (hnopen n) mv hmv with h1 | ⟨ps, h1⟩
      · exact h1.elim
      · refine ⟨ps, fun c k' v e1 e2 e3 => ?_⟩
        have := h1 c k' v e1 (all_iff.2 e2) e3
        have hv : (st'.s.lab v).dist ≠ ⊤ :=
          ne_top_of_le_ne_top (by rw [Ne, KAlgo.addW_eq_top]; exact hdn) this
        simp [hv]
    · intro n k hk
      try simp only at hk
      split_ifs at hk with hdn
      cases hk
      exact hI.inv.reachable hdn
    · intro n k hk ha
      try simp only at hk
      split_ifs at hk with hdn
      cases hk
      exact hI.seen n (hclosed n hdn) (hnopen n) ha hcands
  · rw [hab] at hwhy; cases hwhy
  · exact absurd hcands hwhy
  · exact absurd h2 (hT st1 n h1)

/-- **C122 (obstacles appear).**  Without heuristic (and with a priority queue as open list), if the callback only ever adds
obstacles: a returned path is a drive from a start pose on the map of the beginning, and its last pose itself was accepted by the
goal test. -/
theorem exact_blocking (ok : KCostOk A cs) (L : Lawful P) (M : MinFirst P) (ht : TopOk cfg.top)
    (hheur : ∀ k g, A.heur k g = A.zero) (hhg : T.heurGoal = none) (hadd : ∀ x, A.add x A.zero = x)
    (hblock : ∀ j k k', us (j + 1) k k' = .ok true → us j k k' = .ok true) {fuel : Nat} {q : List K} {st' : KSt N K C P}
    (h : kFindTestDuring A us P cfg T kin0 fuel = some (.ok q, st')) (hne : q ≠ []) :
    (∃ d, Drive (A.withUsable (us 0)) q d) ∧ (∃ s ∈ cfg.start, q.head? = some (kin0 s)) ∧
      ∃ kl w, q.getLast? = some kl ∧ PoseAccepted T kl w ∧ ∀ y ∈ st'.s.cands, w ≤ y.2 := by
  have okU : KCostOk (A.withUsable (us 0)) cs := costOk_wu ok _
  have hup := first_accepts hblock
  have hlo : ∀ (j : Nat) (k k' : K), (fun _ _ => CRes.ok false : K → K → CRes Bool) k k' = .ok true → us j k k' = .ok true :=
    fun _ _ _ e => by cases e
  obtain ⟨r0, _, hrun, hd, _, hq, _⟩ := find_done ok L ht h
  obtain ⟨p, rfl, rfl⟩ := hq q rfl
  obtain ⟨he, hfin, _⟩ := hd.ok p rfl
  have h1 := vtInit_inv (A := A.withUsable (us 0)) (i := fun _ _ => .ok false) (cs := cs) (L := L)
    (cfg := cfg) (kin0 := kin0) (T := T)
  have h3 : VTMono (A.withUsable (us 0)) (us 0) M cfg T kin0 (kInit (A.withUsable (us 0)) P cfg kin0) :=
    vtInit_mono L hadd
  obtain ⟨st1, ⟨g1, g3⟩, h4⟩ := run_last (A := A) (us := us) (cfg := cfg) (T := T)
    (Inv := fun st => VTInv (A.withUsable (us 0)) (fun _ _ => .ok false) cs L cfg T kin0 st ∧
      VTMono (A.withUsable (us 0)) (us st.s.expansions) M cfg T kin0 st) (E := st'.s.expansions)
    (fun st st2 _ h hi => by
      have hi' : kIterateT ((A.withUsable (us 0)).withUsable (us st.s.expansions)) cfg T st = .more st2 := by
        rw [wu_wu]; exact hi
      refine ⟨(h.1.more (a := us st.s.expansions) okU (hup _) (hlo _) ht hi').1, ?_⟩
      have hm := h.2.more (a := us st.s.expansions) okU (hup _) (hlo _) ht hheur hhg hadd h.1 hi'
      rw [more_expansions hi]
      exact hm.weaken (hblock _)) fuel _ st' (.ok p) hrun (le_refl _) ⟨h1, by rw [init_expansions]; exact h3⟩
  have h4' : kIterateT ((A.withUsable (us 0)).withUsable (us st1.s.expansions)) cfg T st1 = .done (.ok p) st' := by
    rw [wu_wu]; exact h4
  obtain ⟨hedge, hex⟩ := VTMono.done (A := A.withUsable (us 0)) (a := us st1.s.expansions) hheur hhg g1 g3 h4' ⟨p, rfl⟩
  have hC := he.core st'.s.lab st'.kin
  rcases finish_spec (A := (onSome A us st'.s.expansions).full cs st'.s.lab st'.kin) (st := st'.s) ht hC he.closed with
    ⟨_, h2⟩ | ⟨x, l, d, h1, h2, hb, h5⟩
  · rw [h2] at hfin; cases hfin; exact absurd rfl hne
  · rw [h5] at hfin
    cases hfin
    have hnd : (st'.s.lab x.1).dist ≠ ⊤ := (hC.reach _).2 (.inr (he.closed x h1))
    obtain ⟨l', d', e1, e2, _, s, hs, e4⟩ := hb.drive hC.sp hedge hnd
    rw [e1] at e4 ⊢
    exact ⟨⟨d', e2⟩, ⟨s, hs, by rw [e4, he.startKin s hs]⟩, st'.kin x.1, x.2, by simp, hex x h1, h2⟩

/-- **C122 (no change).**  If the callback leaves the map alone, the search is the one without callback. -/
theorem unchanged (hus : ∀ j, us j = A.usable) (fuel : Nat) :
    kFindTestDuring A us P cfg T kin0 fuel = kFindTest A P cfg T kin0 fuel := by
  have key : ∀ f (st : KSt N K C P), kLoopTDuring A us cfg T f st = kLoopT A cfg T f st := by
    intro f
    induction f with
    | zero => intro st; rfl
    | succ f ih =>
      intro st
      rw [kLoopTDuring, kLoopT, hus]
      show (match kIterateT A cfg T st with | .done r st' => some (r, st') | .more st' => kLoopTDuring A us cfg T f st') = _
      cases kIterateT A cfg T st with
      | done r st' => rfl
      | more st' => exact ih st'
  unfold kFindTestDuring kFindTest
  rw [key]
  cases kLoopT A cfg T fuel (kInit A P cfg kin0) with
  | none => rfl
  | some x => obtain ⟨r, st'⟩ := x; cases r <;> rfl

/-- The result does not depend on how long one waits. -/
theorem fuel_unique {f g : Nat} {x y} (h1 : kFindTestDuring A us P cfg T kin0 f = some x)
    (h2 : kFindTestDuring A us P cfg T kin0 g = some y) : x = y := by
  have key : ∀ (f g : Nat) (st : KSt N K C P) (x y), kLoopTDuring A us cfg T f st = some x →
      kLoopTDuring A us cfg T g st = some y → x = y := by
    intro f
    induction f with
    | zero => intro g st x y h; simp [kLoopTDuring] at h
    | succ f ih =>
      intro g st x y h1 h2
      cases g with
      | zero => simp [kLoopTDuring] at h2
      | succ g =>
        rw [kLoopTDuring] at h1 h2
        cases hi : kIterateT (A.withUsable (us st.s.expansions)) cfg T st with
        | done r st' => rw [hi] at h1 h2; simp only [Option.some.injEq] at h1 h2; rw [← h1, ← h2]
        | more st' => rw [hi] at h1 h2; exact ih g st' x y h1 h2
  unfold kFindTestDuring at h1 h2
  cases hf : kLoopTDuring A us cfg T f (kInit A P cfg kin0) with
  | none => rw [hf] at h1; cases h1
  | some a =>
    cases hg : kLoopTDuring A us cfg T g (kInit A P cfg kin0) with
    | none => rw [hg] at h2; cases h2
    | some b =>
      have := key _ _ _ _ _ hf hg
      subst this
      rw [hf] at h1
      rw [hg] at h2
      exact (Option.some.inj h1).symm.trans (Option.some.inj h2)

end PathPlanning.TDur
