import Verif.Lemmas.KinAgain
import Verif.Props.KinHist
import Verif.Props.SteerHistory

/-!
# Planning again from the same pose (C130)
-/

namespace PathPlanning.Again
open Spec
set_option linter.unusedSectionVars false

variable {N K C : Type} [DecidableEq N] [LinearOrder C] [Fintype N]
variable {P : OpenList N C} {A : KAlgo N K C} {cs : List C} {cfg cfg2 : SCfg N C} {kin0 kin2 : N → K}

/-- Searches on the same nodes, without `setMap` in between: each with its own start, goal or goal test, options and contents, and each left
at any point: at its end, by an exception, by an interruption or the time limit; the map, the neighbourhood, the heuristic and the goal
test (`A'`) may have been other ones, as long as the steps have costs of the list `cs`. -/
inductive Since (A : KAlgo N K C) (cs : List C) (P : OpenList N C) (lab : Labels N C) : Labels N C → Prop
  | refl : Since A cs P lab lab
  | left {lab1} {A' : KAlgo N K C} {cfg kin pc} {st : KSt N K C P} : Since A cs P lab lab1 → A'.zero = A.zero → KCostOk A' cs →
      During A' P cfg lab1 kin pc st → Since A cs P lab st.s.lab

/-- A search that returned (a path, no path, or an exception). -/
theorem Since.search {lab lab1 : Labels N C} {A' : KAlgo N K C} {kin f r} {st : KSt N K C P} (h : Since A cs P lab lab1)
    (h0 : A'.zero = A.zero) (ok : KCostOk A' cs) (hrun : kFindOn A' P cfg lab1 kin f = some (r, st)) : Since A cs P lab st.s.lab := by
  obtain ⟨pc, hd⟩ := during_kFindOn hrun
  exact .left h h0 ok hd

theorem during_keep (ok : KCostOk A cs) {lab : Labels N C} (hl : ∀ n, (A.zero : WithTop C) ≤ (lab n).dist) {kin : N → K}
    {pc : Option (N × List (K → List K → Option (C × K)))} {st : KSt N K C P} (h : During A P cfg lab kin pc st) :
    Keep A lab st.s.lab ∧ ∀ cur ms, pc = some (cur, ms) → ∀ mv ∈ ms, mv ∈ A.moves := by
  induction h with
  | init => exact ⟨(keep_init (P := P) (A := A) (kin := kin) cfg hl).1, fun _ _ h => by cases h⟩
  | pop hg _ _ ih =>
    refine ⟨ih.1.trans (keep_pop ih.1.low), fun cur ms h => ?_⟩
    cases h
    exact fun _ h => h
  | cands _ e1 _ _ ih => exact ⟨by rw [e1]; exact ih.1, ih.2⟩
  | @move cur mv ms st st' _ hk ih =>
    have hm := ih.2 _ _ rfl
    have h1 := (kTry_keep (start := []) (kin0 := st.kin) ok (hm mv (by simp))
      ⟨ih.1.low, fun _ h => absurd h (by simp), fun _ h => absurd h (by simp), fun _ h => absurd h (by simp)⟩ (fun _ h => absurd h (by simp)) hk).1
    refine ⟨ih.1.trans h1, fun cur' ms' h => ?_⟩
    cases h
    exact fun mv' hmv' => hm mv' (by simp [hmv'])
  | loop _ ih => exact ⟨ih.1, fun _ _ h => by cases h⟩

theorem Keep.other {A' : KAlgo N K C} (h0 : A'.zero = A.zero) {lab lab' : Labels N C} (h : Keep A' lab lab') : Keep A lab lab' where
  low n := by rw [← h0]; exact h.low n
  le := h.le
  prev n hs hd := h.prev n hs (by rw [h0]; exact hd)

theorem Since.keep {lab lab' : Labels N C} (h : Since A cs P lab lab') (hl : ∀ n, (A.zero : WithTop C) ≤ (lab n).dist) :
    Keep A lab lab' := by
  induction h with
  | refl => exact Keep.refl hl
  | @left lab1 A' cfg kin pc st _ h0 ok hd ih =>
    have hl1 : ∀ n, (A'.zero : WithTop C) ≤ (lab1 n).dist := fun n => by rw [h0]; exact ih.low n
    exact ih.trans ((during_keep ok hl1 hd).1.other h0)

theorem ZInv.first (L : Lawful P) (n0 : N) :
    ZInv A L cfg.start kin0 n0 [] (kInitOn A P cfg (fun _ => Label.fresh A.zero) kin0) := by
  have hl : ∀ n : N, (A.zero : WithTop C) ≤ ((fun _ => Label.fresh A.zero : Labels N C) n).dist := fun n => le_top
  obtain ⟨k1, k2, k3, _⟩ := keep_init (P := P) (A := A) (kin := kin0) cfg hl
  exact ⟨⟨k1.low, fun s hs => (k2 s hs).2, fun s _ => k3 s, fun s hs => .inl (k2 s hs).1⟩, fun _ _ => rfl,
    fun s hs _ => (init_mem L cfg _ s).2 hs, fun s hs _ _ => .inl (k2 s hs).1⟩

/-- The start nodes after a first search. -/
theorem first_stuck (ok : KCostOk A cs) (L : Lawful P) (hu : cfg.useCands = false) {f : Nat} {p : List N} {st : KSt N K C P}
    (h : kFindOn A P cfg (fun _ => Label.fresh A.zero) kin0 f = some (.ok p, st)) (hp : p.length ≠ 1)
    (hall : ∀ s ∈ cfg.start, (st.s.lab s).opn = false) : Stuck A cfg.start kin0 st.s.lab := by
  by_cases hne : cfg.start = []
  · have hl : ∀ n : N, (A.zero : WithTop C) ≤ ((fun _ => Label.fresh A.zero : Labels N C) n).dist := fun n => le_top
    have k1 := (keep_init (P := P) (A := A) (kin := kin0) cfg hl).1
    have k2 := kLoop_keep ok _ _ _ _ k1.low h
    rw [hne]
    exact ⟨⟨k2.low, by simp, by simp, by simp⟩, by simp⟩
  · obtain ⟨n0, _⟩ := List.exists_mem_of_ne_nil _ hne
    obtain ⟨c1, hz⟩ := first_run (L := L) ok hu f _ n0 p st (ZInv.first L n0) h hp
    refine ⟨hz.starts, fun s hs mv hmv => ?_⟩
    rcases hz.used s hs mv hmv with e | ⟨_, e⟩ | e
    · rw [hall s hs] at e; cases e
    · cases e
    · exact e

/-- **C130 (planning again).**  After `setMap`, a search has returned (a path or no path, with or without a time limit, but not the start
cell alone as a path), and its start nodes have all been expanded.  Then, until `setMap` is called again, and whatever other searches
are run in between, every search from one or all of these start poses returns "no path" without an exception - for every goal that
is not met at the start itself, in particular for the goal to which a path has just been found. -/
theorem nothing_again (ok : KCostOk A cs) (L : Lawful P) (hu : cfg.useCands = false) {f : Nat} {p : List N} {st : KSt N K C P}
    (h : kFindOn A P cfg (fun _ => Label.fresh A.zero) kin0 f = some (.ok p, st)) (hp : p.length ≠ 1)
    (hall : ∀ s ∈ cfg.start, (st.s.lab s).opn = false) {lab : Labels N C} (hb : Since A cs P st.s.lab lab) (ht : TopOk cfg2.top)
    (hs : ∀ s ∈ cfg2.start, s ∈ cfg.start) (hk : ∀ s ∈ cfg2.start, kin2 s = kin0 s)
    (hg : ∀ g ∈ cfg2.goal, ∀ s ∈ cfg2.start, A.isGoal (kin2 g) (kin0 s) none = false) :
    ∃ f2 st2, kFindOn A P cfg2 lab kin2 f2 = some (.ok [], st2) := by
  have h1 := first_stuck ok L hu h hp hall
  have h2 := h1.keep (hb.keep h1.starts.low)
  obtain ⟨k1, _, _, k4⟩ := keep_init (P := P) (A := A) (kin := kin2) cfg2 h2.starts.low
  obtain ⟨st2, h3⟩ := stuck_run (L := L) (cfg := cfg2) ok ht hs (L.size (kInitOn A P cfg2 lab kin2).s.opn + 1) (kInitOn A P cfg2 lab kin2)
    (Nat.lt_succ_self _) (h2.keep k1) hk hg (fun m hm => (init_mem L cfg2 lab m).1 hm) k4
  exact ⟨_, st2, h3⟩

/-- A search that found nothing although its time was not limited has expanded its start nodes. -/
theorem failed_expanded (ok : KCostOk A cs) (L : Lawful P) (hu : cfg.useCands = false) (ht1 : TopOk cfg.top)
    (hab : ∀ i, cfg.abort i = false) {f : Nat} {st : KSt N K C P}
    (h : kFindOn A P cfg (fun _ => Label.fresh A.zero) kin0 f = some (.ok [], st)) (s : N) (hs' : s ∈ cfg.start) :
    (st.s.lab s).opn = false := by
  obtain ⟨c1, hz⟩ := first_run (L := L) ok hu f _ s [] st (ZInv.first L s) h (by simp)
  obtain ⟨_, _, _, _, hcase⟩ := (later_kin_done ok L ht1 .setMap h).ok [] rfl
  rcases hcase with ⟨_, _, ⟨_, hnone⟩ | hwhy⟩ | ⟨n, d, _, hb', _⟩
  · by_contra ho
    exact (L.next_none _).1 hnone s (hz.mem s hs' (by simpa using ho))
  · rw [hab] at hwhy; cases hwhy
  · exact absurd rfl hb'.ne_nil

/-- **C130 (after a failure).**  In particular after a search that found nothing although its time was not limited: then all start nodes
have been expanded.  No search from the same pose finds a path to any other goal until `setMap` is called. -/
theorem nothing_after_failure (ok : KCostOk A cs) (L : Lawful P) (hu : cfg.useCands = false) (ht1 : TopOk cfg.top)
    (hab : ∀ i, cfg.abort i = false) {f : Nat} {st : KSt N K C P}
    (h : kFindOn A P cfg (fun _ => Label.fresh A.zero) kin0 f = some (.ok [], st)) {lab : Labels N C} (hb : Since A cs P st.s.lab lab)
    (ht : TopOk cfg2.top) (hs : ∀ s ∈ cfg2.start, s ∈ cfg.start) (hk : ∀ s ∈ cfg2.start, kin2 s = kin0 s)
    (hg : ∀ g ∈ cfg2.goal, ∀ s ∈ cfg2.start, A.isGoal (kin2 g) (kin0 s) none = false) :
    ∃ f2 st2, kFindOn A P cfg2 lab kin2 f2 = some (.ok [], st2) := by
  exact nothing_again ok L hu h (by simp) (fun s hs' => failed_expanded ok L hu ht1 hab h s hs') hb ht hs hk hg

section
variable {clamp : ℝ → ℝ} {m : GridMap ℝ} {skips : Nat} {D : ℝ} {b : Bres ℝ} {S : SteerCfg} {pd : Nat}
variable {mvs : List (SNode → List SNode → Option (ℝ × SNode))} {isg : SNode → SNode → Option SNode → Bool}
variable {O : OpenList (PadCell m.width m.height) ℝ} {scfg scfg2 : SCfg (PadCell m.width m.height) ℝ}
variable {start goal goal2 : Pose} {costs : List ℝ}

theorem truncC_floor {x : ℝ} {z : Int} (h : ⌊x⌋ = z) (hz : 0 ≤ z) : truncC x = z := by
  have : 0 ≤ x := Int.floor_nonneg.1 (h ▸ hz)
  rw [truncC_nonneg this, h]

theorem steer_core (hc : ClampSpec clamp) (hm : SteerMapOk m D) (ok : KCostOk (padAlgo clamp m skips b S mvs pd isg) costs)
    (L : Lawful O) (hu : scfg.useCands = false) (h1 : IntPose start) (h2 : IntPose goal) (h3 : IntPose goal2)
    (hx : 0 ≤ start.x) (hy : 0 ≤ start.y) (hin : InsidePad m.width m.height ⟨start.x, start.y, 0, true, 0, 0, 0⟩)
    (hin2 : InsidePad m.width m.height ⟨goal2.x, goal2.y, 0, true, 0, 0, 0⟩)
    {f : Nat} {q : List SNode} {st} (h : padFindOn clamp (padAlgo clamp m skips b S mvs pd isg) O scfg
      (fun _ => Label.fresh (padAlgo clamp m skips b S mvs pd isg).zero) initContent start goal f = some (.ok q, some st))
    (hq : q.length ≠ 1) (hg1 : ¬ (⌊start.x⌋ = ⌊goal.x⌋ ∧ ⌊start.y⌋ = ⌊goal.y⌋))
    (hall : ∀ sp s gp g, padInitOn clamp m initContent start goal = .ok (sp, s, gp, g) → ∀ n ∈ s, (st.s.lab n).opn = false)
    (ht : TopOk scfg2.top) (hg2 : ¬ (⌊start.x⌋ = ⌊goal2.x⌋ ∧ ⌊start.y⌋ = ⌊goal2.y⌋))
    (hmet : ∀ kg ks : SNode, ⌊kg.x⌋ = ⌊goal2.x⌋ → ⌊kg.y⌋ = ⌊goal2.y⌋ → ks.x = ⌊start.x⌋ → ks.y = ⌊start.y⌋ → ks.theta = start.theta →
      isg kg ks none = false) :
    ∃ f2 st2, padFindOn clamp (padAlgo clamp m skips b S mvs pd isg) O scfg2 st.s.lab st.kin start goal2 f2 =
      some (.ok [], some st2) := by
  have hused : PadUsed (padAlgo clamp m skips b S mvs pd isg) O st.s.lab st.kin := padUsed_find .setMap h
  have hi := (padUsed_spec hc hm ok L hused).2
  obtain ⟨sp, s, gp, g, p, st', hst, hrun, e, rfl⟩ := padFindOn_ok hc hm h1 h2 h
  cases e
  obtain ⟨sp2, s2, gp2, g2, hst2⟩ : ∃ sp2 s2 gp2 g2, StartedOn clamp m st.kin start goal2 sp2 s2 gp2 g2 := by
    rcases padInitOn_cases (old := st.kin) hc hm h1 h3 with h | ⟨_, _, _, h | h⟩
    · exact h
    · exact absurd hin h
    · exact absurd hin2 h
  have hp : p.length ≠ 1 := by simpa using hq
  have hcell : ∀ n, n ∈ s → n.x = ⌊start.x⌋ ∧ n.y = ⌊start.y⌋ ∧ n.t = 15 := fun n hn => (poseCells_mem hst.hsp n).1 ((hst.hs n).1 hn).1
  have hall' : ∀ n ∈ s, (st.s.lab n).opn = false := hall _ _ _ _ hst.init
  have hsub : ∀ n ∈ s2, n ∈ s := by
    intro n hn
    obtain ⟨a1, a2⟩ := (hst2.hs n).1 hn
    have a3 := (poseCells_mem hst2.hsp n).1 a1
    refine (hst.hs n).2 ⟨(poseCells_mem hst.hsp n).2 a3, ?_⟩
    have b1 : 0 ≤ n.x := by rw [a3.1]; exact Int.floor_nonneg.2 hx
    have b2 : 0 ≤ n.y := by rw [a3.2.1]; exact Int.floor_nonneg.2 hy
    rw [truncC_floor (hi n).1 b1, truncC_floor (hi n).2 b2] at a2
    have i0 := InCell.init (w := m.width) (h := m.height) n
    rw [truncC_floor i0.1 b1, truncC_floor i0.2 b2]
    exact a2
  have hstay : ∀ n ∈ s, st.kin n = padContentOn initContent sp s gp g start goal n := by
    intro n hn
    obtain ⟨_, hz⟩ := first_run (L := L) (cfg := { scfg with start := s, goal := g }) ok hu _ _ n p st
      (ZInv.first (cfg := { scfg with start := s, goal := g }) L n) hrun hp
    exact hz.kin n hn
  have hng : ∀ n ∈ s, n ∉ g := by
    intro n hn hn'
    obtain ⟨a, b, _⟩ := hcell n hn
    obtain ⟨c, d, _⟩ := (poseCells_mem hst.hgp n).1 ((hst.hg n).1 hn').1
    exact hg1 ⟨a ▸ c, b ▸ d⟩
  have hng2 : ∀ n ∈ s, n ∉ g2 := by
    intro n hn hn'
    obtain ⟨a, b, _⟩ := hcell n hn
    obtain ⟨c, d, _⟩ := (poseCells_mem hst2.hgp n).1 ((hst2.hg n).1 hn').1
    exact hg2 ⟨a ▸ c, b ▸ d⟩
  have hsp : ∀ n ∈ s, n ∈ sp ∧ n ∈ sp2 := fun n hn =>
    ⟨((hst.hs n).1 hn).1, (poseCells_mem hst2.hsp n).2 (hcell n hn)⟩
  have hk : ∀ n ∈ s2, padContentOn st.kin sp2 s2 gp2 g2 start goal2 n = padContentOn initContent sp s gp g start goal n := by
    intro n hn
    have hn1 := hsub n hn
    unfold padContentOn
    rw [hstay n hn1]
    unfold padContentOn
    simp [hn, hn1, hng n hn1, hng2 n hn1, hsp n hn1]
  obtain ⟨f2, st2, hr⟩ := nothing_again (cfg := { scfg with start := s, goal := g }) (cfg2 := { scfg2 with start := s2, goal := g2 })
    (kin2 := padContentOn st.kin sp2 s2 gp2 g2 start goal2) ok L hu hrun hp hall' .refl ht hsub hk (by
      intro g' hg' n hn
      have hn1 := hsub n hn
      obtain ⟨c, d, _⟩ := (poseCells_mem hst2.hgp g').1 ((hst2.hg g').1 hg').1
      obtain ⟨a, b, _⟩ := hcell n hn1
      refine hmet _ _ ?_ ?_ ?_ ?_ ?_
      · exact (hi g').1.trans c
      · exact (hi g').2.trans d
      · show ((n.x : Int) : ℝ) = _; rw [a]
      · show ((n.y : Int) : ℝ) = _; rw [b]
      · simp [padContentOn, hn1, hng n hn1])
  refine ⟨f2, st2, ?_⟩
  unfold padFindOn
  rw [hst2.init]
  simp only [hr, Option.map_some, List.map_nil]

/-- **C130 (steering searches between poses).**  After `setMap`, a search from a pose in the map has returned (a path or no path, but not the
start cell alone), its goal was not in the start cell, and the nodes of the start cell have been expanded.  Then the next search from
the same pose returns "no path", for every goal that is inside the padded map, not in the start cell, and not met by the poses of the
start cell. -/
theorem steer_nothing_again (hc : ClampSpec clamp) (hm : SteerMapOk m D) (ok : KCostOk (padAlgo clamp m skips b S mvs pd isg) costs)
    (L : Lawful O) (hu : scfg.useCands = false) (h1 : IntPose start) (h2 : IntPose goal) (h3 : IntPose goal2)
    (hx : 0 ≤ start.x) (hy : 0 ≤ start.y) (hin : InsidePad m.width m.height ⟨start.x, start.y, 0, true, 0, 0, 0⟩)
    (hin2 : InsidePad m.width m.height ⟨goal2.x, goal2.y, 0, true, 0, 0, 0⟩)
    {f : Nat} {q : List SNode} {st} (h : padFindOn clamp (padAlgo clamp m skips b S mvs pd isg) O scfg
      (fun _ => Label.fresh (padAlgo clamp m skips b S mvs pd isg).zero) initContent start goal f = some (.ok q, some st))
    (hq : q.length ≠ 1) (hg1 : ¬ (⌊start.x⌋ = ⌊goal.x⌋ ∧ ⌊start.y⌋ = ⌊goal.y⌋))
    (hall : ∀ n : PadCell m.width m.height, n.x = ⌊start.x⌋ → n.y = ⌊start.y⌋ → n.t = 15 → (st.s.lab n).opn = false)
    (ht : TopOk scfg2.top) (hg2 : ¬ (⌊start.x⌋ = ⌊goal2.x⌋ ∧ ⌊start.y⌋ = ⌊goal2.y⌋))
    (hmet : ∀ kg ks : SNode, ⌊kg.x⌋ = ⌊goal2.x⌋ → ⌊kg.y⌋ = ⌊goal2.y⌋ → ks.x = ⌊start.x⌋ → ks.y = ⌊start.y⌋ → ks.theta = start.theta →
      isg kg ks none = false) :
    ∃ f2 st2, padFindOn clamp (padAlgo clamp m skips b S mvs pd isg) O scfg2 st.s.lab st.kin start goal2 f2 =
      some (.ok [], some st2) := by
  refine steer_core hc hm ok L hu h1 h2 h3 hx hy hin hin2 h hq hg1 (fun sp s gp g hi n hn => ?_) ht hg2 hmet
  rcases padInitOn_cases (old := initContent) hc hm h1 h2 with ⟨sp', s', gp', g', hst⟩ | ⟨e, he, _⟩
  · rw [hst.init] at hi
    cases hi
    obtain ⟨a, b, c⟩ := (poseCells_mem hst.hsp n).1 ((hst.hs n).1 hn).1
    exact hall n a b c
  · rw [he] at hi; cases hi

/-- **C130 (steering searches, after a failure).**  After `setMap`, a search from a pose in the map has found nothing, although its time was
not limited.  Then the next search from the same pose returns "no path" too, whatever its goal (inside the padded map, not in the start
cell, and not met by the poses of the start cell) - even if that goal could be reached. -/
theorem steer_nothing_after_failure (hc : ClampSpec clamp) (hm : SteerMapOk m D) (ok : KCostOk (padAlgo clamp m skips b S mvs pd isg) costs)
    (L : Lawful O) (hu : scfg.useCands = false) (h1 : IntPose start) (h2 : IntPose goal) (h3 : IntPose goal2)
    (hx : 0 ≤ start.x) (hy : 0 ≤ start.y) (hin : InsidePad m.width m.height ⟨start.x, start.y, 0, true, 0, 0, 0⟩)
    (hin2 : InsidePad m.width m.height ⟨goal2.x, goal2.y, 0, true, 0, 0, 0⟩)
    {f : Nat} {st} (h : padFindOn clamp (padAlgo clamp m skips b S mvs pd isg) O scfg
      (fun _ => Label.fresh (padAlgo clamp m skips b S mvs pd isg).zero) initContent start goal f = some (.ok [], some st))
    (ht1 : TopOk scfg.top) (hab : ∀ i, scfg.abort i = false) (hg1 : ¬ (⌊start.x⌋ = ⌊goal.x⌋ ∧ ⌊start.y⌋ = ⌊goal.y⌋))
    (ht : TopOk scfg2.top) (hg2 : ¬ (⌊start.x⌋ = ⌊goal2.x⌋ ∧ ⌊start.y⌋ = ⌊goal2.y⌋))
    (hmet : ∀ kg ks : SNode, ⌊kg.x⌋ = ⌊goal2.x⌋ → ⌊kg.y⌋ = ⌊goal2.y⌋ → ks.x = ⌊start.x⌋ → ks.y = ⌊start.y⌋ → ks.theta = start.theta →
      isg kg ks none = false) :
    ∃ f2 st2, padFindOn clamp (padAlgo clamp m skips b S mvs pd isg) O scfg2 st.s.lab st.kin start goal2 f2 =
      some (.ok [], some st2) := by
  refine steer_core hc hm ok L hu h1 h2 h3 hx hy hin hin2 h (by simp) hg1 (fun sp s gp g hi n hn => ?_) ht hg2 hmet
  unfold padFindOn at h
  rw [hi] at h
  simp only [Option.map_eq_some_iff] at h
  obtain ⟨⟨r, st'⟩, h4, h5⟩ := h
  simp only [Prod.mk.injEq, Option.some.injEq] at h5
  obtain ⟨h5, rfl⟩ := h5
  cases r with
  | ok p =>
    simp only [CRes.ok.injEq, List.map_eq_nil_iff] at h5
    subst h5
    exact failed_expanded (cfg := { scfg with start := s, goal := g }) ok L hu ht1 hab h4 n hn
  | throw e => cases h5
  | ub => cases h5

end

end PathPlanning.Again
