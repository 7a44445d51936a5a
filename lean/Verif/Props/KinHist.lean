import Verif.Lemmas.KinDuring
import Verif.Props.KinSearch

/-!
# Properties of later searches over nodes with stored poses (C92)
-/

namespace PathPlanning
open Spec
set_option linter.unusedSectionVars false

variable {N K C : Type} [DecidableEq N] [LinearOrder C] [Fintype N]
variable {P : OpenList N C} {A : KAlgo N K C} {cs : List C} {cfg : SCfg N C} {kin0 : N → K}
variable {S : List N} {lab : Labels N C}

/-- A finished later search, taken apart. -/
theorem later_kin_done (ok : KCostOk A cs) (L : Lawful P) (ht : TopOk cfg.top) (h : KUsed A cs P S lab) {fuel : Nat}
    {r : CRes (List N)} {st : KSt N K C P} (hrun : kFindOn A P cfg lab kin0 fuel = some (r, st)) :
    KHDone A cs L cfg (cfg.start ++ S) lab kin0 r st := by
  have ih' : KHist A cs (cfg.start ++ S) lab := fun l k =>
    (KUsed_hist L h l k).mono fun s hs => List.mem_append_right _ hs
  obtain ⟨f, r', st', h1, h2⟩ := kFindOn_spec (kin0 := kin0) ok L ht ih' fun s hs => List.mem_append_left _ hs
  have := kLoop_fuel _ _ _ _ _ hrun h1
  simp only [Prod.mk.injEq] at this
  obtain ⟨e1, e2⟩ := this
  subst e1; subst e2
  exact h2

/-- On freshly initialised nodes this is the search of `Model/KinSearch.lean`. -/
theorem kFindOn_fresh (fuel : Nat) :
    kFindPath A P cfg kin0 fuel = (kFindOn A P cfg (fun _ => Label.fresh A.zero) kin0 fuel).map fun x =>
      match x.1 with
      | .ok p => .ok (p.map x.2.kin)
      | .throw e => .throw e
      | .ub => .ub := by
  rfl

/-- **C92 (later searches end).**  After any history every further search ends; it throws or misbehaves only if the map does, for a
pose this search may ask about. -/
theorem later_kin_ends (ok : KCostOk A cs) (L : Lawful P) (ht : TopOk cfg.top) (h : KUsed A cs P S lab) :
    ∃ fuel r st, kFindOn A P cfg lab kin0 fuel = some (r, st) ∧ (∀ e, r = .throw e → MapThrows A cfg.start kin0 e) ∧
      (r = .ub → MapUb A cfg.start kin0) := by
  have ih' : KHist A cs (cfg.start ++ S) lab := fun l k =>
    (KUsed_hist L h l k).mono fun s hs => List.mem_append_right _ hs
  obtain ⟨f, r', st', h1, h2⟩ := kFindOn_spec (kin0 := kin0) ok L ht ih' fun s hs => List.mem_append_left _ hs
  exact ⟨f, r', st', h1, h2.throw, h2.ub⟩

/-- **C92 (stored costs only fall).**  A later search never raises a stored distance, and leaves the pose of every node at which it does
not lower the distance (and that is not a start node) as it was. -/
theorem later_kin_frame (ok : KCostOk A cs) (L : Lawful P) (ht : TopOk cfg.top) (h : KUsed A cs P S lab) {fuel : Nat}
    {p : List N} {st : KSt N K C P} (hrun : kFindOn A P cfg lab kin0 fuel = some (.ok p, st)) (n : N) :
    (st.s.lab n).dist ≤ (lab n).dist ∧ ((st.s.lab n).dist = (lab n).dist ∨ n ∈ cfg.start → st.kin n = kin0 n) := by
  obtain ⟨hc, hsk, hnew, _⟩ := (later_kin_done ok L ht h hrun).ok p rfl
  refine ⟨(hc st.s.lab st.kin).le0 n, fun hd => ?_⟩
  by_cases hs : n ∈ cfg.start
  · exact hsk n hs
  · refine hnew n fun ht => ?_
    rcases ht with ht | ht
    · exact hs ht
    · rw [hd.resolve_right hs] at ht; exact lt_irrefl _ ht

/-- **C92 (later paths).**  A path returned after any history begins at a start pose of *this* search, takes only legal steps, each from
a reachable pose in the cell of the previous one (from the start pose itself for the first), ends at a pose for which (or for an
earlier pose of the same cell) the goal test of *this* search succeeded, visits no node twice, and visits each of its nodes at a cost that is
smaller than every cost stored there by the earlier searches. -/
theorem later_kin_path (ok : KCostOk A cs) (L : Lawful P) (ht : TopOk cfg.top) (h : KUsed A cs P S lab) {fuel : Nat}
    {p : List N} {st : KSt N K C P} (hrun : kFindOn A P cfg lab kin0 fuel = some (.ok p, st)) (hne : p ≠ []) :
    (∃ d, CellTrace A cfg.start kin0 (p.map st.kin) d ∧
      ∃ n, p.getLast? = some n ∧ (d : WithTop C) ≤ (st.s.lab n).dist) ∧
      (∃ s ∈ cfg.start, (p.map st.kin).head? = some (kin0 s)) ∧
      (∀ k ∈ p.map st.kin, Reachable A cfg.start kin0 k) ∧ p.Nodup ∧ p.length ≤ Fintype.card N ∧
      (∀ n ∈ p, n ∈ cfg.start ∨ (st.s.lab n).dist < (lab n).dist) ∧
      ∃ kl, (p.map st.kin).getLast? = some kl ∧
        (∃ k w, GoalMet A cfg.start cfg.goal kin0 k w ∧ (k = kl ∨ SameCell A k kl)) ∧
        (cfg.useCands = false → ∃ w, GoalMet A cfg.start cfg.goal kin0 kl w) := by
  obtain ⟨hc, hsk, _, hedge, hcase⟩ := (later_kin_done ok L ht h hrun).ok p rfl
  rcases hcase with ⟨e, _⟩ | ⟨n, d, htl, hb, ⟨k, w, hg, hk⟩, hg2⟩
  · exact absurd e hne
  · obtain ⟨d', t1, t2, s, hs, t3⟩ := hb.cellTraceHist ok hc hsk hedge htl
    obtain ⟨l', hl, _⟩ := hb.last
    have hnT : n ∈ p := by rw [hl]; simp
    refine ⟨⟨d', t1, n, by rw [hl]; simp, t2⟩, ⟨s, hs, t3⟩, ?_, hb.nodup, ?_, htl, st.kin n, by rw [hl]; simp,
      ⟨k, w, hg, ?_⟩, hg2⟩
    · intro k hk
      obtain ⟨v, hv, rfl⟩ := List.mem_map.1 hk
      by_cases hvs : v ∈ cfg.start
      · rw [hsk v hvs]; exact .start hvs
      · exact (hedge v hvs (htl v hv)).reachable.2
    · rw [← List.toFinset_card_of_nodup hb.nodup]
      exact Finset.card_le_univ _
    · rcases hk with hk | ⟨hk1, hk2⟩
      · exact .inl hk
      · exact .inr ⟨n, hk2, (hedge n hk1 (htl n hnT)).reachable.1⟩

/-- **C92 (later searches that find nothing).**  If a later search gives up although its time was not limited, the poses it stored cannot
be left by a legal move, except to nodes at which an earlier search had stored a distance that is not larger; no goal node has been
entered, and no stored pose passes the goal test. -/
theorem later_kin_complete (ok : KCostOk A cs) (L : Lawful P) (ht : TopOk cfg.top) (h : KUsed A cs P S lab) {fuel : Nat}
    {st : KSt N K C P} (hab : ∀ i, cfg.abort i = false) (hrefl : ∀ k pv, A.isGoal k k pv = true)
    (hrun : kFindOn A P cfg lab kin0 fuel = some (.ok [], st)) :
    ∃ κ dist, SaturatedFrom A cfg.start lab kin0 κ dist ∧ (∀ g ∈ cfg.goal, κ g = none) ∧
      ∀ n k, κ n = some k → ∀ g ∈ cfg.goal, ∃ pv, A.isGoal (kin0 g) k pv = false := by
  obtain ⟨hc, hsk, _, hedge, hcase⟩ := (later_kin_done ok L ht h hrun).ok [] rfl
  have hC := hc st.s.lab st.kin
  rcases hcase with ⟨_, hcands, hwhy⟩ | ⟨n, d, _, hb, _⟩
  swap
  · exact absurd rfl hb.ne_nil
  rcases hwhy with ⟨hI, hnone⟩ | hwhy
  swap
  · rw [hab] at hwhy; cases hwhy
  have hnomem := (L.next_none _).1 hnone
  have hgoal : ∀ g ∈ cfg.goal, ¬ Touched cfg.start lab st.s.lab g := by
    intro g hg hT
    rcases hI.tested hcands g hT with h1 | h1 | h1
    · exact hnomem g h1
    · exact h1.elim
    · obtain ⟨pv, hpv⟩ := h1 g hg (.inr rfl)
      rw [hrefl] at hpv; cases hpv
  classical
  refine ⟨fun n => if Touched cfg.start lab st.s.lab n then some (st.kin n) else none, fun n => (st.s.lab n).dist,
    ⟨?_, ?_, ?_, ?_⟩, ?_, ?_⟩
  · intro s hs
    have hT : Touched cfg.start lab st.s.lab s := .inl hs
    exact ⟨by simp only [if_pos hT]; rw [hsk s hs], hC.s0 s hs⟩
  · intro n k hk
    by_cases hT : Touched cfg.start lab st.s.lab n
    · simp only [if_pos hT] at hk
      cases hk
      by_cases hns : n ∈ cfg.start
      · exact .inl hns
      · exact .inr (hedge n hns hT).reachable.1
    · simp only [if_neg hT] at hk; cases hk
  · intro n k hk mv hmv
    by_cases hT : Touched cfg.start lab st.s.lab n
    · simp only [if_pos hT] at hk
      cases hk
      rcases hI.relaxed n hT with h1 | h1
      · exact absurd h1 (hnomem n)
      · rcases h1 mv hmv with h2 | ⟨ps, h2⟩
        · exact h2.elim
        · refine ⟨ps, fun c k' v e1 e2 e3 => ?_⟩
          have h3 := h2 c k' v e1 e2 e3
          by_cases hv : Touched cfg.start lab st.s.lab v
          · left; simp [hv]
          · right
            have h4 : (st.s.lab v).dist = (lab v).dist := by
              refine le_antisymm (hC.le0 v) ?_
              by_contra hlt
              exact hv (.inr (not_le.1 hlt))
            rw [← h4]; exact h3
    · simp only [if_neg hT] at hk; cases hk
  · intro n k hk
    by_cases hT : Touched cfg.start lab st.s.lab n
    · simp only [if_pos hT] at hk
      cases hk
      exact hI.reachable hT
    · simp only [if_neg hT] at hk; cases hk
  · intro g hg
    simp only [if_neg (hgoal g hg)]
  · intro n k hk g hg
    by_cases hT : Touched cfg.start lab st.s.lab n
    · simp only [if_pos hT] at hk
      cases hk
      rw [← hI.newKin g (hgoal g hg)]
      rcases hI.tested hcands n hT with h1 | h1 | h1
      · exact absurd h1 (hnomem n)
      · exact h1.elim
      · exact h1 g hg (.inl (hgoal g hg))
    · simp only [if_neg hT] at hk; cases hk

end PathPlanning
