import Verif.Lemmas.KinCustomHist
import Verif.Props.KinCustom

/-!
# C97: later searches with a goal test over nodes with stored poses
-/

namespace PathPlanning
open Spec
set_option linter.unusedSectionVars false

variable {N K C : Type} [DecidableEq N] [LinearOrder C] [Fintype N]
variable {P : OpenList N C} {A : KAlgo N K C} {cs : List C} {cfg : SCfg N C} {kin0 : N → K} {T : KGoalTest N K C P}
variable {S : List N} {lab : Labels N C}

/-- On freshly initialised nodes this is the search of `Model/KinCustom.lean`. -/
theorem kFindTestOn_fresh (fuel : Nat) :
    kFindTest A P cfg T kin0 fuel = (kFindTestOn A P cfg T (fun _ => Label.fresh A.zero) kin0 fuel).map fun x =>
      (match x.1 with
      | .ok p => .ok (p.map x.2.kin)
      | .throw e => .throw e
      | .ub => .ub, x.2) := by
  have e : kInitOn A P cfg (fun _ => Label.fresh A.zero) kin0 = kInit A P cfg kin0 := rfl
  unfold kFindTest kFindTestOn
  rw [e]
  cases kLoopT A cfg T fuel (kInit A P cfg kin0) with
  | none => rfl
  | some x => obtain ⟨r, st⟩ := x; cases r <;> rfl

/-- **C97 (later searches end).**  After any history every further search ends, whatever the goal test does; it throws or misbehaves
only if the map does, for a pose this search may ask about. -/
theorem later_custom_ends (ok : KCostOk A cs) (L : Lawful P) (ht : TopOk cfg.top) (T : KGoalTest N K C P)
    (h : KUsed A cs P S lab) :
    ∃ fuel r st, kFindTestOn A P cfg T lab kin0 fuel = some (r, st) ∧ (∀ e, r = .throw e → MapThrows A cfg.start kin0 e) ∧
      (r = .ub → MapUb A cfg.start kin0) := by
  have hh : KHist A cs (cfg.start ++ S) lab := fun l k =>
    (KUsed_hist L h l k).mono fun s hs => List.mem_append_right _ hs
  obtain ⟨f, r', st', h1, h2⟩ := thLoop_spec (L := L) ok ht _
    (thInit_inv (T := T) (kin0 := kin0) hh fun s hs => List.mem_append_left _ hs)
  exact ⟨f, r', st', h1, h2.throw, h2.ub⟩

/-- **C97 (stored costs only fall).** -/
theorem later_custom_frame (ok : KCostOk A cs) (L : Lawful P) (ht : TopOk cfg.top) (h : KUsed A cs P S lab) {fuel : Nat}
    {p : List N} {st : KSt N K C P} (hrun : kFindTestOn A P cfg T lab kin0 fuel = some (.ok p, st)) (n : N) :
    (st.s.lab n).dist ≤ (lab n).dist ∧ ((st.s.lab n).dist = (lab n).dist ∨ n ∈ cfg.start → st.kin n = kin0 n) := by
  obtain ⟨he, _, _⟩ := (kFindTestOn_done ok L ht h hrun).ok p rfl
  refine ⟨(he.core st.s.lab st.kin).le0 n, fun hd => ?_⟩
  by_cases hs : n ∈ cfg.start
  · exact he.startKin n hs
  · refine he.newKin n fun ht => ?_
    rcases ht with ht | ht
    · exact hs ht
    · rw [hd.resolve_right hs] at ht; exact lt_irrefl _ ht

/-- **C97 (later paths).**  A path returned after any history begins at a start pose of *this* search, takes only legal steps, each from
a reachable pose in the cell of the previous one, visits no node twice and visits each of its nodes at a cost that is smaller than every
cost stored there by the earlier searches; it ends in a node the goal test of *this* search has handed to it - none of those had a
smaller weight - for the pose shown or another one of the same cell. -/
theorem later_custom_path (ok : KCostOk A cs) (L : Lawful P) (ht : TopOk cfg.top) (h : KUsed A cs P S lab) {fuel : Nat}
    {p : List N} {st : KSt N K C P} (hrun : kFindTestOn A P cfg T lab kin0 fuel = some (.ok p, st)) (hne : p ≠ []) :
    (∃ d, CellTrace A cfg.start kin0 (p.map st.kin) d ∧
      ∃ n, p.getLast? = some n ∧ (d : WithTop C) ≤ (st.s.lab n).dist) ∧
      (∃ s ∈ cfg.start, (p.map st.kin).head? = some (kin0 s)) ∧
      (∀ k ∈ p.map st.kin, Reachable A cfg.start kin0 k) ∧ p.Nodup ∧ p.length ≤ Fintype.card N ∧
      (∀ n ∈ p, n ∈ cfg.start ∨ (st.s.lab n).dist < (lab n).dist) ∧
      ∃ n w k, p.getLast? = some n ∧ (n, w) ∈ st.s.cands ∧ (∀ y ∈ st.s.cands, w ≤ y.2) ∧
        Reachable A cfg.start kin0 k ∧ PoseAccepted T k w ∧ (k = st.kin n ∨ SameCell A k (st.kin n)) := by
  obtain ⟨he, hfin, _⟩ := (kFindTestOn_done ok L ht h hrun).ok p rfl
  rcases he.finish ht with ⟨_, h2⟩ | ⟨x, l, d, h1, h2, hb, htl, h4⟩
  · rw [h2] at hfin; cases hfin; exact absurd rfl hne
  · rw [h4] at hfin
    cases hfin
    obtain ⟨d', t1, t2, s, hs, t3⟩ := hb.cellTraceHist ok he.core he.startKin he.edge htl
    obtain ⟨l', hl, _⟩ := hb.last
    have hlast : p.getLast? = some x.1 := by rw [hl]; simp
    have hnT : x.1 ∈ p := by rw [hl]; simp
    obtain ⟨k, g1, g2, g3⟩ := he.good x h1
    refine ⟨⟨d', t1, x.1, hlast, t2⟩, ⟨s, hs, t3⟩, ?_, hb.nodup, ?_, htl, x.1, x.2, k, hlast, h1, h2, g1, g2, ?_⟩
    · intro k hk
      obtain ⟨v, hv, rfl⟩ := List.mem_map.1 hk
      by_cases hvs : v ∈ cfg.start
      · rw [he.startKin v hvs]; exact .start hvs
      · exact (he.edge v hvs (htl v hv)).reachable.2
    · rw [← List.toFinset_card_of_nodup hb.nodup]
      exact Finset.card_le_univ _
    · rcases g3 with g3 | ⟨g3, g4⟩
      · exact .inl g3
      · exact .inr ⟨x.1, g4, (he.edge x.1 g3 (htl _ hnT)).reachable.1⟩

/-- **C97 (giving up).**  Without a time limit, and if the goal test stops the search only at nodes it hands to the search, an empty
result means that the poses this search has stored cannot be left by a legal move, except to nodes at which an earlier search had stored
a distance that is not larger, and that none of them is one the goal test always accepts. -/
theorem later_custom_complete (ok : KCostOk A cs) (L : Lawful P) (ht : TopOk cfg.top) (h : KUsed A cs P S lab) {fuel : Nat}
    {st : KSt N K C P} (hab : ∀ i, cfg.abort i = false) (hT : StopsAtAccepted T)
    (hrun : kFindTestOn A P cfg T lab kin0 fuel = some (.ok [], st)) :
    ∃ κ dist, SaturatedFrom A cfg.start lab kin0 κ dist ∧ ∀ n k, κ n = some k → ¬ PoseAlwaysAccepted T k := by
  obtain ⟨he, hfin, hwhy⟩ := (kFindTestOn_done ok L ht h hrun).ok [] rfl
  have hC := he.core st.s.lab st.kin
  have hcands : st.s.cands = [] := by
    rcases he.finish ht with ⟨h1, _⟩ | ⟨x, l, d, _, _, hb, _, h4⟩
    · exact h1
    · rw [h4] at hfin
      cases hfin
      exact absurd rfl hb.ne_nil
  rcases hwhy with ⟨hI, hnone⟩ | hwhy | hwhy | ⟨st1, n, h1, h2⟩
  · have hnomem := (L.next_none _).1 hnone
    classical
    refine ⟨fun n => if Touched cfg.start lab st.s.lab n then some (st.kin n) else none, fun n => (st.s.lab n).dist,
      ⟨?_, ?_, ?_, ?_⟩, ?_⟩
    · intro s hs
      have hT : Touched cfg.start lab st.s.lab s := .inl hs
      exact ⟨by simp only [if_pos hT]; rw [he.startKin s hs], hC.s0 s hs⟩
    · intro n k hk
      by_cases hT : Touched cfg.start lab st.s.lab n
      · simp only [if_pos hT] at hk
        cases hk
        by_cases hns : n ∈ cfg.start
        · exact .inl hns
        · exact .inr (he.edge n hns hT).reachable.1
      · simp only [if_neg hT] at hk; cases hk
    · intro n k hk mv hmv
      by_cases hT : Touched cfg.start lab st.s.lab n
      · simp only [if_pos hT] at hk
        cases hk
        rcases hI.inv.relaxed n hT with h1 | h1
        · exact absurd h1 (hnomem n)
        · rcases h1 mv hmv with h2 | ⟨ps, h2⟩
          · exact h2.elim
          · refine ⟨ps, fun c k' v e1 e2 e3 => ?_⟩
            have h3 := h2 c k' v e1 e2 e3
            by_cases hv : Touched cfg.start lab st.s.lab v
            · left; simp [hv]
            · right
              have h4 : (st.s.lab v).dist = (lab v).dist := by
                refine le_antisymm (hC.le0 v) ?_
                by_contra hlt
                exact hv (.inr (not_le.1 hlt))
              rw [← h4]; exact h3
      · simp only [if_neg hT] at hk; cases hk
    · intro n k hk
      by_cases hT : Touched cfg.start lab st.s.lab n
      · simp only [if_pos hT] at hk
        cases hk
        exact hI.inv.reachable (cfg := { cfg with goal := [] }) hT
      · simp only [if_neg hT] at hk; cases hk
    · intro n k hk ha
      by_cases hTn : Touched cfg.start lab st.s.lab n
      · simp only [if_pos hTn] at hk
        cases hk
        exact hI.seen n hTn (hnomem n) ha hcands
      · simp only [if_neg hTn] at hk; cases hk
  · rw [hab] at hwhy; cases hwhy
  · exact absurd hcands hwhy
  · exact absurd h2 (hT st1 n h1)

/-- **C97 (a test that is satisfied at once).**  With a start node, and a goal test that accepts every node and stops there, a later
search returns a path after one iteration, whatever the earlier searches have left. -/
theorem later_custom_now (L : Lawful P) (ht : TopOk cfg.top) (h : KUsed A cs P S lab)
    (hab : ∀ i, cfg.abort i = false) (hs : cfg.start ≠ []) (hT : ∀ st n, ∃ w, T.terminate st n = (some w, true)) :
    ∃ p st, kFindTestOn A P cfg T lab kin0 1 = some (.ok p, st) ∧ p ≠ [] := by
  have hh : KHist A cs (cfg.start ++ S) lab := fun l k =>
    (KUsed_hist L h l k).mono fun s hs => List.mem_append_right _ hs
  have h0 : THInv A cs L cfg T (cfg.start ++ S) lab kin0 (kInitOn A P cfg lab kin0) :=
    thInit_inv hh fun s hs => List.mem_append_left _ hs
  have hc0 : (kInitOn A P cfg lab kin0).s.cands = [] :=
    (khInit_inv (P := P) (L := L) (kin0 := kin0) (cfg := { cfg with goal := [] }) hh fun s hs => List.mem_append_left _ hs).2
  obtain ⟨s, hs⟩ := List.exists_mem_of_ne_nil _ hs
  cases hn : P.next (kInitOn A P cfg lab kin0).s.opn with
  | none =>
    refine absurd hc0 (h0.seen s (.inl hs) ((L.next_none _).1 hn s) ?_)
    intro st n e
    obtain ⟨w, hw⟩ := hT st n
    rw [hw]; simp
  | some co =>
    obtain ⟨cur, o⟩ := co
    obtain ⟨he, hadd, _⟩ := h0.tested hn
    obtain ⟨w, hw⟩ := hT (popT A cfg T (kInitOn A P cfg lab kin0) cur o) cur
    have hmem := hadd w (by rw [hw])
    have hit : kIterateT A cfg T (kInitOn A P cfg lab kin0) =
        .done (finish cfg (kTest A T (popT A cfg T (kInitOn A P cfg lab kin0) cur o) cur).s)
          (kTest A T (popT A cfg T (kInitOn A P cfg lab kin0) cur o) cur) := by
      unfold kIterateT
      rw [hn]
      simp only [hab, Bool.false_eq_true, if_false]
      rw [if_pos]
      · rfl
      · change (T.terminate (popT A cfg T (kInitOn A P cfg lab kin0) cur o) cur).2 = true
        rw [hw]
    rcases he.finish ht with ⟨h1, _⟩ | ⟨x, l, d, _, _, hb, _, h4⟩
    · rw [h1] at hmem; cases hmem
    · exact ⟨l, _, by rw [kFindTestOn, kLoopT, hit, h4], hb.ne_nil⟩

end PathPlanning
