import Verif.Props.DuringSearch

/-!
# Searches on a map that changes meanwhile (C116): cost of the result
-/

namespace PathPlanning.During
open PathPlanning
set_option linter.unusedSectionVars false

variable {N C : Type} [DecidableEq N] [LinearOrder C] [Fintype N]
variable [AddCommMonoid C] [IsOrderedAddMonoid C]
variable {A : Algo N C} {P : OpenList N C} {I : N → List (N × C)} {maps : Nat → N → List (N × C)}

theorem entFold {L : Lawful P} {M : MinFirst P} {cfg : SCfg N C} {g0 : N} {gs : List N}
    (hg : cfg.goal = g0 :: gs) (hE : ExactCosts A) {cur : N} :
    ∀ (es done : List (N × C)) (st : SSt N C P), VXInv A I L cfg.start cur done st →
      (∀ e ∈ es, e ∈ A.succ cur) → EntInv A M cfg st →
      EntInv A M cfg (es.foldl (fun s e => processNeighbor A cfg.goal s cur e.1 e.2) st) := by
  intro es
  induction es with
  | nil => intro done st _ _ h; exact h
  | cons e es ih =>
    intro done st hX hes h
    have hu : (st.lab cur).dist ≠ ⊤ := (hX.core.reach cur).2 (.inr hX.curOk.1)
    have h1 := hX.process (goal := cfg.goal) hE.ok (nb := e.1) (c := e.2) (hes e (by simp))
    exact ih _ _ h1.1 (fun x hx => hes x (List.mem_cons_of_mem _ hx))
      (h.process hg hE hX.core hu)

/-- Every walk along always-free neighbours is covered by closed nodes or crosses the set of open nodes. -/
theorem vfrontier (hE : ExactCosts A) {L : Lawful P} {start : List N} {st : SSt N C P}
    (h : VInv A I L start st) {n : N} {d : C} (hr : Reach (A.withSucc I) start n d) :
    ((st.lab n).closed = true ∧ (st.lab n).opn = false ∧ (st.lab n).dist ≤ (d : WithTop C)) ∨
    ∃ (m : N) (dm c : C), (st.lab m).opn = true ∧ (st.lab m).dist ≤ (dm : WithTop C) ∧
      Reach (A.withSucc I) [m] n c ∧ dm + c = d := by
  have hz : (A.withSucc I).zero = 0 := hE.zero
  have ha : ∀ a b, (A.withSucc I).add a b = a + b := hE.add
  induction hr with
  | @start s hs =>
    have hd := h.core.s0 _ hs
    by_cases ho : (st.lab s).opn = true
    · right
      exact ⟨s, 0, 0, ho, by rw [hd, hE.zero], hz ▸ .start (by simp), by rw [hz]; simp⟩
    · left
      have := (h.core.reach _).1 (by rw [hd]; simp)
      simp only [ho] at this
      exact ⟨by simpa using this, by simpa using ho, hd.le⟩
  | @step u v d c _ he ih =>
    rcases ih with ⟨h1, h2, h3⟩ | ⟨m, dm, c', h1, h2, h3, h4⟩
    · have hle := h.relaxed u h1 h2 v c he
      have hle2 : (st.lab v).dist ≤ ((A.add d c : C) : WithTop C) := by
        refine hle.trans ?_
        rw [← addW_coe]
        exact addW_mono hE.ok h3 c
      by_cases ho : (st.lab v).opn = true
      · right
        exact ⟨v, A.add d c, 0, ho, hle2, hz ▸ .start (by simp), by rw [add_zero]; rfl⟩
      · left
        have := (h.core.reach v).1 (ne_top_of_le_ne_top (by simp) hle2)
        simp only [ho] at this
        exact ⟨by simpa using this, by simpa using ho, hle2⟩
    · right
      refine ⟨m, dm, (A.withSucc I).add c' c, h1, h2, .step h3 he, ?_⟩
      rw [ha, ha, ← h4, add_assoc]

theorem vpopped_le (hE : ExactCosts A) {L : Lawful P} {M : MinFirst P} {cfg : SCfg N C}
    {st : SSt N C P} (h : EntInv A M cfg st) (hi : VInv A I L cfg.start st) {B : N → C}
    (hadm : Admissible (A.withSucc I) cfg.goal (hval A cfg.goal) B) {cur : N} {o : P.O}
    (hn : P.next st.opn = some (cur, o))
    (hst : cur ∈ cfg.start → ∀ s ∈ cfg.start, hval A cfg.goal cur ≤ hval A cfg.goal s)
    {t : N} {d : C} (hr : Reach (A.withSucc I) cfg.start t d) (ht : InGoalRegion A cfg.goal t) :
    ((st.lab t).closed = true ∧ (st.lab t).opn = false) ∨
      A.addW (st.lab cur).dist (hval A cfg.goal cur) ≤ ((d + B t : C) : WithTop C) := by
  by_cases hns : cur ∈ cfg.start
  · right
    rw [hi.core.s0 cur hns, addW_coe, hE.zero, hE.add, zero_add, WithTop.coe_le_coe]
    obtain ⟨s, hs, hr'⟩ := hr.split_start
    exact (hst hns s hs).trans (hadm.le s t d hr' ht)
  · rcases vfrontier hE hi hr with ⟨h1, h2, _⟩ | ⟨m, dm, c, h1, h2, h3, h4⟩
    · exact .inl ⟨h1, h2⟩
    · right
      refine (pop_min h hn hns h1).trans ((addW_mono hE.ok h2 _).trans ?_)
      rw [addW_coe, hE.add, WithTop.coe_le_coe, ← h4, add_assoc]
      exact add_le_add_right (hadm.le m t c h3 ht) dm

theorem vopt_pres (hE : ExactCosts A) {L : Lawful P} {M : MinFirst P} {cfg : SCfg N C}
    (hx : ExpansionOk cfg) {g0 : N} {gs : List N} (hg : cfg.goal = g0 :: gs) {s : N → List (N × C)}
    (hU : ∀ u, ∀ e ∈ s u, e ∈ A.succ u) (hI : ∀ u, ∀ e ∈ I u, e ∈ s u) {st st' : SSt N C P}
    (h : VLoop A I L cfg st) (hEnt : EntInv A M cfg st)
    (hi : iterate (A.withSucc s) cfg (poseTest A cfg) st = .more st') : EntInv A M cfg st' := by
  obtain ⟨cur, o, t, hn, _, ht1, hterm, hov, rfl⟩ := iterate_more hi
  obtain ⟨hX, hd, hoth, hcs, hf, he⟩ := h.inv.pop hn
  change poseTest A cfg (popNode A cfg st cur o) cur = .ok t at ht1
  obtain ⟨t', g1, g2, g3, g4, g5, g6, g7, g8, g9, g10, g11⟩ :=
    poseTest_spec (A := A) hx _ cur hX.core hX.curOk.1
  rw [ht1] at g1; cases g1
  have hXt : VXInv A I L cfg.start cur [] t.st := by
    refine ⟨?_, ?_, ?_, ?_, ?_, ?_, ?_⟩
    · rw [g2]; exact hX.core
    · rw [g2, g3]; exact hX.openMem
    · rw [g2, g3]; exact hX.memReach
    · rw [g2]; exact hX.curOk
    · rw [g2]; exact hX.relaxed
    · intro v c hv; cases hv
    · intro x hx1
      rw [g2]
      rcases g6 x hx1 with h1 | h1
      · exact hX.cands x h1
      · rw [h1.1]; exact hX.curOk.1
  have hp := hEnt.pop (A := A) hn
  refine entFold (L := L) hg hE (s cur) [] _ hXt (hU cur) ?_
  constructor
  · rw [g2, g3]; exact hp.lower
  · rw [g2, g3]; exact hp.upper

theorem seen_exact (h : ∀ k, ExactCosts (A.withSucc (maps k))) (E : Nat) : ExactCosts (A.withSucc (seen maps E)) where
  zero := (h 0).zero
  add := (h 0).add
  nonneg u v c hm := by
    obtain ⟨k, _, hk⟩ := List.mem_flatMap.1 hm
    exact (h k).nonneg u v c hk

/-- **C116 (cost).**  As `search_optimal_general`, on a changing map: the result is no more expensive than any way into the
goal region that was free all the time.  (It may be cheaper: it may use places that were free only for a while.) -/
theorem cost_le (hE : ∀ k, ExactCosts (A.withSucc (maps k))) (L : Lawful P) (M : MinFirst P)
    (cfg : SCfg N C) (ht : TopOk cfg.top) (hx : ∀ k n g, cfg.canExpand k n g = none)
    (huse : cfg.useCands = false) {fuel : Nat} {p : List N} {st' : SSt N C P}
    (hrun : findPathDuring A maps P cfg (freshLabels A) fuel = some (.ok p, st')) (hp : p ≠ [])
    (I : N → List (N × C)) (hI : ∀ k < st'.expansions, ∀ u, ∀ e ∈ I u, e ∈ maps k u) {B : N → C}
    (hadm : Admissible (A.withSucc I) cfg.goal (hval A cfg.goal) B)
    (hst : ∀ s ∈ cfg.start, InGoalRegion A cfg.goal s → ∀ s' ∈ cfg.start,
      hval A cfg.goal s ≤ hval A cfg.goal s') :
    ∃ t d, WalkTo (A.withSucc (seen maps st'.expansions)) cfg.start t p d ∧ InGoalRegion A cfg.goal t ∧
      ∀ t' d', Reach (A.withSucc I) cfg.start t' d' → InGoalRegion A cfg.goal t' →
        d + hval A cfg.goal t ≤ d' + B t' := by
  have hxo : ExpansionOk cfg := ⟨fun k s g _ => hx k s g, fun k n g e h => by rw [hx] at h; cases h⟩
  have hE' := seen_exact hE st'.expansions
  obtain ⟨g0, gs, hg⟩ : ∃ g0 gs, cfg.goal = g0 :: gs := by
    rcases sound (fun k => (hE k).ok) L cfg ht hxo hrun with h | ⟨t, l, d, _, h⟩
    · exact absurd h hp
    · rcases h with ⟨_, g, hgm, _⟩ | ⟨g, hgm, _⟩ <;>
      · cases hg : cfg.goal with
        | nil => rw [hg] at hgm; cases hgm
        | cons g0 gs => exact ⟨g0, gs, rfl⟩
  obtain ⟨_, st1, ⟨hI1, hI2⟩, hi⟩ := run_last (A := A) (maps := maps)
    (Inv := fun st => VLoop (A.withSucc (seen maps st'.expansions)) I L cfg st ∧
      EntInv (A.withSucc (seen maps st'.expansions)) M cfg st)
    (E := st'.expansions) (fun st st2 hk h hi => by
      have hU : ∀ u, ∀ e ∈ maps st.expansions u, e ∈ seen maps st'.expansions u :=
        fun u e he => List.mem_flatMap.2 ⟨st.expansions, List.mem_range.2 hk, he⟩
      rw [← poseTest_withSucc (A := A) (seen maps st'.expansions)] at hi
      exact ⟨(h.1.more hE'.ok hxo (s := maps st.expansions) hU (hI _ hk) hi).1,
        vopt_pres hE' hxo hg (s := maps st.expansions) hU (hI _ hk) h.1 h.2 hi⟩)
    fuel _ st' p hrun (le_refl _) ⟨VLoop.init, EntInv.init hE' (fun s _ => hadm.nonneg s) L⟩
  rw [← poseTest_withSucc (A := A) (seen maps st'.expansions)] at hi
  have hcl0 : ∀ n, (st1.lab n).closed = true → ¬ InGoalRegion A cfg.goal n := by
    rintro n hn ⟨g, hgm, hgg⟩
    have := (hI1.goal n hn g hgm hgg).1
    rw [huse] at this; cases this
  have hc0 : st1.cands = [] := by
    cases hcs : st1.cands with
    | nil => rfl
    | cons x xs =>
      exfalso
      have hx1 : x ∈ st1.cands := by rw [hcs]; simp
      obtain ⟨g, h1, h2, _⟩ := hI1.good x hx1
      exact hcl0 x.1 (hI1.inv.cands x hx1) ⟨g, h1, h2⟩
  have hf0 : finish cfg st1 = .ok [] := by
    unfold finish
    rw [hc0, (ht.none_iff []).2 rfl]
  rcases iterate_done hi with ⟨_, _, h⟩ | ⟨_, _, h⟩ | ⟨cur, o, hn, h⟩
  · rw [hf0] at h; cases h; exact absurd rfl hp
  · rw [hf0] at h; cases h; exact absurd rfl hp
  · obtain ⟨hX, hd, _, hcs, _⟩ := hI1.inv.pop hn
    obtain ⟨t, g1, g2, _, _, _, _, g7, g8, g9, _⟩ :=
      poseTest_spec (A := A.withSucc (seen maps st'.expansions)) hxo _ cur hX.core hX.curOk.1
    change (poseTest _ cfg (popNode (A.withSucc (seen maps st'.expansions)) cfg st1 cur o) cur = .ub ∧ _) ∨
      (∃ e, poseTest _ cfg (popNode (A.withSucc (seen maps st'.expansions)) cfg st1 cur o) cur = .throw e ∧ _) ∨
      ∃ t, poseTest _ cfg (popNode (A.withSucc (seen maps st'.expansions)) cfg st1 cur o) cur = .ok t ∧ _ at h
    rw [g1] at h
    rcases h with ⟨h, _⟩ | ⟨e, h, _⟩ | ⟨t', h, rfl, h3⟩
    · cases h
    · cases h
    · cases h
      rcases h3 with ⟨h4, h5, h6⟩ | ⟨h4, h5, _⟩ | ⟨_, h5, _⟩
      · cases h6
        obtain ⟨d, hb, hreg⟩ := g9 h4 hx
        refine ⟨cur, d, hb.walk, hreg, ?_⟩
        intro t' d' hr' hreg'
        have hdle : (d : WithTop C) ≤ (st1.lab cur).dist := by
          rw [← hd cur]; exact hb.cost_le hE'.ok hX.core.s0
        rcases vpopped_le hE' hI2 hI1.inv hadm hn (fun hs => hst cur hs hreg) hr' hreg' with
          ⟨h7, _⟩ | h7
        · exact absurd hreg' (hcl0 t' h7)
        · have h8 := (addW_mono hE'.ok hdle (hval A cfg.goal cur)).trans h7
          rw [addW_coe, hE'.add, WithTop.coe_le_coe] at h8
          exact h8
      · exact absurd h5 (g8 h4).1
      · rw [huse] at h5; cases h5

end PathPlanning.During
