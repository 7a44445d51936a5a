import Verif.Spec.KinCustom
import Verif.Lemmas.KinSearchMono

/-!
# The search with a goal test, seen without its candidates, is a search between poses without goal
-/

namespace PathPlanning
open Spec
set_option linter.unusedSectionVars false

variable {N K C : Type} [DecidableEq N] [LinearOrder C] [Fintype N]
variable {P : OpenList N C}

/-- Other candidates. -/
def KSt.withCands (st : KSt N K C P) (l : List (N × C)) (w : WithTop C) : KSt N K C P :=
  { st with s := { st.s with cands := l, firstW := w } }

/-- No candidates. -/
def KSt.bare (st : KSt N K C P) : KSt N K C P := st.withCands [] ⊤

theorem process_withCands (B : Algo N C) (goal : List N) (s : SSt N C P) (cur nb : N) (c : C) (l : List (N × C))
    (w : WithTop C) : processNeighbor B goal { s with cands := l, firstW := w } cur nb c =
      { processNeighbor B goal s cur nb c with cands := l, firstW := w } := by
  unfold processNeighbor
  simp only
  split_ifs <;> rfl

section
variable {A : KAlgo N K C}

theorem kTry_withCands (goal : List N) (cur : N) (mv) (st : KSt N K C P) (l : List (N × C)) (w : WithTop C) :
    kTry A goal cur mv (st.withCands l w) = (kTry A goal cur mv st).bind fun s => .ok (s.withCands l w) := by
  unfold kTry
  show (match mv (st.kin cur) (kPreds st.s.lab st.kin cur A.predDepth) with
    | none => _ | some (c, k) => _) = _
  cases hm : mv (st.kin cur) (kPreds st.s.lab st.kin cur A.predDepth) with
  | none => rfl
  | some ck =>
    obtain ⟨c, k⟩ := ck
    simp only
    show (A.usable (st.kin cur) k).bind _ = _
    cases A.usable (st.kin cur) k with
    | throw e => rfl
    | ub => rfl
    | ok b =>
      cases b with
      | false => rfl
      | true =>
        simp only [CRes.bind, if_true]
        cases A.lookup k with
        | throw e => rfl
        | ub => rfl
        | ok r =>
          cases r with
          | none => rfl
          | some n =>
            simp only
            show (if processAdds A st.s cur n c = true then (if n = cur then _ else _) else _) = _
            by_cases ha : processAdds A st.s cur n c = true
            · rw [if_pos ha, if_pos ha]
              by_cases hn : n = cur
              · rw [if_pos hn, if_pos hn]
              · rw [if_neg hn, if_neg hn]
                simp only [KSt.withCands]
                rw [← process_withCands]
            · rw [if_neg ha, if_neg ha]
              simp only [KSt.withCands]
              rw [← process_withCands]

theorem kExpand_withCands (goal : List N) (cur : N) (l : List (N × C)) (w : WithTop C) :
    ∀ (ms : List (K → List K → Option (C × K))) (st : KSt N K C P),
      kExpand A goal cur ms (st.withCands l w) = (kExpand A goal cur ms st).bind fun s => .ok (s.withCands l w) := by
  intro ms
  induction ms with
  | nil => intro st; rfl
  | cons mv ms ih =>
    intro st
    rw [kExpand, kExpand, kTry_withCands]
    cases kTry A goal cur mv st with
    | throw e => rfl
    | ub => rfl
    | ok st1 => simp only [CRes.bind]; exact ih st1

theorem withCands_self (st : KSt N K C P) : st.withCands st.s.cands st.s.firstW = st := rfl

theorem kExpand_cands {goal : List N} {cur : N} {ms : List (K → List K → Option (C × K))} {st st' : KSt N K C P}
    (h : kExpand A goal cur ms st = .ok st') : st'.s.cands = st.s.cands ∧ st'.s.firstW = st.s.firstW := by
  have := kExpand_withCands (A := A) goal cur st.s.cands st.s.firstW ms st
  rw [withCands_self, h] at this
  simp only [CRes.bind, CRes.ok.injEq] at this
  rw [this]
  exact ⟨rfl, rfl⟩

theorem process_frame (B : Algo N C) (goal : List N) (s : SSt N C P) (cur nb : N) (c : C) (n : N) :
    ((processNeighbor B goal s cur nb c).lab n).closed = (s.lab n).closed ∧
      (((processNeighbor B goal s cur nb c).lab n).opn = false → (s.lab n).opn = false) := by
  unfold processNeighbor
  by_cases e : n = nb
  · subst e
    simp only
    split_ifs <;> simp [setLab_self]
  · simp only
    split_ifs <;> simp [setLab_ne _ _ e]

theorem process_opens {goal : List N} {s : SSt N C P} {kin : N → K} {cur nb : N} {c : C} (hn : ¬ nb = cur)
    (ha : processAdds A s cur nb c = true) :
    ((processNeighbor (A.alg s.lab kin) goal s cur nb c).lab nb).opn = true := by
  unfold processAdds at ha
  change (!((s.lab nb).closed && !decide ((A.alg s.lab kin).addW (s.lab cur).dist c < (s.lab nb).dist)) &&
    (!(s.lab nb).opn || decide ((A.alg s.lab kin).addW (s.lab cur).dist c < (s.lab nb).dist))) = true at ha
  unfold processNeighbor
  have hcn : setLab s.lab nb { s.lab nb with watched := true } cur = s.lab cur := setLab_ne _ _ (Ne.symm hn)
  simp only [hcn]
  rw [Bool.and_eq_true, Bool.not_eq_true', ← Bool.not_eq_true] at ha
  obtain ⟨h1, h2⟩ := ha
  rw [if_neg h1]
  split_ifs with h3 h4
  all_goals first
    | exact absurd h2 h3
    | simp [setLab_self]

/-- What expanding a node leaves alone. -/
theorem kTry_frame {goal : List N} {cur : N} {mv} {st st' : KSt N K C P} (h : kTry A goal cur mv st = .ok st') :
    ∀ n, (st'.s.lab n).closed = (st.s.lab n).closed ∧
      ((st'.s.lab n).opn = false → (st.s.lab n).opn = false ∧ st'.kin n = st.kin n) := by
  have hrefl : ∀ n, (st.s.lab n).closed = (st.s.lab n).closed ∧
      ((st.s.lab n).opn = false → (st.s.lab n).opn = false ∧ st.kin n = st.kin n) := fun n => ⟨rfl, fun h => ⟨h, rfl⟩⟩
  unfold kTry at h
  cases hm : mv (st.kin cur) (kPreds st.s.lab st.kin cur A.predDepth) with
  | none => rw [hm] at h; cases h; exact hrefl
  | some ck =>
    obtain ⟨c, k⟩ := ck
    rw [hm] at h
    simp only at h
    cases hu : A.usable (st.kin cur) k with
    | throw e => rw [hu] at h; cases h
    | ub => rw [hu] at h; cases h
    | ok b =>
      rw [hu] at h
      simp only [CRes.bind] at h
      cases b with
      | false => cases h; exact hrefl
      | true =>
        simp only [if_true] at h
        cases hl : A.lookup k with
        | throw e => rw [hl] at h; cases h
        | ub => rw [hl] at h; cases h
        | ok r =>
          rw [hl] at h
          simp only at h
          cases r with
          | none => cases h; exact hrefl
          | some nb =>
            simp only at h
            by_cases ha : processAdds A st.s cur nb c = true
            · rw [if_pos ha] at h
              by_cases hn : nb = cur
              · rw [if_pos hn] at h; cases h
              · rw [if_neg hn] at h
                cases h
                intro n
                obtain ⟨f1, f2⟩ := process_frame (A.alg st.s.lab st.kin) goal st.s cur nb c n
                refine ⟨f1, fun ho => ?_⟩
                by_cases e : n = nb
                · subst e
                  rw [show ((processNeighbor (A.alg st.s.lab st.kin) goal st.s cur n c).lab n).opn = true from
                    process_opens hn ha] at ho
                  cases ho
                · exact ⟨f2 ho, by simp [e]⟩
            · rw [if_neg ha] at h
              cases h
              intro n
              obtain ⟨f1, f2⟩ := process_frame (A.alg st.s.lab st.kin) goal st.s cur nb c n
              exact ⟨f1, fun ho => ⟨f2 ho, rfl⟩⟩

theorem kExpand_frame {goal : List N} {cur : N} :
    ∀ (ms : List (K → List K → Option (C × K))) (st st' : KSt N K C P), kExpand A goal cur ms st = .ok st' →
      ∀ n, (st'.s.lab n).closed = (st.s.lab n).closed ∧
        ((st'.s.lab n).opn = false → (st.s.lab n).opn = false ∧ st'.kin n = st.kin n) := by
  intro ms
  induction ms with
  | nil => intro st st' h; cases h; exact fun n => ⟨rfl, fun h => ⟨h, rfl⟩⟩
  | cons mv ms ih =>
    intro st st' h n
    rw [kExpand] at h
    cases hk : kTry A goal cur mv st with
    | throw e => rw [hk] at h; cases h
    | ub => rw [hk] at h; cases h
    | ok st1 =>
      rw [hk] at h
      obtain ⟨a1, a2⟩ := kTry_frame hk n
      obtain ⟨b1, b2⟩ := ih st1 st' h n
      refine ⟨b1.trans a1, fun ho => ?_⟩
      obtain ⟨b3, b4⟩ := b2 ho
      obtain ⟨a3, a4⟩ := a2 b3
      exact ⟨a3, b4.trans a4⟩

/-! ### One iteration -/

variable {cs : List C} {L : Lawful P} {cfg : SCfg N C} {kin0 : N → K} {T : KGoalTest N K C P}

/-- The state in which the goal test is asked about `cur`. -/
def popT (A : KAlgo N K C) (cfg : SCfg N C) (T : KGoalTest N K C P) (st : KSt N K C P) (cur : N) (o : P.O) :
    KSt N K C P := { st with s := popNode (A.alg st.s.lab st.kin) (tCfg cfg T st.kin) st.s cur o }

theorem kTest_parts (st : KSt N K C P) (cur : N) :
    (kTest A T st cur).kin = st.kin ∧ (kTest A T st cur).s.lab = st.s.lab ∧ (kTest A T st cur).s.opn = st.s.opn ∧
      (kTest A T st cur).s.expansions = st.s.expansions ∧ (kTest A T st cur).bare = st.bare ∧
      (kTest A T st cur).s.cands = st.s.cands ++
        (match (T.terminate st cur).1 with | some w => [(cur, w)] | none => []) := by
  unfold kTest
  cases (T.terminate st cur).1 with
  | none => simp
  | some w => exact ⟨rfl, rfl, rfl, rfl, rfl, rfl⟩

/-- **Simulation**: without its candidates, an iteration that goes on is one of a search between poses without goal. -/
theorem kIterateT_more {st st' : KSt N K C P} (h : kIterateT A cfg T st = .more st') :
    ∃ cur o, P.next st.s.opn = some (cur, o) ∧ (T.terminate (popT A cfg T st cur o) cur).2 = false ∧
      kIterate A (tCfg cfg T st.kin) st.bare = .more st'.bare ∧
      st'.s.cands = (kTest A T (popT A cfg T st cur o) cur).s.cands ∧
      kExpand A [] cur A.moves (kTest A T (popT A cfg T st cur o) cur) = .ok st' := by
  unfold kIterateT at h
  cases hn : P.next st.s.opn with
  | none => rw [hn] at h; cases h
  | some co =>
    obtain ⟨cur, o⟩ := co
    rw [hn] at h
    simp only at h
    by_cases hab : cfg.abort st.s.expansions = true
    · rw [if_pos hab] at h; cases h
    rw [if_neg hab] at h
    change (if (T.terminate (popT A cfg T st cur o) cur).2 = true then KIter.done _ (kTest A T (popT A cfg T st cur o) cur) else _) = _ at h
    refine ⟨cur, o, rfl, ?_⟩
    obtain ⟨p1, p2, p3, p4, p5, p6⟩ := kTest_parts (A := A) (T := T) (popT A cfg T st cur o) cur
    change (if (T.terminate (popT A cfg T st cur o) cur).2 = true then KIter.done _ (kTest A T (popT A cfg T st cur o) cur) else
      if _ then KIter.done _ (kTest A T (popT A cfg T st cur o) cur) else
        match kExpand A [] cur A.moves (kTest A T (popT A cfg T st cur o) cur) with
        | .throw e => .done (.throw e) (kTest A T (popT A cfg T st cur o) cur)
        | .ub => .done .ub (kTest A T (popT A cfg T st cur o) cur)
        | .ok st' => .more st') = _ at h
    by_cases hT : (T.terminate (popT A cfg T st cur o) cur).2 = true
    · rw [if_pos hT] at h; cases h
    rw [if_neg hT] at h
    split at h
    · cases h
    cases hk : kExpand A [] cur A.moves (kTest A T (popT A cfg T st cur o) cur) with
    | throw e => rw [hk] at h; cases h
    | ub => rw [hk] at h; cases h
    | ok st2 =>
      rw [hk] at h
      cases h
      refine ⟨by simpa using hT, ?_, (kExpand_cands hk).1, rfl⟩
      have hb : kExpand A [] cur A.moves (popT A cfg T st cur o).bare = .ok st'.bare := by
        rw [← p5]
        show kExpand A [] cur A.moves ((kTest A T (popT A cfg T st cur o) cur).withCands [] ⊤) = _
        rw [kExpand_withCands, hk]; rfl
      unfold kIterate
      show (match P.next st.s.opn with | none => _ | some (cur, o) => _) = _
      rw [hn]
      simp only
      show (if cfg.abort st.s.expansions = true then _ else _) = _
      rw [if_neg hab]
      show (if (false : Bool) = true then _ else if (cfg.useCands && !true && _) = true then _ else _) = _
      rw [if_neg (by simp), if_neg (by simp)]
      show (match kExpand A [] cur A.moves (popT A cfg T st cur o).bare with
        | .throw e => _ | .ub => _ | .ok st' => _) = _
      rw [hb]

/-- The invariant uses only the start and goal nodes of the settings. -/
theorem KInv.recfg {cfg' : SCfg N C} {pend} {st : KSt N K C P} (h : KInv A cs L cfg kin0 pend st)
    (e1 : cfg'.start = cfg.start) (e2 : cfg'.goal = cfg.goal) : KInv A cs L cfg' kin0 pend st := by
  obtain ⟨h1, h2, h3, h4, h5, h6, h7, h8, h9, h10⟩ := h
  refine ⟨?_, h2, h3, h4, ?_, h6, ?_, h8, ?_, ?_⟩
  · rw [e1]; exact h1
  · rw [e1]; exact h5
  · rw [e1]; exact h7
  · rw [e2]; exact h9
  · rw [e1, e2]; exact h10

/-- Invariant of a search with a goal test. -/
structure TInv (A : KAlgo N K C) (cs : List C) (L : Lawful P) (cfg : SCfg N C) (T : KGoalTest N K C P) (kin0 : N → K)
    (st : KSt N K C P) : Prop where
  inv : KInv A cs L { cfg with goal := [] } kin0 nopend st.bare
  closed : ∀ x ∈ st.s.cands, (st.s.lab x.1).closed = true
  good : ∀ x ∈ st.s.cands, ∃ k, Reachable A cfg.start kin0 k ∧ PoseAccepted T k x.2 ∧
    (k = st.kin x.1 ∨ (x.1 ∉ cfg.start ∧ A.lookup k = .ok (some x.1)))
  seen : ∀ n, (st.s.lab n).closed = true → (st.s.lab n).opn = false → PoseAlwaysAccepted T (st.kin n) →
    st.s.cands ≠ []

/-- What is known of a state in which a search may end. -/
structure TEnd (A : KAlgo N K C) (cs : List C) (cfg : SCfg N C) (T : KGoalTest N K C P) (kin0 : N → K)
    (st : KSt N K C P) : Prop where
  core : KCore A cs cfg.start st.s.lab
  startKin : ∀ s ∈ cfg.start, st.kin s = kin0 s
  edge : ∀ n, n ∉ cfg.start → (st.s.lab n).dist ≠ ⊤ → KEdge A cfg.start kin0 st.s.lab st.kin n
  closed : ∀ x ∈ st.s.cands, (st.s.lab x.1).closed = true
  good : ∀ x ∈ st.s.cands, ∃ k, Reachable A cfg.start kin0 k ∧ PoseAccepted T k x.2 ∧
    (k = st.kin x.1 ∨ (x.1 ∉ cfg.start ∧ A.lookup k = .ok (some x.1)))

theorem TInv.toEnd {st : KSt N K C P} (h : TInv A cs L cfg T kin0 st) : TEnd A cs cfg T kin0 st :=
  ⟨h.inv.core, h.inv.startKin, h.inv.edge, h.closed, h.good⟩

/-- What the search knows when the goal test has been asked about `cur`. -/
theorem TInv.tested {st : KSt N K C P} (h : TInv A cs L cfg T kin0 st) {cur : N} {o : P.O}
    (hn : P.next st.s.opn = some (cur, o)) :
    TEnd A cs cfg T kin0 (kTest A T (popT A cfg T st cur o) cur) ∧
      (∀ w, (T.terminate (popT A cfg T st cur o) cur).1 = some w →
        (cur, w) ∈ (kTest A T (popT A cfg T st cur o) cur).s.cands) ∧
      (∀ n, n ≠ cur → (popT A cfg T st cur o).s.lab n = st.s.lab n) ∧
      ((popT A cfg T st cur o).s.lab cur).closed = true ∧
      st.s.cands ⊆ (kTest A T (popT A cfg T st cur o) cur).s.cands := by
  obtain ⟨p1, p2, p3, p4, p5, p6⟩ := kTest_parts (A := A) (T := T) (popT A cfg T st cur o) cur
  obtain ⟨hx, hd, hp, hoth, hcs, hf, he, hopn1⟩ :=
    kpop_spec (cfg := tCfg cfg T st.kin) (st := st.bare) (h.inv.recfg rfl rfl) hn (B := A.alg st.s.lab st.kin)
  have hC := hx.core st.s.lab st.kin
  have hsub : st.s.cands ⊆ (kTest A T (popT A cfg T st cur o) cur).s.cands := by
    rw [p6]
    exact fun x hx => List.mem_append_left _ hx
  refine ⟨⟨?_, ?_, ?_, ?_, ?_⟩, ?_, hoth, hx.curOk.1, hsub⟩
  · rw [p2]; exact hx.core
  · rw [p1]; exact hx.startKin
  · rw [p1, p2]; exact hx.edge
  · intro x hx1
    rw [p2]
    rw [p6] at hx1
    have key : x.1 = cur ∨ (st.s.lab x.1).closed = true := by
      rcases List.mem_append.1 hx1 with h1 | h1
      · exact .inr (h.closed x h1)
      · left
        cases hT : (T.terminate (popT A cfg T st cur o) cur).1 with
        | none => rw [hT] at h1; cases h1
        | some w => rw [hT] at h1; rw [List.mem_singleton] at h1; rw [h1]
    by_cases e : x.1 = cur
    · rw [e]; exact hx.curOk.1
    · rcases key with h1 | h1
      · exact absurd h1 e
      · rw [show (popT A cfg T st cur o).s.lab x.1 = st.s.lab x.1 from hoth _ e]; exact h1
  · intro x hx1
    rw [p1]
    rw [p6] at hx1
    rcases List.mem_append.1 hx1 with h1 | h1
    · exact h.good x h1
    · cases hT : (T.terminate (popT A cfg T st cur o) cur).1 with
      | none => rw [hT] at h1; cases h1
      | some w =>
        rw [hT, List.mem_singleton] at h1
        subst h1
        refine ⟨st.kin cur, h.inv.reachable (n := cur) ?_, ⟨popT A cfg T st cur o, cur, rfl, hT⟩, .inl rfl⟩
        exact h.inv.memReach cur (L.next_some _ _ _ hn).1
  · intro w hw
    rw [p6, hw]
    simp

/-- An iteration that goes on keeps the invariant and makes progress. -/
theorem TInv.more (ok : KCostOk A cs) (ht : TopOk cfg.top) {st st' : KSt N K C P} (h : TInv A cs L cfg T kin0 st)
    (hi : kIterateT A cfg T st = .more st') :
    TInv A cs L cfg T kin0 st' ∧
      (potential (A.full cs (fun _ => Label.fresh A.zero) kin0) st'.s.lab <
          potential (A.full cs (fun _ => Label.fresh A.zero) kin0) st.s.lab ∨
        (potential (A.full cs (fun _ => Label.fresh A.zero) kin0) st'.s.lab =
            potential (A.full cs (fun _ => Label.fresh A.zero) kin0) st.s.lab ∧
          L.size st'.s.opn < L.size st.s.opn)) := by
  obtain ⟨cur, o, hn, hT, hsim, hcands, hexp⟩ := kIterateT_more hi
  have hs := kIterate_spec (L := L) (cfg := tCfg cfg T st.kin) (kin0 := kin0) ok ht (st := st.bare) (h.inv.recfg rfl rfl) (fun _ => rfl)
  rw [hsim] at hs
  obtain ⟨hinv, _, _, hprog⟩ := hs
  obtain ⟨hend, hadd, hoth, hcl, hsub⟩ := h.tested hn
  obtain ⟨p1, p2, p3, p4, p5, p6⟩ := kTest_parts (A := A) (T := T) (popT A cfg T st cur o) cur
  have hfr := kExpand_frame _ _ _ hexp
  refine ⟨⟨hinv.recfg rfl rfl, ?_, ?_, ?_⟩, hprog _ _⟩
  · intro x hx
    rw [hcands] at hx
    rw [(hfr x.1).1]; exact hend.closed x hx
  · intro x hx
    rw [hcands] at hx
    obtain ⟨k, h1, h2, h3⟩ := hend.good x hx
    refine ⟨k, h1, h2, ?_⟩
    rcases h3 with h3 | h3
    swap
    · exact .inr h3
    by_cases e : st'.kin x.1 = st.kin x.1
    · left; rw [h3, p1, e]; rfl
    · right
      have hns : x.1 ∉ cfg.start := fun hs => e ((hinv.startKin x.1 hs).trans (h.inv.startKin x.1 hs).symm)
      have hd : ((kTest A T (popT A cfg T st cur o) cur).s.lab x.1).dist ≠ ⊤ :=
        ((hend.core st.s.lab st.kin).reach x.1).2 (.inr (hend.closed x hx))
      refine ⟨hns, ?_⟩
      rw [h3]
      exact (hend.edge x.1 hns hd).reachable.1
  · intro n h1 h2 h3
    rw [hcands]
    obtain ⟨f1, f2⟩ := hfr n
    obtain ⟨f3, f4⟩ := f2 h2
    rw [f1, p2] at h1
    rw [p2] at f3
    rw [f4, p1] at h3
    by_cases e : n = cur
    · subst e
      obtain ⟨w, hw⟩ := Option.ne_none_iff_exists'.1 (h3 (popT A cfg T st n o) n rfl)
      exact List.ne_nil_of_mem (hadd w hw)
    · rw [hoth n e] at h1 f3
      obtain ⟨x, hx⟩ := List.exists_mem_of_ne_nil _ (h.seen n h1 f3 h3)
      exact List.ne_nil_of_mem (hsub hx)

/-- What is known when a search with a goal test has ended. -/
structure TDone (A : KAlgo N K C) (cs : List C) (L : Lawful P) (cfg : SCfg N C) (T : KGoalTest N K C P) (kin0 : N → K)
    (r : CRes (List N)) (st : KSt N K C P) : Prop where
  throw : ∀ e, r = .throw e → MapThrows A cfg.start kin0 e
  ub : r = .ub → MapUb A cfg.start kin0
  ok : ∀ p, r = .ok p → TEnd A cs cfg T kin0 st ∧ finish cfg st.s = .ok p ∧
    ((TInv A cs L cfg T kin0 st ∧ P.next st.s.opn = none) ∨ cfg.abort st.s.expansions = true ∨ st.s.cands ≠ [] ∨
      ∃ st1 n, (T.terminate st1 n).2 = true ∧ (T.terminate st1 n).1 = none)

theorem TInv.done (ok : KCostOk A cs) (ht : TopOk cfg.top) {st st' : KSt N K C P} {r : CRes (List N)}
    (h : TInv A cs L cfg T kin0 st) (hi : kIterateT A cfg T st = .done r st') : TDone A cs L cfg T kin0 r st' := by
  unfold kIterateT at hi
  cases hn : P.next st.s.opn with
  | none =>
    rw [hn] at hi
    cases hi
    obtain ⟨p, hp⟩ : ∃ p, finish cfg st.s = .ok p := by
      rcases finish_spec (A := A.full cs st.s.lab st.kin) (st := st.s) ht (h.inv.core st.s.lab st.kin) h.closed with
        ⟨_, h2⟩ | ⟨_, l, _, _, _, _, h4⟩
      · exact ⟨_, h2⟩
      · exact ⟨_, h4⟩
    rw [hp]
    exact ⟨by simp, by simp, fun q hq => by cases hq; exact ⟨h.toEnd, hp, .inl ⟨h, hn⟩⟩⟩
  | some co =>
    obtain ⟨cur, o⟩ := co
    rw [hn] at hi
    simp only at hi
    have hfin : ∀ st2 : KSt N K C P, TEnd A cs cfg T kin0 st2 → ∃ p, finish cfg st2.s = .ok p := by
      intro st2 he
      rcases finish_spec (A := A.full cs st2.s.lab st2.kin) ht (he.core st2.s.lab st2.kin) he.closed with
        ⟨_, h2⟩ | ⟨_, l, _, _, _, _, h4⟩
      · exact ⟨_, h2⟩
      · exact ⟨_, h4⟩
    by_cases hab : cfg.abort st.s.expansions = true
    · rw [if_pos hab] at hi
      cases hi
      obtain ⟨p, hp⟩ := hfin st h.toEnd
      rw [hp]
      exact ⟨by simp, by simp, fun q hq => by cases hq; exact ⟨h.toEnd, hp, .inr (.inl hab)⟩⟩
    rw [if_neg hab] at hi
    obtain ⟨hend, hadd, hoth, hcl, hsub⟩ := h.tested hn
    obtain ⟨p1, p2, p3, p4, p5, p6⟩ := kTest_parts (A := A) (T := T) (popT A cfg T st cur o) cur
    change (if (T.terminate (popT A cfg T st cur o) cur).2 = true then
        KIter.done (finish cfg (kTest A T (popT A cfg T st cur o) cur).s) (kTest A T (popT A cfg T st cur o) cur) else
      if (cfg.useCands && !(kTest A T (popT A cfg T st cur o) cur).s.cands.isEmpty && _) = true then
        KIter.done (finish cfg (kTest A T (popT A cfg T st cur o) cur).s) (kTest A T (popT A cfg T st cur o) cur) else
        match kExpand A [] cur A.moves (kTest A T (popT A cfg T st cur o) cur) with
        | .throw e => .done (.throw e) (kTest A T (popT A cfg T st cur o) cur)
        | .ub => .done .ub (kTest A T (popT A cfg T st cur o) cur)
        | .ok st' => .more st') = _ at hi
    obtain ⟨p, hp⟩ := hfin _ hend
    by_cases hT : (T.terminate (popT A cfg T st cur o) cur).2 = true
    · rw [if_pos hT] at hi
      cases hi
      rw [hp]
      refine ⟨by simp, by simp, fun q hq => ?_⟩
      cases hq
      refine ⟨hend, hp, .inr (.inr ?_)⟩
      cases hw : (T.terminate (popT A cfg T st cur o) cur).1 with
      | none => exact .inr ⟨_, cur, hT, hw⟩
      | some w => exact .inl (List.ne_nil_of_mem (hadd w hw))
    rw [if_neg hT] at hi
    split at hi
    · rename_i hov
      cases hi
      rw [hp]
      refine ⟨by simp, by simp, fun q hq => ?_⟩
      cases hq
      refine ⟨hend, hp, .inr (.inr (.inl ?_))⟩
      intro e
      rw [e] at hov
      simp at hov
    · have hb : kExpand A [] cur A.moves (popT A cfg T st cur o).bare =
          (kExpand A [] cur A.moves (kTest A T (popT A cfg T st cur o) cur)).bind fun s => .ok s.bare := by
        rw [← p5]
        exact kExpand_withCands _ _ _ _ _ _
      obtain ⟨hx, _⟩ := kpop_spec (cfg := tCfg cfg T st.kin) (st := st.bare) (h.inv.recfg rfl rfl) hn (B := A.alg st.s.lab st.kin)
      have hX : KInv A cs L (tCfg cfg T st.kin) kin0 (todo cur A.moves) (popT A cfg T st cur o).bare :=
        hx.afterTest (s2 := (popT A cfg T st cur o).bare.s) rfl rfl (fun x hx => hx) (by intro x hx; cases hx)
          (by intro x hx; cases hx) (by intro g hg; cases hg)
      have hE := kExpand_spec ok A.moves (popT A cfg T st cur o).bare (fun m hm => hm) hX hx.curOk
      change (match kExpand A [] cur A.moves (popT A cfg T st cur o).bare with
        | .ok st' => _ | .throw e => MapThrows A cfg.start kin0 e | .ub => MapUb A cfg.start kin0) at hE
      rw [hb] at hE
      cases hk : kExpand A [] cur A.moves (kTest A T (popT A cfg T st cur o) cur) with
      | throw e =>
        rw [hk] at hi hE
        cases hi
        exact ⟨fun e' he' => by cases he'; exact hE, by simp, by simp⟩
      | ub =>
        rw [hk] at hi hE
        cases hi
        exact ⟨by simp, fun _ => hE, by simp⟩
      | ok st2 => rw [hk] at hi; cases hi

theorem tInit_inv : TInv A cs L cfg T kin0 (kInit A P cfg kin0) := by
  obtain ⟨h1, h2⟩ := kInit_inv (A := A) (cs := cs) (L := L) (cfg := { cfg with goal := [] }) (kin0 := kin0)
  have e : (kInit A P { cfg with goal := [] } kin0) = kInit A P cfg kin0 := rfl
  rw [e] at h1 h2
  have hb : KInv A cs L { cfg with goal := [] } kin0 nopend (kInit A P cfg kin0).bare :=
    h1.same (s' := (kInit A P cfg kin0).bare.s) (fun m => ⟨rfl, rfl, rfl, rfl⟩) rfl h2.symm
      (fun u mv _ _ _ hp => .inl hp)
  refine ⟨hb, ?_, ?_, ?_⟩
  · intro x hx; rw [h2] at hx; cases hx
  · intro x hx; rw [h2] at hx; cases hx
  · intro n hn
    obtain ⟨k1, k2, _⟩ :=
      init_facts (A := A.full cs (fun _ => Label.fresh A.zero) kin0) (L := L) (cfg := cfg)
    have hs : (kInit A P cfg kin0).s = initSearch (A.full cs (fun _ => Label.fresh A.zero) kin0) P cfg
        (freshLabels (A.full cs (fun _ => Label.fresh A.zero) kin0)) := rfl
    rw [hs] at hn
    by_cases hu : n ∈ cfg.start
    · rw [k1 n hu] at hn; cases hn
    · rw [k2 n hu] at hn; cases hn

/-- Every run ends, correctly. -/
theorem kLoopT_spec (ok : KCostOk A cs) (ht : TopOk cfg.top) (st : KSt N K C P) (h : TInv A cs L cfg T kin0 st) :
    ∃ fuel r st', kLoopT A cfg T fuel st = some (r, st') ∧ TDone A cs L cfg T kin0 r st' := by
  cases hi : kIterateT A cfg T st with
  | done r st' => exact ⟨1, r, st', by rw [kLoopT, hi], h.done ok ht hi⟩
  | more st' =>
    have h4 := (h.more ok ht hi).2
    obtain ⟨fuel, r, st2, h5, h6⟩ := kLoopT_spec ok ht st' (h.more ok ht hi).1
    exact ⟨fuel + 1, r, st2, by rw [kLoopT, hi]; exact h5, h6⟩
termination_by (potential (A.full cs (fun _ => Label.fresh A.zero) kin0) st.s.lab, L.size st.s.opn)
decreasing_by
  rcases h4 with h4 | ⟨h4, h5⟩
  · exact Prod.Lex.left _ _ h4
  · rw [h4]; exact Prod.Lex.right _ h5

/-- More fuel does not change a result. -/
theorem kLoopT_fuel : ∀ (f g : Nat) (st : KSt N K C P) (x y), kLoopT A cfg T f st = some x →
      kLoopT A cfg T g st = some y → x = y := by
  intro f
  induction f with
  | zero => intro g st x y h; simp [kLoopT] at h
  | succ f ih =>
    intro g st x y h1 h2
    cases g with
    | zero => simp [kLoopT] at h2
    | succ g =>
      rw [kLoopT] at h1 h2
      cases hi : kIterateT A cfg T st with
      | done r st' => rw [hi] at h1 h2; simp only [Option.some.injEq] at h1 h2; rw [← h1, ← h2]
      | more st' => rw [hi] at h1 h2; exact ih g st' x y h1 h2

end
end PathPlanning
