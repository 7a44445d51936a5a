import Verif.Lemmas.SearchHist
import Verif.Spec.SearchHistory
import Verif.Props.SearchCustom3

/-!
# Searches on a search object with any history (C80)
-/

namespace PathPlanning
set_option linter.unusedSectionVars false

variable {N C : Type} [DecidableEq N] [LinearOrder C] [Fintype N]
variable {A : Algo N C} {P : OpenList N C}

/-! ### Goal tests -/

/-- What the pose test returns at `cur`, whose backtracked path is `l`. -/
def PoseRes (A : Algo N C) (cfg : SCfg N C) (l : List N) (cur : N) (p : List N) : Prop :=
  (p = l ∧ InGoalRegion A cfg.goal cur) ∨ ∃ g ∈ cfg.goal, ∃ k e, cfg.canExpand k cur g = some e ∧ p = l ++ e

theorem hist_goalLoop {cfg : SCfg N C} {cur : N} {l : List N} {d : C} :
    ∀ (gs : List N) (st : SSt N C P), (∀ g ∈ gs, g ∈ cfg.goal) → (∀ n, (st.lab n).prev ≠ some n) →
      Back A cfg.start st.lab cur l d →
    ∃ t, goalLoop A cfg cur gs st = .ok t ∧ t.st.lab = st.lab ∧ t.st.opn = st.opn ∧
      (∀ x ∈ st.cands, x ∈ t.st.cands) ∧
      (∀ x ∈ t.st.cands, x ∈ st.cands ∨ (x.1 = cur ∧ GoodCand A cfg cur x.2)) ∧
      (t.term = true → t.result = l ∧ InGoalRegion A cfg.goal cur) ∧
      (t.term = false → ∀ g ∈ gs, A.isGoal g cur = true → t.st.cands ≠ []) := by
  intro gs
  induction gs with
  | nil =>
    intro st _ _ _
    exact ⟨⟨false, [], st⟩, rfl, rfl, rfl, fun x hx => hx, fun x hx => .inl hx, by simp, by simp⟩
  | cons g gs ih =>
    intro st hsub hs hb
    have hsub' : ∀ g ∈ gs, g ∈ cfg.goal := fun x hx => hsub x (List.mem_cons_of_mem _ hx)
    have hbt : backtrack st.lab cfg.start cur = .ok l := hb.backtrack hs
    rw [goalLoop]
    by_cases hg : A.isGoal g cur = true
    · simp only [hg, if_true]
      have hreg : InGoalRegion A cfg.goal cur := ⟨g, hsub g (by simp), hg⟩
      by_cases huse : cfg.useCands = true
      · simp only [huse, if_true]
        obtain ⟨t, h1, h2, h3, h4, h5, h6, h7⟩ := ih (addCandidate A st cur (A.distTo g cur)) hsub' hs hb
        have hadd : ∀ x ∈ (addCandidate A st cur (A.distTo g cur)).cands,
            x ∈ st.cands ∨ (x.1 = cur ∧ GoodCand A cfg cur x.2) := by
          intro x hx
          simp only [addCandidate, List.mem_append, List.mem_singleton] at hx
          rcases hx with hx | rfl
          · exact .inl hx
          · exact .inr ⟨rfl, g, hsub g (by simp), hg, rfl⟩
        have hne : t.st.cands ≠ [] := List.ne_nil_of_mem (h4 (cur, A.distTo g cur) (by simp [addCandidate]))
        have hrec : ∃ t', goalLoop A cfg cur gs (addCandidate A st cur (A.distTo g cur)) = .ok t' ∧ t'.st.lab = st.lab ∧
            t'.st.opn = st.opn ∧ (∀ x ∈ st.cands, x ∈ t'.st.cands) ∧
            (∀ x ∈ t'.st.cands, x ∈ st.cands ∨ (x.1 = cur ∧ GoodCand A cfg cur x.2)) ∧
            (t'.term = true → t'.result = l ∧ InGoalRegion A cfg.goal cur) ∧
            (t'.term = false → ∀ g' ∈ g :: gs, A.isGoal g' cur = true → t'.st.cands ≠ []) := by
          refine ⟨t, h1, h2, h3, fun x hx => h4 x (by simp [addCandidate, hx]), ?_, h6, fun _ _ _ _ => hne⟩
          intro x hx
          rcases h5 x hx with h | h
          · exact hadd x h
          · exact .inr h
        cases hacc : cfg.accept with
        | none => exact hrec
        | some f =>
          have hlab : (addCandidate A st cur (A.distTo g cur)).lab = st.lab := rfl
          simp only [hlab, hbt, CRes.ok_bind]
          by_cases hf : f l = true
          · simp only [hf, if_true]
            exact ⟨_, rfl, rfl, rfl, fun x hx => by simp [addCandidate, hx], hadd, fun _ => ⟨rfl, hreg⟩,
              fun h => by simp at h⟩
          · simp only [hf, if_false, Bool.false_eq_true]
            exact hrec
      · simp only [huse, if_false, Bool.false_eq_true, hbt, CRes.ok_bind]
        exact ⟨_, rfl, rfl, rfl, fun x hx => hx, fun x hx => .inl hx, fun _ => ⟨rfl, hreg⟩, fun h => by simp at h⟩
    · simp only [hg, if_false, Bool.false_eq_true]
      obtain ⟨t, h1, h2, h3, h4, h5, h6, h7⟩ := ih st hsub' hs hb
      refine ⟨t, h1, h2, h3, h4, h5, h6, fun ht g' hg' hgg => ?_⟩
      rcases List.mem_cons.1 hg' with e | hg'
      · rw [e] at hgg; exact absurd hgg hg
      · exact h7 ht g' hg' hgg

theorem hist_expansionLoop {cfg : SCfg N C} (hx : ExpansionOk cfg) {cur : N} {st : SSt N C P} {l : List N} {d : C}
    (hs : ∀ n, (st.lab n).prev ≠ some n) (hb : Back A cfg.start st.lab cur l d) :
    ∀ gs : List N, (expansionLoop cfg cur st gs = .ok none) ∨
      ∃ g ∈ gs, ∃ e, cfg.canExpand st.expansions cur g = some e ∧ expansionLoop cfg cur st gs = .ok (some (l ++ e)) := by
  intro gs
  induction gs with
  | nil => left; rfl
  | cons g gs ih =>
    rw [expansionLoop]
    cases he : cfg.canExpand st.expansions cur g with
    | some e =>
      right
      have hns : cur ∉ cfg.start := fun hs => by rw [hx.start _ _ _ hs] at he; cases he
      have hne := hx.nonempty _ _ _ _ he
      refine ⟨g, by simp, e, he, ?_⟩
      cases e with
      | nil => exact absurd rfl hne
      | cons a e => simp [hb.backtrackCopy hs hns]
    | none =>
      rcases ih with h1 | ⟨g', hg', e, h1, h3⟩
      · left; exact h1
      · right; exact ⟨g', List.mem_cons_of_mem _ hg', e, h1, h3⟩

theorem hist_poseTest {cfg : SCfg N C} (hx : ExpansionOk cfg) (st : SSt N C P) (cur : N) {l : List N} {d : C}
    (hs : ∀ n, (st.lab n).prev ≠ some n) (hb : Back A cfg.start st.lab cur l d) :
    ∃ t, poseTest A cfg st cur = .ok t ∧ t.st.lab = st.lab ∧ t.st.opn = st.opn ∧
      (∀ x ∈ st.cands, x ∈ t.st.cands) ∧
      (∀ x ∈ t.st.cands, x ∈ st.cands ∨ (x.1 = cur ∧ GoodCand A cfg cur x.2)) ∧
      (t.term = true → t.result ≠ [] ∧ PoseRes A cfg l cur t.result) ∧
      (t.term = false → InGoalRegion A cfg.goal cur → t.st.cands ≠ []) := by
  unfold poseTest
  rcases hist_expansionLoop hx hs hb cfg.goal with h1 | ⟨g, hg, e, h1, h3⟩
  · rw [h1]
    simp only [CRes.ok_bind]
    obtain ⟨t, g1, g2, g3, g4, g5, g6, g7⟩ := hist_goalLoop (A := A) (P := P) (cur := cur) cfg.goal st (fun g hg => hg) hs hb
    refine ⟨t, g1, g2, g3, g4, g5, fun ht => ?_, fun ht ⟨g, hg, hgg⟩ => g7 ht g hg hgg⟩
    obtain ⟨h6, h7⟩ := g6 ht
    exact ⟨by rw [h6]; exact hb.ne_nil, .inl ⟨h6, h7⟩⟩
  · rw [h3]
    simp only [CRes.ok_bind, CRes.pure_eq]
    exact ⟨_, rfl, rfl, rfl, fun x hx => hx, fun x hx => .inl hx,
      fun _ => ⟨by simp [hb.ne_nil], .inr ⟨g, hg, _, e, h1, rfl⟩⟩, fun h => by simp at h⟩

theorem hist_pose_ok {cfg : SCfg N C} (hx : ExpansionOk cfg) :
    HTestOk A P cfg.start (GoodCand A cfg) (PoseRes A cfg) (poseTest A cfg) where
  out st cur l d hs hb := by
    obtain ⟨t, h1, h2, h3, _, h5, h6, _⟩ := hist_poseTest (A := A) hx st cur hs hb
    exact ⟨t, h1, h2, h3, h5, fun a _ => (h6 a).2⟩

theorem hist_custom_ok (T : GoalTest N C P) (start : List N) :
    HTestOk A P start (Accepts T) (fun _ _ _ => False) (customTest A T) where
  out st cur l d _ _ := by
    obtain ⟨t, h1, h2, h3, _, h5, _, _, h8, _⟩ := customTest_spec (A := A) T st cur
    refine ⟨t, h1, h2, h3, ?_, fun _ h => absurd h5 h⟩
    intro x hx
    rcases h8 x hx with h | ⟨h, h'⟩
    · exact .inl h
    · exact .inr ⟨h, st, h'⟩

/-! ### Histories -/

variable {S start : List N} {lab0 lab : Labels N C}

theorem Back.closer (ok : CostOk A) (s0 : ∀ s ∈ start, (lab s).dist = (A.zero : WithTop C)) {n l d}
    (h : Back A start lab n l d) (ht : ∀ m ∈ l, Touched start lab0 lab m) : CloserWalk A start lab0 n l d := by
  induction h with
  | start hs => exact .start hs
  | @step n p l d c hn hp hb he hle ih =>
    refine .step (ih fun m hm => ht m (List.mem_append_left _ hm)) he ?_
    have h1 := Back.cost_le ok s0 (.step hn hp hb he hle)
    rcases ht n (by simp) with h | h
    · exact absurd h hn
    · exact h1.trans_lt h

theorem CloserWalk.walk {n l d} (h : CloserWalk A start lab0 n l d) : WalkTo A start n l d := by
  induction h with
  | start hs => exact .start hs
  | step _ he _ ih => exact .step ih he

theorem CloserWalk.last {n l d} (h : CloserWalk A start lab0 n l d) : n ∈ start ∨ (d : WithTop C) < (lab0 n).dist := by
  cases h with
  | start hs => exact .inl hs
  | step _ _ h => exact .inr h

theorem hist_fresh : Hist A S (freshLabels A) where
  low n := by simp [freshLabels, Label.fresh]
  reach n := by simp [freshLabels, Label.fresh]
  nself n := by simp [freshLabels, Label.fresh]
  cost n := by simp [freshLabels, Label.fresh]

theorem hist_find (ok : CostOk A) (L : Lawful P) (h : Hist A S lab) (cfg : SCfg N C) (hS : ∀ s ∈ cfg.start, s ∈ S) (ht : TopOk cfg.top) (hx : ExpansionOk cfg) :
    ∃ fuel r st', findPathNodes A P cfg lab fuel = some (r, st') ∧ HDone A S cfg lab (GoodCand A cfg) (PoseRes A cfg) r st' := by
  obtain ⟨h1, h2⟩ := hist_init (P := P) L cfg h hS
  exact hist_loop ok ht (hist_pose_ok hx) _ h1 (by rw [h2]; simp)

theorem hist_test (ok : CostOk A) (L : Lawful P) (h : Hist A S lab) (cfg : SCfg N C) (hS : ∀ s ∈ cfg.start, s ∈ S) (ht : TopOk cfg.top) (T : GoalTest N C P) :
    ∃ fuel r st', findPathCustom A P cfg T lab fuel = some (r, st') ∧
      HDone A S (customCfg cfg T) lab (Accepts T) (fun _ _ _ => False) r st' := by
  obtain ⟨h1, h2⟩ := hist_init (P := P) L (customCfg cfg T) h hS
  exact hist_loop (cfg := customCfg cfg T) ok ht (hist_custom_ok T cfg.start) _ h1 (by
    intro x hx
    have hx' : x ∈ (initSearch A P (customCfg cfg T) lab).cands := hx
    rw [h2] at hx'; cases hx')

/-- The invariant holds after every history. -/
theorem Used.hist (ok : CostOk A) (L : Lawful P) (h : Used A P S lab) : Hist A S lab := by
  induction h with
  | setMap => exact hist_fresh
  | @find S lab cfg fuel r st _ ht hx hrun ih =>
    obtain ⟨f, r', st', h1, h2⟩ := hist_find ok L (ih.mono fun s hs => List.mem_append_right _ hs) cfg (fun s hs => List.mem_append_left _ hs) ht hx
    have := searchLoop_fuel _ _ _ _ _ hrun h1
    simp only [Prod.mk.injEq] at this
    rw [this.2]; exact h2.core.toHist
  | @test S lab cfg fuel r st T _ ht hrun ih =>
    obtain ⟨f, r', st', h1, h2⟩ := hist_test ok L (ih.mono fun s hs => List.mem_append_right _ hs) cfg (fun s hs => List.mem_append_left _ hs) ht T
    have := searchLoop_fuel _ _ _ _ _ hrun h1
    simp only [Prod.mk.injEq] at this
    rw [this.2]; exact h2.core.toHist

theorem Used.histAt (ok : CostOk A) (L : Lawful P) (h : Used A P S lab) (ss : List N) : Hist A (ss ++ S) lab :=
  (h.hist ok L).mono fun s hs => List.mem_append_right _ hs

/-- **C80 (stored costs).**  After any history the cost stored at a node is the cost of a walk from a start node of one of the searches made
so far, or infinite. -/
theorem used_dist (ok : CostOk A) (L : Lawful P) (h : Used A P S lab) (n : N) (hn : (lab n).dist ≠ ⊤) :
    ∃ d, Reach A S n d ∧ (lab n).dist = (d : WithTop C) := (h.hist ok L).cost n hn

/-- **C80 (searches between poses).**  After any history, every further search ends, without undefined behaviour; its result is empty
or a walk of free neighbours from one of *its* start nodes that ends in *its* goal region (or is continued by an analytic expansion), and
the walk comes to each of its nodes at a cost smaller than every earlier search since `setMap` did. -/
theorem later_search_sound (ok : CostOk A) (L : Lawful P) (h : Used A P S lab) (cfg : SCfg N C) (ht : TopOk cfg.top)
    (hx : ExpansionOk cfg) :
    ∃ fuel p st', findPathNodes A P cfg lab fuel = some (.ok p, st') ∧ (p = [] ∨ LaterPath A cfg lab p) ∧
      (∀ n, (st'.lab n).dist ≤ (lab n).dist) := by
  obtain ⟨fuel, r, st', h1, h2⟩ := hist_find ok L (h.histAt ok L cfg.start) cfg (fun s hs => List.mem_append_left _ hs) ht hx
  obtain ⟨p, rfl, hcase⟩ := h2.res
  refine ⟨fuel, p, st', h1, ?_, h2.core.le0⟩
  rcases hcase with ⟨h3, _⟩ | ⟨cur, l, d, _, hb, htl, hr⟩ | ⟨x, l, d, hx1, _, hb, htl, rfl⟩
  · exact .inl h3
  · exact .inr ⟨cur, l, d, hb.closer ok h2.core.s0 htl, hr⟩
  · obtain ⟨g, hg, hgg, _⟩ := h2.good x hx1
    exact .inr ⟨x.1, p, d, hb.closer ok h2.core.s0 htl, .inl ⟨rfl, g, hg, hgg⟩⟩

/-- A later path is in particular a valid one. -/
theorem LaterPath.valid {cfg : SCfg N C} {p : List N} (h : LaterPath A cfg lab p) : ValidPath A cfg p := by
  obtain ⟨t, l, d, h1, h2⟩ := h
  exact ⟨t, l, d, h1.walk, h2⟩

/-- **C80 (searches with a goal test).** -/
theorem later_custom_sound (ok : CostOk A) (L : Lawful P) (h : Used A P S lab) (cfg : SCfg N C) (ht : TopOk cfg.top)
    (T : GoalTest N C P) :
    ∃ fuel p st', findPathCustom A P cfg T lab fuel = some (.ok p, st') ∧ (∀ x ∈ st'.cands, Accepts T x.1 x.2) ∧
      ((p = [] ∧ st'.cands = []) ∨
        ∃ t w d, CloserWalk A cfg.start lab t p d ∧ (t, w) ∈ st'.cands ∧ ∀ y ∈ st'.cands, w ≤ y.2) := by
  obtain ⟨fuel, r, st', h1, h2⟩ := hist_test ok L (h.histAt ok L cfg.start) cfg (fun s hs => List.mem_append_left _ hs) ht T
  obtain ⟨p, rfl, hcase⟩ := h2.res
  refine ⟨fuel, p, st', h1, h2.good, ?_⟩
  rcases hcase with h3 | ⟨cur, l, d, _, hb, htl, hr⟩ | ⟨x, l, d, hx1, hx2, hb, htl, rfl⟩
  · exact .inl h3
  · exact hr.elim
  · exact .inr ⟨x.1, x.2, d, hb.closer ok h2.core.s0 htl, hx1, hx2⟩

theorem hist_candidatePaths {cfg : SCfg N C} (ht : TopOk cfg.top) {lab : Labels N C} (hc : HCore A S cfg.start lab0 lab) :
    ∀ (n : Nat) (cs : List (N × C)), cs.length = n → (∀ x ∈ cs, Touched cfg.start lab0 lab x.1) →
      ∃ ps qs, candidatePaths cfg lab n cs = .ok ps ∧ qs.Perm cs ∧ qs.Pairwise (fun x y => x.2 ≤ y.2) ∧
        PathsTo A cfg.start ps qs := by
  intro n
  induction n with
  | zero =>
    intro cs hl _
    rw [List.length_eq_zero_iff] at hl
    subst hl
    exact ⟨[], [], rfl, .refl _, .nil, .nil⟩
  | succ n ih =>
    intro cs hl hcl
    rw [candidatePaths]
    cases htop : cfg.top cs with
    | none => rw [(ht.none_iff cs).1 htop] at hl; simp at hl
    | some x =>
      have hx := ht.mem _ _ htop
      obtain ⟨l, d, hb, _⟩ := hc.back x.1 (hcl x hx)
      have hbt := hb.backtrack hc.nself
      obtain ⟨ps, qs, h1, h2, h3, h4⟩ := ih (cs.erase x) (by rw [List.length_erase_of_mem hx]; omega)
        (fun y hy => hcl y (List.mem_of_mem_erase hy))
      refine ⟨l :: ps, x :: qs, ?_, ?_, ?_, .cons ⟨d, hb.walk⟩ h4⟩
      · simp only [hbt, CRes.ok_bind, h1, CRes.pure_eq]
      · exact (h2.cons x).trans (List.perm_cons_erase hx).symm
      · refine List.pairwise_cons.2 ⟨?_, h3⟩
        intro y hy
        exact ht.min _ _ htop y (List.mem_of_mem_erase (h2.subset hy))

/-- **C80 (candidates).**  After any history and a further search with a goal test `getPathCandidates` lists one path for every node that
search accepted. -/
theorem later_candidates (ok : CostOk A) (L : Lawful P) (h : Used A P S lab) (cfg : SCfg N C) (ht : TopOk cfg.top)
    (T : GoalTest N C P) {fuel : Nat} {r} {st' : SSt N C P} (hrun : findPathCustom A P cfg T lab fuel = some (r, st')) :
    ∃ ps qs, getPathCandidates cfg st' = .ok ps ∧ qs.Perm st'.cands ∧ qs.Pairwise (fun x y => x.2 ≤ y.2) ∧
      PathsTo A cfg.start ps qs := by
  obtain ⟨f, r', st2, h1, h2⟩ := hist_test ok L (h.histAt ok L cfg.start) cfg (fun s hs => List.mem_append_left _ hs) ht T
  have := searchLoop_fuel _ _ _ _ _ hrun h1
  simp only [Prod.mk.injEq] at this
  obtain ⟨rfl, rfl⟩ := this
  exact hist_candidatePaths (cfg := cfg) ht h2.core _ _ rfl h2.cands

/-- **C80 (candidates of searches between poses).** -/
theorem later_pose_candidates (ok : CostOk A) (L : Lawful P) (h : Used A P S lab) (cfg : SCfg N C) (ht : TopOk cfg.top)
    (hx : ExpansionOk cfg) {fuel : Nat} {r} {st' : SSt N C P} (hrun : findPathNodes A P cfg lab fuel = some (r, st')) :
    ∃ ps qs, getPathCandidates cfg st' = .ok ps ∧ qs.Perm st'.cands ∧ qs.Pairwise (fun x y => x.2 ≤ y.2) ∧
      PathsTo A cfg.start ps qs ∧ ∀ x ∈ qs, ∃ g ∈ cfg.goal, A.isGoal g x.1 = true ∧ x.2 = A.distTo g x.1 := by
  obtain ⟨f, r', st2, h1, h2⟩ := hist_find ok L (h.histAt ok L cfg.start) cfg (fun s hs => List.mem_append_left _ hs) ht hx
  have := searchLoop_fuel _ _ _ _ _ hrun h1
  simp only [Prod.mk.injEq] at this
  obtain ⟨rfl, rfl⟩ := this
  obtain ⟨ps, qs, k1, k2, k3, k4⟩ := hist_candidatePaths (cfg := cfg) ht h2.core _ _ rfl h2.cands
  exact ⟨ps, qs, k1, k2, k3, k4, fun x hx => h2.good x (k2.subset hx)⟩

/-! ### Which paths a later search finds -/

/-- Nodes entered by this search are waiting or have been expanded; expanded nodes were not in the goal region. -/
structure HAll (A : Algo N C) (L : Lawful P) (S : List N) (cfg : SCfg N C) (lab0 : Labels N C) (st : SSt N C P) : Prop
    extends HInv A L S cfg.start lab0 st where
  all : ∀ n, Touched cfg.start lab0 st.lab n → L.mem st.opn n ∨
    (∀ v c, (v, c) ∈ A.succ n → (st.lab v).dist ≤ A.addW (st.lab n).dist c)
  done : ∀ n, Touched cfg.start lab0 st.lab n → L.mem st.opn n ∨ (InGoalRegion A cfg.goal n → st.cands ≠ [])

theorem hall_fold (ok : CostOk A) {L : Lawful P} {cfg : SCfg N C} {cur : N} :
    ∀ (es done : List (N × C)) (st : SSt N C P), HInv A L S cfg.start lab0 st → Touched cfg.start lab0 st.lab cur →
      (∀ e ∈ es, e ∈ A.succ cur) →
      (∀ n, n ≠ cur → Touched cfg.start lab0 st.lab n → L.mem st.opn n ∨
        (∀ v c, (v, c) ∈ A.succ n → (st.lab v).dist ≤ A.addW (st.lab n).dist c)) →
      (∀ n, Touched cfg.start lab0 st.lab n → L.mem st.opn n ∨ (InGoalRegion A cfg.goal n → st.cands ≠ [])) →
      (∀ e ∈ done, (st.lab e.1).dist ≤ A.addW (st.lab cur).dist e.2) →
      let st' := es.foldl (fun s e => processNeighbor A cfg.goal s cur e.1 e.2) st
      (∀ n, n ≠ cur → Touched cfg.start lab0 st'.lab n → L.mem st'.opn n ∨
        (∀ v c, (v, c) ∈ A.succ n → (st'.lab v).dist ≤ A.addW (st'.lab n).dist c)) ∧
      (∀ n, Touched cfg.start lab0 st'.lab n → L.mem st'.opn n ∨ (InGoalRegion A cfg.goal n → st'.cands ≠ [])) ∧
      (∀ e ∈ done ++ es, (st'.lab e.1).dist ≤ A.addW (st'.lab cur).dist e.2) := by
  intro es
  induction es with
  | nil => intro done st _ _ _ h4 h5 h6; rw [List.append_nil]; exact ⟨h4, h5, h6⟩
  | cons e es ih =>
    intro done st h1 h2 h3 h4 h5 h6
    obtain ⟨g1, g2, g3, g4, _, _⟩ := h1.process (goal := cfg.goal) ok (nb := e.1) (c := e.2) h2 (h3 e List.mem_cons_self)
    obtain ⟨_, _, _, hcase⟩ := process_cases_of (A := A) (goal := cfg.goal) h1.core.reach (nb := e.1) (c := e.2) (h1.core.fin h2)
    have := ih (done ++ [e]) _ g1 g2 (fun x hx => h3 x (List.mem_cons_of_mem _ hx)) ?_ ?_ ?_
    · rw [List.append_assoc] at this; exact this
    · intro n hn ht
      rcases hcase with ⟨_, hop, hsame⟩ | ⟨hcl, hop, hv, _, _, hother⟩
      · have ht' : Touched cfg.start lab0 st.lab n := ht.le (hsame n).1.1.ge
        rw [hop]
        rcases h4 n hn ht' with h | h
        · exact .inl h
        · right; intro v c hv; rw [(hsame v).1.1, (hsame n).1.1]; exact h v c hv
      · rw [hop]
        by_cases e1 : n = e.1
        · exact .inl ((L.add_mem _ _ _ _).2 (.inl e1))
        · have ht' : Touched cfg.start lab0 st.lab n := ht.le (by rw [hother n e1])
          rcases h4 n hn ht' with h | h
          · exact .inl ((L.add_mem _ _ _ _).2 (.inr h))
          · right; intro v c hv'
            exact (g3 v).trans ((h v c hv').trans (by rw [hother n e1]))
    · intro n ht
      rw [g4]
      rcases hcase with ⟨_, hop, hsame⟩ | ⟨hcl, hop, hv, _, _, hother⟩
      · rw [hop]; exact h5 n (ht.le (hsame n).1.1.ge)
      · rw [hop]
        by_cases e1 : n = e.1
        · exact .inl ((L.add_mem _ _ _ _).2 (.inl e1))
        · rcases h5 n (ht.le (by rw [hother n e1])) with h | h
          · exact .inl ((L.add_mem _ _ _ _).2 (.inr h))
          · exact .inr h
    · have hcur : ((processNeighbor A cfg.goal st cur e.1 e.2).lab cur).dist = (st.lab cur).dist := by
        rcases hcase with ⟨_, _, hsame⟩ | ⟨hcl, _, _, _, _, hother⟩
        · exact (hsame cur).1.1
        · have : cur ≠ e.1 := by
            intro e1
            rw [← e1] at hcl
            exact absurd (le_addW ok (v := e.1) (c := e.2) (h3 e List.mem_cons_self) _) (not_le.2 hcl)
          rw [hother cur this]
      intro x hx
      rw [hcur]
      rcases List.mem_append.1 hx with hx | hx
      · exact (g3 _).trans (h6 x hx)
      · rw [List.mem_singleton.1 hx]
        rcases hcase with ⟨hncl, _, hsame⟩ | ⟨_, _, hv, _⟩
        · rw [(hsame e.1).1.1]; exact not_lt.1 hncl
        · rw [hv.1]

theorem HAll.pres (ok : CostOk A) {L : Lawful P} {cfg : SCfg N C} (hx : ExpansionOk cfg) {st st' : SSt N C P}
    (h : HAll A L S cfg lab0 st) (hi : iterate A cfg (poseTest A cfg) st = .more st') : HAll A L S cfg lab0 st' := by
  obtain ⟨cur, o, t, hn, _, ht1, hterm, _, rfl⟩ := iterate_more hi
  obtain ⟨hX, hcur, hd, hcs⟩ := h.toHInv.pop hn
  obtain ⟨_, hsub, hsup⟩ := L.next_some _ _ _ hn
  obtain ⟨l, d, hb, _⟩ := hX.core.back cur hcur
  obtain ⟨t', g1, g2, g3, g4, g5, _, g7⟩ := hist_poseTest (A := A) hx (popNode A cfg st cur o) cur hX.core.nself hb
  rw [ht1] at g1; cases g1
  have hopn : t.st.opn = o := g3
  have hT : HInv A L S cfg.start lab0 t.st := by
    refine ⟨by rw [g2]; exact hX.core, by rw [g2, g3]; exact hX.mem, ?_⟩
    intro x hx1
    rw [g2]
    rcases g5 x hx1 with h1 | h1
    · exact hX.cands x h1
    · rw [h1.1]; exact hcur
  have hcur' : Touched cfg.start lab0 t.st.lab cur := by rw [g2]; exact hcur
  have hdt : ∀ n, (t.st.lab n).dist = (st.lab n).dist := fun n => by rw [g2]; exact hd n
  have hback : ∀ n, Touched cfg.start lab0 t.st.lab n → Touched cfg.start lab0 st.lab n := fun n hn => hn.le (hdt n).ge
  obtain ⟨k1, k2, k3⟩ := hall_fold ok (A.succ cur) [] t.st hT hcur' (fun e he => he) (by
      intro n hne htn
      rcases h.all n (hback n htn) with h1 | h1
      · rcases hsup n h1 with e | h2
        · exact absurd e hne
        · exact .inl (by rw [hopn]; exact h2)
      · right; intro v c hv; rw [hdt v, hdt n]; exact h1 v c hv) (by
      intro n htn
      by_cases e : n = cur
      · subst e; exact .inr (g7 hterm)
      · rcases h.done n (hback n htn) with h1 | h1
        · rcases hsup n h1 with e' | h2
          · exact absurd e' e
          · exact .inl (by rw [hopn]; exact h2)
        · right; intro hg hnil
          obtain ⟨x, hx1⟩ := List.exists_mem_of_ne_nil _ (h1 hg)
          have := g4 x (by rw [hcs]; exact hx1)
          rw [hnil] at this; cases this) (by simp)
  obtain ⟨f1, _⟩ := HInv.fold (goal := cfg.goal) ok (A.succ cur) _ hT hcur' (fun e he => he)
  refine ⟨f1, ?_, k2⟩
  intro n htn
  by_cases e : n = cur
  · subst e; right; intro v c hv; exact k3 (v, c) (by simpa using hv)
  · exact k1 n e htn

theorem HAll.init (L : Lawful P) (cfg : SCfg N C) (h : Hist A S lab) (hS : ∀ s ∈ cfg.start, s ∈ S) :
    HAll A L S cfg lab (initSearch A P cfg lab) := by
  obtain ⟨h1, h2⟩ := hist_init (P := P) L cfg h hS
  have hm : ∀ n, Touched cfg.start lab (initSearch A P cfg lab).lab n → L.mem (initSearch A P cfg lab).opn n := by
    have key : ∀ (ss done : List N) (st : SSt N C P), (∀ n ∈ done, L.mem st.opn n) →
        (∀ n, n ∉ done → (st.lab n).dist = (lab n).dist) →
        (∀ n ∈ done ++ ss, L.mem (ss.foldl (addStart A) st).opn n) ∧
        (∀ n, n ∉ done ++ ss → ((ss.foldl (addStart A) st).lab n).dist = (lab n).dist) := by
      intro ss
      induction ss with
      | nil => intro done st h1 h2; simpa using ⟨h1, h2⟩
      | cons s ss ih =>
        intro done st h1 h2
        have := ih (done ++ [s]) (addStart A st s) ?_ ?_
        · simpa using this
        · intro n hn
          refine (L.add_mem _ _ _ _).2 ?_
          rcases List.mem_append.1 hn with hn | hn
          · exact .inr (h1 n hn)
          · exact .inl (List.mem_singleton.1 hn)
        · intro n hn
          simp only [List.mem_append, List.mem_singleton, not_or] at hn
          have : (addStart A st s).lab n = st.lab n := setLab_ne _ _ hn.2
          rw [this]; exact h2 n hn.1
    obtain ⟨k1, k2⟩ := key cfg.start []
      { lab := lab, opn := P.empty, cands := [], firstW := (A.zero : WithTop C),
        expansions := 0, multi := 0, touched := 0, updates := 0 } (by simp) (by intro n _; rfl)
    simp only [List.nil_append] at k1 k2
    intro n hn
    by_cases hs : n ∈ cfg.start
    · exact k1 n hs
    · rcases hn with hn | hn
      · exact absurd hn hs
      · exact absurd hn (k2 n hs).not_lt
  exact ⟨h1, fun n hn => .inl (hm n hn), fun n hn => .inl (hm n hn)⟩

/-- **C80 (completeness).**  Without a time limit a further search misses nothing but the paths on which some node has already been reached
as cheaply before: an empty result means that no closer walk ends in the goal region. -/
theorem later_search_complete (ok : CostOk A) (L : Lawful P) (h : Used A P S lab) (cfg : SCfg N C) (ht : TopOk cfg.top)
    (hx : ExpansionOk cfg) (hab : ∀ k, cfg.abort k = false) {fuel : Nat} {st' : SSt N C P}
    (hrun : findPathNodes A P cfg lab fuel = some (.ok [], st')) :
    ¬ ∃ t l d, CloserWalk A cfg.start lab t l d ∧ InGoalRegion A cfg.goal t := by
  rintro ⟨n, l, d, hw, hgn⟩
  have hH := h.histAt ok L cfg.start
  obtain ⟨f, r, st2, hr, hD⟩ := hist_find ok L hH cfg (fun s hs => List.mem_append_left _ hs) ht hx
  have := searchLoop_fuel _ _ _ _ _ hrun hr
  simp only [Prod.mk.injEq] at this
  obtain ⟨rfl, rfl⟩ := this
  obtain ⟨st1, hI, hi⟩ := run_last (I := HAll A L (cfg.start ++ S) cfg lab) (fun st st2 h hi => HAll.pres ok hx h hi) fuel _ st' _ hrun
    (HAll.init L cfg hH (fun s hs => List.mem_append_left _ hs))
  have hfin : ∀ st : SSt N C P, HInv A L (cfg.start ++ S) cfg.start lab st → finish cfg st = .ok [] → st.cands = [] := by
    intro st hst hf
    by_contra hne
    unfold finish at hf
    cases htop : cfg.top st.cands with
    | none => exact hne ((ht.none_iff _).1 htop)
    | some x =>
      obtain ⟨l, d, hb, _⟩ := hst.core.back x.1 (hst.cands x (ht.mem _ _ htop))
      rw [htop] at hf
      simp only [hb.backtrack hst.core.nself] at hf
      cases hf
      exact hb.ne_nil rfl
  rcases iterate_done hi with ⟨hn, rfl, h3⟩ | ⟨h3, _⟩ | ⟨cur, o, hn, h3⟩
  · have hno : ∀ m, ¬ L.mem st'.opn m := (L.next_none _).1 hn
    have key : ∀ {n l d}, CloserWalk A cfg.start lab n l d →
        Touched cfg.start lab st'.lab n ∧ (st'.lab n).dist ≤ (d : WithTop C) := by
      intro n l d hw
      induction hw with
      | start hs => exact ⟨.inl hs, (hI.core.s0 _ hs).le⟩
      | @step u v l d c hw he hlt ih =>
        obtain ⟨h1, h2⟩ := ih
        have h4 : (st'.lab v).dist ≤ ((A.add d c : C) : WithTop C) :=
          ((hI.all u h1).resolve_left (hno u) v c he).trans (addW_mono ok h2 c)
        exact ⟨.inr (h4.trans_lt hlt), h4⟩
    exact (hI.done n (key hw).1).resolve_left (hno n) hgn (hfin _ hI.toHInv h3.symm)
  · rw [hab] at h3; cases h3
  · obtain ⟨hX, hcur, hd, hcs⟩ := hI.toHInv.pop hn
    obtain ⟨l, d, hb, _⟩ := hX.core.back cur hcur
    obtain ⟨t, g1, g2, g3, g4, g5, g6, g7⟩ := hist_poseTest (A := A) hx (popNode A cfg st1 cur o) cur hX.core.nself hb
    have hT : HInv A L (cfg.start ++ S) cfg.start lab t.st := by
      refine ⟨by rw [g2]; exact hX.core, by rw [g2, g3]; exact hX.mem, ?_⟩
      intro x hx1
      rw [g2]
      rcases g5 x hx1 with h1 | h1
      · exact hX.cands x h1
      · rw [h1.1]; exact hcur
    rw [g1] at h3
    rcases h3 with ⟨h, _⟩ | ⟨e, h, _⟩ | ⟨t', h, rfl, h3⟩
    · cases h
    · cases h
    · cases h
      rcases h3 with ⟨_, h5, h6⟩ | ⟨h4, h5, _⟩ | ⟨_, _, h5, _, h6⟩
      · exact h5 (CRes.ok.inj h6).symm
      · exact (g6 h4).1 h5
      · exact h5 (hfin _ hT h6.symm)

/-- **C80 (exact condition).**  Without a time limit and without analytic expansion, a further search finds a path exactly if a closer walk
ends in its goal region. -/
theorem later_search_iff (ok : CostOk A) (L : Lawful P) (h : Used A P S lab) (cfg : SCfg N C) (ht : TopOk cfg.top)
    (hx : ∀ k n g, cfg.canExpand k n g = none) (hab : ∀ k, cfg.abort k = false) :
    ∃ fuel p st', findPathNodes A P cfg lab fuel = some (.ok p, st') ∧
      (p ≠ [] ↔ ∃ t l d, CloserWalk A cfg.start lab t l d ∧ InGoalRegion A cfg.goal t) := by
  have hx' : ExpansionOk cfg := ⟨fun k s g _ => hx k s g, fun k n g e he => by rw [hx] at he; cases he⟩
  obtain ⟨fuel, p, st', h1, h2, _⟩ := later_search_sound ok L h cfg ht hx'
  refine ⟨fuel, p, st', h1, fun hp => ?_, fun hw hp => ?_⟩
  · rcases h2 with h2 | ⟨t, l, d, hw, ⟨_, hg⟩ | ⟨g, _, k, e, he, _⟩⟩
    · exact absurd h2 hp
    · exact ⟨t, l, d, hw, hg⟩
    · rw [hx] at he; cases he
  · subst hp
    exact later_search_complete ok L h cfg ht hx' hab h1 hw

end PathPlanning
