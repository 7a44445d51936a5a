import Verif.Spec.KinSearch
import Verif.Lemmas.SearchTest

/-!
# Invariants of the search over nodes with stored poses: structure of the labels
-/

namespace PathPlanning
set_option linter.unusedSectionVars false

variable {N K C : Type} [DecidableEq N] [LinearOrder C] [Fintype N]

/-! ### Algorithms that differ in heuristic and goal test only -/

/-- The two algorithms have the same arithmetic and neighbours. -/
structure SameArith (A B : Algo N C) : Prop where
  zero : A.zero = B.zero
  add : A.add = B.add
  succ : A.succ = B.succ

theorem SameArith.symm {A B : Algo N C} (h : SameArith A B) : SameArith B A :=
  ⟨h.zero.symm, h.add.symm, h.succ.symm⟩

theorem SameArith.addW {A B : Algo N C} (h : SameArith A B) (d : WithTop C) (c : C) :
    A.addW d c = B.addW d c := by
  unfold Algo.addW; rw [h.add]

theorem SameArith.back {A B : Algo N C} (h : SameArith A B) {start : List N} {lab : Labels N C}
    {n l d} (hb : Back A start lab n l d) : Back B start lab n l d := by
  induction hb with
  | start hs => rw [h.zero]; exact .start hs
  | step hn hp _ he hle ih =>
    rw [h.add]
    exact .step hn hp ih (by rw [← h.succ]; exact he) (by rw [← h.addW]; exact hle)

theorem SameArith.reach {A B : Algo N C} (h : SameArith A B) {start : List N} {n d}
    (hr : Reach A start n d) : Reach B start n d := by
  induction hr with
  | start hs => rw [h.zero]; exact .start hs
  | step _ he ih => rw [h.add]; exact .step ih (by rw [← h.succ]; exact he)

theorem SameArith.walkCosts {A B : Algo N C} (h : SameArith A B) (k : Nat) :
    walkCosts A k = walkCosts B k := by
  induction k with
  | zero => simp only [PathPlanning.walkCosts, h.zero]
  | succ k ih => simp only [PathPlanning.walkCosts, ih, h.succ, h.add]

theorem SameArith.core {A B : Algo N C} (h : SameArith A B) {start : List N} {lab : Labels N C}
    (hc : Core A start lab) : Core B start lab where
  s0 s hs := by rw [← h.zero]; exact hc.s0 s hs
  sp := hc.sp
  low n := by rw [← h.zero]; exact hc.low n
  back n hn := by
    obtain ⟨l, d, hb⟩ := hc.back n hn
    exact ⟨l, d, h.back hb⟩
  reach := hc.reach
  small n hn := by
    obtain ⟨S, k, d, h1, h2, h3, h4, h5⟩ := hc.small n hn
    exact ⟨S, k, d, h1, h2, h3, by rw [← h.walkCosts]; exact h4, h5⟩
  walk n d hn := h.reach (hc.walk n d hn)

/-- The operations of `A.alg` with every node a neighbour of every node, at every cost of `cs`. -/
noncomputable def KAlgo.full (A : KAlgo N K C) (cs : List C) (lab : Labels N C) (kin : N → K) : Algo N C :=
  { A.alg lab kin with succ := fun _ => (Finset.univ : Finset N).toList.product cs }

theorem KAlgo.full_succ (A : KAlgo N K C) {cs : List C} {lab : Labels N C} {kin : N → K} {u v : N} {c : C}
    (hc : c ∈ cs) : (v, c) ∈ (A.full cs lab kin).succ u := by
  simp only [KAlgo.full]
  rw [List.pair_mem_product]
  exact ⟨by simp, hc⟩

theorem KAlgo.mem_succ (A : KAlgo N K C) {cs : List C} {lab : Labels N C} {kin : N → K} {u v : N} {c : C}
    (h : (v, c) ∈ (A.full cs lab kin).succ u) : c ∈ cs := by
  simp only [KAlgo.full] at h
  rw [List.pair_mem_product] at h
  exact h.2

theorem KAlgo.sameArith (A : KAlgo N K C) (cs : List C) (lab lab' : Labels N C) (kin kin' : N → K) :
    SameArith (A.full cs lab kin) (A.full cs lab' kin') := ⟨rfl, rfl, rfl⟩

theorem Spec.KCostOk.full {A : KAlgo N K C} {cs : List C} (ok : Spec.KCostOk A cs) (lab : Labels N C)
    (kin : N → K) : CostOk (A.full cs lab kin) where
  infl u v c h a := ok.infl c (A.mem_succ h) a
  mono := ok.mono

/-- The structural invariant of the labels, for the algorithm with all neighbours. -/
def KCore (A : KAlgo N K C) (cs : List C) (start : List N) (lab : Labels N C) : Prop :=
  ∀ lab' kin, Core (A.full cs lab' kin) start lab

theorem KCore.of {A : KAlgo N K C} {cs : List C} {start : List N} {lab : Labels N C} {lab' kin}
    (h : Core (A.full cs lab' kin) start lab) : KCore A cs start lab :=
  fun lab2 kin2 => (A.sameArith cs lab' lab2 kin kin2).core h

/-- Addition of a cost to a distance. -/
def KAlgo.addW (A : KAlgo N K C) (d : WithTop C) (c : C) : WithTop C := d.map (fun a => A.add a c)

theorem KAlgo.full_addW (A : KAlgo N K C) (cs : List C) (lab : Labels N C) (kin : N → K) (d : WithTop C)
    (c : C) : (A.full cs lab kin).addW d c = A.addW d c := rfl

theorem KAlgo.alg_addW (A : KAlgo N K C) (lab : Labels N C) (kin : N → K) (d : WithTop C)
    (c : C) : (A.alg lab kin).addW d c = A.addW d c := rfl

theorem KAlgo.addW_coe (A : KAlgo N K C) (a c : C) :
    A.addW (a : WithTop C) c = ((A.add a c : C) : WithTop C) := rfl

theorem KAlgo.addW_eq_top (A : KAlgo N K C) {d : WithTop C} {c : C} : A.addW d c = ⊤ ↔ d = ⊤ := by
  cases d with
  | top => simp [KAlgo.addW]
  | coe a => simp [KAlgo.addW_coe]

theorem Spec.KCostOk.le_addW {A : KAlgo N K C} {cs : List C} (ok : Spec.KCostOk A cs) {c : C} (hc : c ∈ cs)
    (d : WithTop C) : d ≤ A.addW d c := by
  cases d with
  | top => simp [KAlgo.addW]
  | coe a => rw [KAlgo.addW_coe]; exact_mod_cast ok.infl c hc a

theorem Spec.KCostOk.addW_mono {A : KAlgo N K C} {cs : List C} (ok : Spec.KCostOk A cs) {d e : WithTop C}
    (h : d ≤ e) (c : C) : A.addW d c ≤ A.addW e c := by
  cases e with
  | top => simp [KAlgo.addW]
  | coe b =>
    cases d with
    | top => simp at h
    | coe a =>
      rw [KAlgo.addW_coe, KAlgo.addW_coe]
      exact_mod_cast ok.mono a b c (by exact_mod_cast h)

variable {P : OpenList N C}

theorem goalLoop_full (A : KAlgo N K C) (cs : List C) (lab : Labels N C) (kin : N → K) (cfg : SCfg N C)
    (cur : N) : ∀ (gs : List N) (st : SSt N C P),
      goalLoop (A.alg lab kin) cfg cur gs st = goalLoop (A.full cs lab kin) cfg cur gs st := by
  intro gs
  induction gs with
  | nil => intro st; rfl
  | cons g gs ih =>
    intro st
    rw [goalLoop, goalLoop]
    simp only [ih]
    rfl

/-- What `processNeighbor` does (compare `process_cases`, here from `reach` only). -/
theorem process_cases_reach {A : Algo N C} {goal : List N} {st : SSt N C P} {cur nb : N} {c : C}
    (hr : (st.lab nb).dist ≠ ⊤ ↔ ((st.lab nb).opn = true ∨ (st.lab nb).closed = true))
    (hu : (st.lab cur).dist ≠ ⊤) :
    let st' := processNeighbor A goal st cur nb c
    st'.cands = st.cands ∧ st'.firstW = st.firstW ∧ st'.expansions = st.expansions ∧
    ((¬ A.addW (st.lab cur).dist c < (st.lab nb).dist ∧ st'.opn = st.opn ∧
        ∀ m, SameLab (st.lab m) (st'.lab m) ∧ (st'.lab m).h = (st.lab m).h) ∨
     (A.addW (st.lab cur).dist c < (st.lab nb).dist ∧
        st'.opn = P.add st.opn nb (A.total (st'.lab nb)) ∧
        ((st'.lab nb).dist = A.addW (st.lab cur).dist c ∧ (st'.lab nb).prev = some cur ∧
          (st'.lab nb).opn = true) ∧
        (st'.lab nb).closed = (st.lab nb).closed ∧
        (∀ g gs, goal = g :: gs → (st'.lab nb).h = A.heur nb g) ∧
        ∀ m, m ≠ nb → st'.lab m = st.lab m)) := by
  intro st'
  have hlab0 : (setLab st.lab nb { st.lab nb with watched := true } cur).dist =
      (st.lab cur).dist := by
    by_cases e : cur = nb
    · subst e; simp [setLab]
    · simp [setLab, e]
  have hsame : ∀ m, SameLab (st.lab m)
      (setLab st.lab nb { st.lab nb with watched := true } m) ∧
      (setLab st.lab nb { st.lab nb with watched := true } m).h = (st.lab m).h := by
    intro m
    by_cases e : m = nb
    · subst e; simp [setLab, SameLab]
    · simp [setLab, SameLab, e]
  by_cases hcl : A.addW (st.lab cur).dist c < (st.lab nb).dist
  · have hst : st' = processNeighbor A goal st cur nb c := rfl
    unfold processNeighbor at hst
    simp only [hlab0, hcl, decide_true, Bool.not_true, Bool.and_false, Bool.or_true,
      if_true, Bool.false_eq_true, if_false] at hst
    rw [hst]
    refine ⟨rfl, rfl, rfl, .inr ⟨hcl, ?_, ⟨?_, ?_, ?_⟩, ?_, ?_, ?_⟩⟩
    · simp [setLab]
    · simp [setLab]
    · simp [setLab]
    · simp [setLab]
    · simp [setLab]
    · intro g gs hg; simp [setLab, hg]
    · intro m hm; simp [setLab, hm]
  · have hst : st' = processNeighbor A goal st cur nb c := rfl
    unfold processNeighbor at hst
    simp only [hlab0, hcl, decide_false, Bool.not_false, Bool.and_true, Bool.or_false] at hst
    have hreach : (st.lab nb).opn = true ∨ (st.lab nb).closed = true := by
      rw [← hr]
      intro htop
      rw [htop] at hcl
      exact hcl (lt_top_iff_ne_top.2 (by rw [Ne, PathPlanning.addW_eq_top]; exact hu))
    have hlab : st' = { st with lab := setLab st.lab nb { st.lab nb with watched := true } } := by
      rw [hst]
      rcases hreach with h1 | h1
      · simp [h1]
      · simp [h1]
    rw [hlab]
    exact ⟨rfl, rfl, rfl, .inl ⟨hcl, rfl, hsame⟩⟩

/-- The node is added to the open list exactly when it has become closer. -/
theorem processAdds_iff {A : KAlgo N K C} {st : SSt N C P} {cur nb : N} {c : C}
    (hr : (st.lab nb).dist ≠ ⊤ ↔ ((st.lab nb).opn = true ∨ (st.lab nb).closed = true))
    (hu : (st.lab cur).dist ≠ ⊤) :
    processAdds A st cur nb c = true ↔ A.addW (st.lab cur).dist c < (st.lab nb).dist := by
  unfold processAdds
  by_cases hcl : A.addW (st.lab cur).dist c < (st.lab nb).dist
  · have hcl' := hcl
    unfold KAlgo.addW at hcl
    simp [hcl, hcl']
  · have hreach : (st.lab nb).opn = true ∨ (st.lab nb).closed = true := by
      rw [← hr]
      intro htop
      rw [htop] at hcl
      exact hcl (lt_top_iff_ne_top.2 (by rw [Ne, A.addW_eq_top]; exact hu))
    have hcl' := hcl
    unfold KAlgo.addW at hcl
    rcases hreach with h | h <;> simp [hcl, hcl', h]

/-- A relaxation lowers the potential. -/
theorem potential_lt {A : Algo N C} {start : List N} {lab lab' : Labels N C} {nb : N}
    (hcore : Core A start lab') (hle : ∀ n, (lab' n).dist ≤ (lab n).dist)
    (hlt : (lab' nb).dist < (lab nb).dist) : potential A lab' < potential A lab := by
  unfold potential
  refine Finset.sum_lt_sum (fun n _ => Finset.card_le_card ?_) ⟨nb, Finset.mem_univ _, ?_⟩
  · intro d hd
    simp only [Finset.mem_filter] at hd ⊢
    exact ⟨hd.1, lt_of_lt_of_le hd.2 (hle n)⟩
  · apply Finset.card_lt_card
    obtain ⟨S, k, d, h1, h2, h3, h4, h5⟩ := hcore.small nb (ne_top_of_lt hlt)
    have hdW : d ∈ walkCosts A (Fintype.card N) :=
      walkCosts_mono (by have := Finset.card_le_univ S; omega) h4
    refine ⟨fun x hx => ?_, fun hs => ?_⟩
    · simp only [Finset.mem_filter] at hx ⊢
      exact ⟨hx.1, lt_of_lt_of_le hx.2 (hle nb)⟩
    · have hmem : d ∈ (walkCosts A (Fintype.card N)).filter
          (fun x : C => (x : WithTop C) < (lab nb).dist) := by
        refine Finset.mem_filter.2 ⟨hdW, ?_⟩
        rw [← h5]; exact hlt
      have := (Finset.mem_filter.1 (hs hmem)).2
      rw [h5] at this
      exact lt_irrefl _ this

theorem potential_le {A : Algo N C} {lab lab' : Labels N C}
    (hle : ∀ n, (lab' n).dist ≤ (lab n).dist) : potential A lab' ≤ potential A lab := by
  unfold potential
  refine Finset.sum_le_sum fun n _ => Finset.card_le_card ?_
  intro d hd
  simp only [Finset.mem_filter] at hd ⊢
  exact ⟨hd.1, lt_of_lt_of_le hd.2 (hle n)⟩

end PathPlanning
