import Verif.Spec.Search
import Mathlib.Algebra.BigOperators.Group.Finset.Basic
import Mathlib.Algebra.Order.BigOperators.Group.Finset
import Mathlib.Data.List.Nodup

/-!
# Invariants of the generic search
-/

namespace PathPlanning
set_option linter.unusedSectionVars false

variable {N C : Type} [DecidableEq N] [LinearOrder C]

section addW
variable (A : Algo N C)

@[simp] theorem addW_coe (a c : C) : A.addW (a : WithTop C) c = ((A.add a c : C) : WithTop C) := rfl
@[simp] theorem addW_top (c : C) : A.addW (⊤ : WithTop C) c = ⊤ := rfl

theorem addW_eq_top {d : WithTop C} {c : C} : A.addW d c = ⊤ ↔ d = ⊤ := by
  cases d <;> simp

variable {A}
theorem le_addW (ok : CostOk A) {u v : N} {c : C} (h : (v, c) ∈ A.succ u) (d : WithTop C) :
    d ≤ A.addW d c := by
  cases d with
  | top => simp
  | coe a => simpa using ok.infl u v c h a

theorem addW_mono (ok : CostOk A) {d e : WithTop C} (h : d ≤ e) (c : C) :
    A.addW d c ≤ A.addW e c := by
  cases e with
  | top => simp
  | coe b =>
    cases d with
    | top => simp at h
    | coe a => simpa using ok.mono a b c (by simpa using h)
end addW

/-- The chain of `prev` pointers from `n` back to a start node. -/
inductive Back (A : Algo N C) (start : List N) (lab : Labels N C) : N → List N → C → Prop
  | start {s} : s ∈ start → Back A start lab s [s] A.zero
  | step {n p l d c} : n ∉ start → (lab n).prev = some p → Back A start lab p l d →
      (n, c) ∈ A.succ p → A.addW (lab p).dist c ≤ (lab n).dist →
      Back A start lab n (l ++ [n]) (A.add d c)

section Back
variable {A : Algo N C} {start : List N} {lab : Labels N C}

theorem Back.walk {n l d} (h : Back A start lab n l d) : WalkTo A start n l d := by
  induction h with
  | start hs => exact .start hs
  | step _ _ _ he _ ih => exact .step ih he

theorem Back.mem {n l d} (h : Back A start lab n l d) : n ∈ l := by
  cases h <;> simp

theorem Back.unique {n l d} (h : Back A start lab n l d) :
    ∀ {l' d'}, Back A start lab n l' d' → l = l' := by
  induction h with
  | start hs =>
    intro l' d' h'
    cases h' with
    | start _ => rfl
    | step hn _ _ _ _ => exact absurd hs hn
  | step hn hp _ _ _ ih =>
    intro l' d' h'
    cases h' with
    | start hs => exact absurd hs hn
    | step _ hp' hb' _ _ =>
      rw [hp] at hp'
      cases hp'
      rw [ih hb']

theorem Back.sub {n l d} (h : Back A start lab n l d) :
    ∀ m ∈ l, ∃ l1 d1, Back A start lab m l1 d1 ∧ l1 <+: l := by
  induction h with
  | start hs =>
    intro m hm
    simp only [List.mem_singleton] at hm
    subst hm
    exact ⟨_, _, .start hs, List.prefix_refl _⟩
  | @step n p l d c hn hp hb he hle ih =>
    intro m hm
    rcases List.mem_append.1 hm with h1 | h1
    · obtain ⟨l1, d1, hb1, hpre⟩ := ih m h1
      exact ⟨l1, d1, hb1, hpre.trans (List.prefix_append _ _)⟩
    · simp only [List.mem_singleton] at h1
      subst h1
      exact ⟨_, _, .step hn hp hb he hle, List.prefix_refl _⟩

theorem Back.not_mem_prev {n p l d c} (hn : n ∉ start) (hp : (lab n).prev = some p)
    (hb : Back A start lab p l d) (he : (n, c) ∈ A.succ p)
    (hle : A.addW (lab p).dist c ≤ (lab n).dist) : n ∉ l := by
  intro hm
  obtain ⟨l1, d1, hb1, hpre⟩ := hb.sub n hm
  have := hb1.unique (Back.step hn hp hb he hle)
  have hl := hpre.length_le
  rw [this] at hl
  simp at hl

theorem Back.nodup {n l d} (h : Back A start lab n l d) : l.Nodup := by
  induction h with
  | start _ => simp
  | step hn hp hb he hle ih =>
    rw [List.nodup_append]
    refine ⟨ih, by simp, ?_⟩
    intro a ha b hb' hab
    simp only [List.mem_singleton] at hb'
    subst hb'; subst hab
    exact Back.not_mem_prev hn hp hb he hle ha

theorem Back.cost_le (ok : CostOk A) (s0 : ∀ s ∈ start, (lab s).dist = (A.zero : WithTop C))
    {n l d} (h : Back A start lab n l d) : (d : WithTop C) ≤ (lab n).dist := by
  induction h with
  | start hs => rw [s0 _ hs]
  | step _ _ _ _ hle ih =>
    refine le_trans ?_ hle
    rw [← addW_coe]
    exact addW_mono ok ih _

theorem Back.dist_le (ok : CostOk A) {n l d} (h : Back A start lab n l d) :
    ∀ m ∈ l, (lab m).dist ≤ (lab n).dist := by
  induction h with
  | start hs => intro m hm; simp only [List.mem_singleton] at hm; subst hm; exact le_refl _
  | step _ _ _ he hle ih =>
    intro m hm
    rcases List.mem_append.1 hm with h1 | h1
    · exact (ih m h1).trans ((le_addW ok he _).trans hle)
    · simp only [List.mem_singleton] at h1; subst h1; exact le_refl _

theorem Back.congr {lab' : Labels N C} {n l d} (h : Back A start lab n l d)
    (hd : ∀ m ∈ l, (lab' m).dist = (lab m).dist ∧ (lab' m).prev = (lab m).prev) :
    Back A start lab' n l d := by
  induction h with
  | start hs => exact .start hs
  | step hn hp hb he hle ih =>
    have hn' := hd _ (List.mem_append_right _ (List.mem_singleton.2 rfl))
    have hp' := hd _ (List.mem_append_left _ hb.mem)
    refine .step hn (by rw [hn'.2, hp]) (ih fun m hm => hd m (List.mem_append_left _ hm)) he ?_
    rw [hn'.1, hp'.1]; exact hle

variable [Fintype N]

theorem backtrackFrom_ok (sp : ∀ s ∈ start, (lab s).prev = none) {n l d}
    (h : Back A start lab n l d) :
    ∀ (S : Finset N) (path : List N), (∀ m ∈ l, m ∉ S) →
      backtrackFrom lab start n S (n :: path) = .ok (l ++ path) := by
  induction h with
  | start hs =>
    intro S path _
    rw [backtrackFrom]; simp [hs]
  | @step n p l d c hn hp hb he hle ih =>
    intro S path hS
    rw [backtrackFrom]
    have hnS : n ∉ S := hS n (by simp)
    have hself : (lab p).prev ≠ some p := by
      intro hpp
      cases hb with
      | start hs => rw [sp _ hs] at hpp; cases hpp
      | step hn' hp' hb' he' hle' =>
        rw [hpp] at hp'
        cases hp'
        exact Back.not_mem_prev hn' hpp hb' he' hle' hb'.mem
    have hnl : n ∉ l := Back.not_mem_prev hn hp hb he hle
    have := ih (insert n S) (n :: path) (by
      intro m hm hmS
      rcases Finset.mem_insert.1 hmS with h1 | h1
      · subst h1; exact hnl hm
      · exact hS m (List.mem_append_left _ hm) h1)
    simp [hn, hnS, hp, hself, this]

theorem backtrack_ok (sp : ∀ s ∈ start, (lab s).prev = none) {n l d}
    (h : Back A start lab n l d) : backtrack lab start n = .ok l := by
  unfold backtrack
  rw [backtrackFrom_ok sp h ∅ [] (by simp)]
  simp

theorem backtrackCopy_ok (sp : ∀ s ∈ start, (lab s).prev = none) {n l d}
    (h : Back A start lab n l d) (hn : n ∉ start) : backtrackCopy lab start n = .ok l := by
  have h2 := backtrack_ok sp h
  cases h with
  | start hs => exact absurd hs hn
  | @step _ p l d c hn hp hb he hle =>
    have hself : (lab p).prev ≠ some p := by
      intro hpp
      cases hb with
      | start hs => rw [sp _ hs] at hpp; cases hpp
      | step hn' hp' hb' he' hle' =>
        rw [hpp] at hp'
        cases hp'
        exact Back.not_mem_prev hn' hpp hb' he' hle' hb'.mem
    unfold backtrackCopy
    simp only [hp, hself, if_false]
    exact backtrackFrom_ok sp hb ∅ [n] (by simp)

end Back

/-- Costs of walks with at most `k` edges. -/
def walkCosts [Fintype N] (A : Algo N C) : Nat → Finset C
  | 0 => {A.zero}
  | k + 1 => walkCosts A k ∪ Finset.univ.biUnion fun u : N =>
      ((A.succ u).map Prod.snd).toFinset.biUnion fun c => (walkCosts A k).image (A.add · c)

theorem walkCosts_step [Fintype N] {A : Algo N C} {k : Nat} {d : C} (h : d ∈ walkCosts A k)
    {u v : N} {c : C} (he : (v, c) ∈ A.succ u) : A.add d c ∈ walkCosts A (k + 1) := by
  rw [walkCosts]
  refine Finset.mem_union_right _ (Finset.mem_biUnion.2 ⟨u, Finset.mem_univ _, ?_⟩)
  refine Finset.mem_biUnion.2 ⟨c, ?_, Finset.mem_image_of_mem _ h⟩
  simp only [List.mem_toFinset, List.mem_map]
  exact ⟨_, he, rfl⟩

theorem walkCosts_mono [Fintype N] {A : Algo N C} {k k' : Nat} (h : k ≤ k') :
    walkCosts A k ⊆ walkCosts A k' := by
  induction h with
  | refl => exact Finset.Subset.refl _
  | step _ ih => exact ih.trans (by rw [walkCosts]; exact Finset.subset_union_left)

/-- Structural invariant of the labels. -/
structure Core [Fintype N] (A : Algo N C) (start : List N) (lab : Labels N C) : Prop where
  s0 : ∀ s ∈ start, (lab s).dist = (A.zero : WithTop C)
  sp : ∀ s ∈ start, (lab s).prev = none
  low : ∀ n, (A.zero : WithTop C) ≤ (lab n).dist
  back : ∀ n, (lab n).dist ≠ ⊤ → ∃ l d, Back A start lab n l d
  reach : ∀ n, (lab n).dist ≠ ⊤ ↔ ((lab n).opn = true ∨ (lab n).closed = true)
  small : ∀ n, (lab n).dist ≠ ⊤ → ∃ (S : Finset N) (k : Nat) (d : C), n ∈ S ∧
    (∀ m ∈ S, (lab m).dist ≤ (lab n).dist) ∧ k + 1 ≤ S.card ∧ d ∈ walkCosts A k ∧
    (lab n).dist = (d : WithTop C)
  walk : ∀ n (d : C), (lab n).dist = (d : WithTop C) → Reach A start n d

section Core
variable [Fintype N] {A : Algo N C} {start : List N} {lab : Labels N C}

theorem Core.congr {lab' : Labels N C} (h : Core A start lab)
    (hd : ∀ m, (lab' m).dist = (lab m).dist ∧ (lab' m).prev = (lab m).prev)
    (hm : ∀ m, ((lab' m).opn = true ∨ (lab' m).closed = true) ↔
      ((lab m).opn = true ∨ (lab m).closed = true)) : Core A start lab' where
  s0 s hs := by rw [(hd s).1]; exact h.s0 s hs
  sp s hs := by rw [(hd s).2]; exact h.sp s hs
  low n := by rw [(hd n).1]; exact h.low n
  back n hn := by
    rw [(hd n).1] at hn
    obtain ⟨l, d, hb⟩ := h.back n hn
    exact ⟨l, d, hb.congr fun m _ => hd m⟩
  reach n := by rw [(hd n).1, hm n]; exact h.reach n
  small n hn := by
    rw [(hd n).1] at hn
    obtain ⟨S, k, d, h1, h2, h3⟩ := h.small n hn
    refine ⟨S, k, d, h1, fun m hmS => ?_, ?_⟩
    · rw [(hd m).1, (hd n).1]; exact h2 m hmS
    · rw [(hd n).1]; exact h3
  walk n d hn := by rw [(hd n).1] at hn; exact h.walk n d hn

/-- Relaxing an edge keeps the invariant. -/
theorem Core.relax (ok : CostOk A) (h : Core A start lab) {u v : N} {c : C}
    (hu : (lab u).dist ≠ ⊤) (he : (v, c) ∈ A.succ u)
    (hcl : A.addW (lab u).dist c < (lab v).dist) {lab' : Labels N C}
    (hv : (lab' v).dist = A.addW (lab u).dist c ∧ (lab' v).prev = some u ∧ (lab' v).opn = true)
    (ho : ∀ m, m ≠ v → (lab' m).dist = (lab m).dist ∧ (lab' m).prev = (lab m).prev ∧
      (lab' m).opn = (lab m).opn ∧ (lab' m).closed = (lab m).closed) :
    Core A start lab' := by
  have hvs : v ∉ start := by
    intro hs
    rw [h.s0 v hs] at hcl
    exact absurd ((h.low u).trans (le_addW ok he _)) (not_le.2 hcl)
  have hne : u ≠ v := by
    rintro rfl
    exact absurd (le_addW ok he _) (not_le.2 hcl)
  have hnetop : A.addW (lab u).dist c ≠ ⊤ := by rw [Ne, addW_eq_top]; exact hu
  obtain ⟨lu, du, hbu⟩ := h.back u hu
  have hvl : v ∉ lu := by
    intro hm
    have := hbu.dist_le ok v hm
    exact absurd (this.trans (le_addW ok he _)) (not_le.2 hcl)
  have hle : ∀ m, (lab' m).dist ≤ (lab m).dist := by
    intro m
    by_cases hm : m = v
    · subst hm; rw [hv.1]; exact hcl.le
    · rw [(ho m hm).1]
  have hbv : Back A start lab' v (lu ++ [v]) (A.add du c) := by
    refine .step hvs hv.2.1 (hbu.congr fun m hm => ?_) he ?_
    · have : m ≠ v := fun e => hvl (e ▸ hm)
      exact ⟨(ho m this).1, (ho m this).2.1⟩
    · rw [hv.1, (ho u hne).1]
  constructor
  · intro s hs
    rw [(ho s fun e => hvs (e ▸ hs)).1]; exact h.s0 s hs
  · intro s hs
    rw [(ho s fun e => hvs (e ▸ hs)).2.1]; exact h.sp s hs
  · intro n
    by_cases hn : n = v
    · subst hn; rw [hv.1]; exact (h.low u).trans (le_addW ok he _)
    · rw [(ho n hn).1]; exact h.low n
  · intro n hn
    have key : ∀ m l d, Back A start lab m l d → ∃ l d, Back A start lab' m l d := by
      intro m l d hb
      induction hb with
      | start hs => exact ⟨_, _, .start hs⟩
      | @step m p l d c' hm hp hb hem hlem ih =>
        by_cases hmv : m = v
        · subst hmv; exact ⟨_, _, hbv⟩
        · obtain ⟨l', d', hb'⟩ := ih
          refine ⟨_, _, .step hm (by rw [(ho m hmv).2.1, hp]) hb' hem ?_⟩
          rw [(ho m hmv).1]
          exact (addW_mono ok (hle p) _).trans hlem
    by_cases hnv : n = v
    · subst hnv; exact ⟨_, _, hbv⟩
    · rw [(ho n hnv).1] at hn
      obtain ⟨l, d, hb⟩ := h.back n hn
      exact key n l d hb
  · intro n
    by_cases hnv : n = v
    · subst hnv; rw [hv.1, hv.2.2]; simp [hnetop]
    · rw [(ho n hnv).1, (ho n hnv).2.2.1, (ho n hnv).2.2.2]; exact h.reach n
  · intro n hn
    by_cases hnv : n = v
    · subst hnv
      obtain ⟨S, k, d, h1, h2, h3, h4, h5⟩ := h.small u hu
      have hnS : n ∉ S := by
        intro hm
        exact absurd ((h2 n hm).trans (le_addW ok he _)) (not_le.2 hcl)
      refine ⟨insert n S, k + 1, A.add d c, Finset.mem_insert_self _ _, ?_, ?_,
        walkCosts_step h4 he, ?_⟩
      · intro m hm
        rcases Finset.mem_insert.1 hm with e | hmS
        · subst e; exact le_refl _
        · rw [hv.1]
          exact (hle m).trans ((h2 m hmS).trans (le_addW ok he _))
      · rw [Finset.card_insert_of_notMem hnS]; omega
      · rw [hv.1, h5]; rfl
    · rw [(ho n hnv).1] at hn
      obtain ⟨S, k, d, h1, h2, h3⟩ := h.small n hn
      refine ⟨S, k, d, h1, fun m hm => ?_, ?_⟩
      · rw [(ho n hnv).1]; exact (hle m).trans (h2 m hm)
      · rw [(ho n hnv).1]; exact h3
  · intro n d hn
    by_cases hnv : n = v
    · subst hnv
      rw [hv.1] at hn
      obtain ⟨e, he'⟩ := WithTop.ne_top_iff_exists.1 hu
      rw [← he', addW_coe, WithTop.coe_eq_coe] at hn
      rw [← hn]
      exact .step (h.walk u e he'.symm) he
    · rw [(ho n hnv).1] at hn; exact h.walk n d hn

end Core
end PathPlanning
