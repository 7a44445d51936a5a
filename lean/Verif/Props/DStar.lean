import Verif.Lemmas.DStar
import Mathlib.Data.Rat.Defs
import Mathlib.Tactic.NormNum
import Mathlib.Algebra.Order.Field.Rat

/-! # The incremental search (property C96) -/

namespace PathPlanning.DStar
open Spec

variable {N K : Type} [DecidableEq N] [AddCommGroup K] [LinearOrder K] [IsOrderedAddMonoid K]

omit [IsOrderedAddMonoid K] in
theorem dLoop_mono {A : DAlgo N K} {fuel : Nat} {s : DSt N K} {r : CRes (DSt N K)} (h : dLoop A fuel s = some r) (k : Nat) :
    dLoop A (fuel + k) s = some r := by
  induction fuel generalizing s with
  | zero => simp [dLoop] at h
  | succ f ih =>
    rw [Nat.succ_add_eq_add_succ]
    rw [show f + (k + 1) = (f + k) + 1 by omega]
    simp only [dLoop] at h ⊢
    by_cases hw : continueWhile A s = true
    · rw [if_pos hw] at h ⊢
      cases hd : dStep A s with
      | ok s' => rw [hd] at h; exact ih h
      | throw e => rw [hd] at h; exact h
      | ub => rw [hd] at h; exact h
    · rw [if_neg hw] at h ⊢; exact h

omit [IsOrderedAddMonoid K] in
theorem dFollow_mono {A : DAlgo N K} {lab : N → DLab N K} {fuel : Nat} {c : N} {r : CRes (List N)}
    (h : dFollow A lab fuel c = some r) (k : Nat) : dFollow A lab (fuel + k) c = some r := by
  induction fuel generalizing c r with
  | zero => simp [dFollow] at h
  | succ f ih =>
    rw [show f + 1 + k = (f + k) + 1 by omega]
    simp only [dFollow] at h ⊢
    by_cases hg : c = A.goal
    · rw [if_pos hg] at h ⊢; exact h
    · rw [if_neg hg] at h ⊢
      cases hp : (lab c).prev with
      | none => rw [hp] at h; exact h
      | some p =>
        rw [hp] at h
        simp only [Option.map_eq_some_iff] at h ⊢
        obtain ⟨a, h1, h2⟩ := h
        exact ⟨a, ih h1, h2⟩

theorem dInit_inv {A : DAlgo N K} (hsg : A.start ≠ A.goal) : DLoopInv A (dInit A fun _ => DLab.fresh) := by
  have hg : (dInit A fun _ => DLab.fresh).lab A.goal =
      { (DLab.fresh : DLab N K) with rhs := 0, h := A.heur A.goal A.start, key2 := 0,
                                     key1 := ((0 : WithTop K) + (A.heur A.goal A.start : K)), opn := true } := by
    simp [dInit, setD, hsg.symm, DLab.calcKey, DLab.calc1, DLab.calc2, DLab.fresh]
  have hn : ∀ n, n ≠ A.goal → (dInit A fun _ => DLab.fresh).lab n =
      { (DLab.fresh : DLab N K) with h := ((dInit A fun _ => DLab.fresh).lab n).h } := by
    intro n h
    by_cases hs : n = A.start
    · subst hs; simp [dInit, setD, h, DLab.fresh]
    · simp [dInit, setD, h, hs, DLab.fresh]
  have ho : (dInit A fun _ => (DLab.fresh : DLab N K)).opn = [A.goal] := rfl
  generalize (dInit A fun _ => (DLab.fresh : DLab N K)) = s at *
  have hd : ∀ n, (s.lab n).dist = ⊤ := by
    intro n
    by_cases h : n = A.goal
    · rw [h, hg]; rfl
    · rw [hn n h]; rfl
  have hr : ∀ n, n ≠ A.goal → (s.lab n).rhs = ⊤ := by
    intro n h; rw [hn n h]; rfl
  have hrg : (s.lab A.goal).rhs = 0 := by rw [hg]
  constructor
  · constructor
    · intro n
      rw [ho, List.mem_singleton]
      by_cases h : n = A.goal
      · rw [h, hg]; simp
      · rw [hn n h]; simp [DLab.fresh, h]
    · rw [ho]; simp
    · intro n
      have : (s.lab n).closed = false := by
        by_cases h : n = A.goal
        · rw [h, hg]; rfl
        · rw [hn n h]; rfl
      simp [this, hd]
    · intro n h
      rw [ho, List.mem_singleton] at h
      rw [h, hg]; simp [DLab.fresh]
    · intro n h
      rw [ho, List.mem_singleton] at h
      rw [h, hg]; simp
    · intro n h
      rw [ho, List.mem_singleton] at h
      rw [hr n h, hd]
    · intro n h hne; exact absurd (hr n h) hne
    · intro n _
      by_cases h : n = A.goal
      · rw [h, hg]; rfl
      · rw [hn n h]; rfl
    · exact hrg
    · exact Or.inl (hd _)
    · intro _ n h; exact hr n h
    · intro n hne
      by_cases h : n = A.goal
      · rw [h]; exact ⟨_, _, TrailTo.here⟩
      · exact absurd (hr n h) hne
  · intro n h; exact absurd (hd n) h
  · intro _; exact hd _
  · intro n
    rw [hd]
    refine ⟨le_top, ?_⟩
    by_cases h : n = A.goal
    · rw [h, hrg]
    · rw [hr n h]; exact le_top

/-- With an empty open list everything the goal is connected to has been expanded. -/
theorem empty_complete {A : DAlgo N K} {s : DSt N K} (hi : DLoopInv A s) (he : s.opn = []) {n : N}
    (hr : CanReach (dstep A) A.goal n) : (s.lab n).dist ≠ ⊤ := by
  obtain ⟨d, l, hw⟩ := hr
  have hd : ∀ m, (s.lab m).dist = (s.lab m).rhs := fun m => (hi.shut_eq m (by simp [he])).symm
  induction hw with
  | here => rw [hd, hi.goal_rhs]; simp
  | @next p n d c l hw hs ih =>
    rw [hd]
    exact hi.complete p ih (n, c) hs

/-- The values that can occur. -/
def DVals (A : DAlgo N K) : Set (WithTop K) :=
  (fun k : K => (k : WithTop K)) '' (AddSubmonoid.closure {c | ∃ n, ∃ m ∈ A.succ n, m.2 = c} : Set K) ∪ {⊤}

theorem dvals_wf [Finite N] {A : DAlgo N K} (hpos : ∀ n, ∀ m ∈ A.succ n, 0 < m.2) : (DVals A).IsWF := by
  apply Set.IsPWO.isWF
  apply Set.IsPWO.union
  · apply Set.IsPWO.image_of_monotone
    · apply Set.IsPWO.addSubmonoid_closure
      · rintro x ⟨n, m, hm, rfl⟩; exact (hpos n m hm).le
      · apply Set.Finite.isPWO
        have : {c | ∃ n, ∃ m ∈ A.succ n, m.2 = c} = ⋃ n, ((fun m : N × K => m.2) '' {m | m ∈ A.succ n}) := by
          ext c; simp
        rw [this]
        apply Set.finite_iUnion
        intro n
        exact (List.finite_toSet _).image _
    · exact WithTop.coe_mono
  · exact (Set.finite_singleton _).isPWO

theorem dvals_add {A : DAlgo N K} {v : WithTop K} (hv : v ∈ DVals A) {n : N} {m : N × K} (hm : m ∈ A.succ n) :
    v + (m.2 : K) ∈ DVals A := by
  rcases hv with ⟨k, hk, rfl⟩ | hv
  · left
    refine ⟨k + m.2, ?_, by simp⟩
    exact AddSubmonoid.add_mem _ hk (AddSubmonoid.subset_closure ⟨n, m, hm, rfl⟩)
  · right
    rw [Set.mem_singleton_iff] at hv ⊢
    rw [hv]; simp

/-- The loop ends, in a final state or (if the start cannot be reached) with a call of `next()` on an empty list. -/
theorem dLoop_spec [Finite N] {A : DAlgo N K} (ht : DTopOk A) (hpos : ∀ n, ∀ m ∈ A.succ n, 0 < m.2)
    (hsg : A.start ≠ A.goal) {s : DSt N K} (hi : DLoopInv A s)
    (hv : ∀ n, (s.lab n).dist ∈ DVals A ∧ (s.lab n).rhs ∈ DVals A) :
    ∃ fuel r, dLoop A fuel s = some r ∧
      ((∃ s', r = .ok s' ∧ DLoopInv A s' ∧ (s'.lab A.start).rhs ≠ ⊤) ∨
       (r = .ub ∧ ¬ CanReach (dstep A) A.goal A.start)) := by
  have hwf : WellFoundedLT (DVals A) := ⟨dvals_wf hpos⟩
  have key : ∀ (f : N → DVals A) (s : DSt N K), DLoopInv A s →
      (∀ n, (s.lab n).dist ∈ DVals A ∧ (s.lab n).rhs ∈ DVals A) → (∀ n, (f n : WithTop K) = (s.lab n).dist) →
      ∃ fuel r, dLoop A fuel s = some r ∧
      ((∃ s', r = .ok s' ∧ DLoopInv A s' ∧ (s'.lab A.start).rhs ≠ ⊤) ∨
       (r = .ub ∧ ¬ CanReach (dstep A) A.goal A.start)) := by
    intro f
    induction f using WellFoundedLT.induction with
    | ind f ih =>
      intro s hi hv hf
      by_cases hw : continueWhile A s = true
      · cases hc : A.top s.lab s.opn with
        | none =>
          refine ⟨1, .ub, by simp [dLoop, hw, dStep, hc], Or.inr ⟨rfl, ?_⟩⟩
          intro hr
          exact empty_complete hi ((ht.none_iff _ _).1 hc) hr (hi.start_top hsg)
        | some c =>
          have hm := ht.mem _ _ _ hc
          obtain ⟨h1, h2⟩ := pop_inv hpos hi hm (Or.inl (top_ne_start ht hi.toDInv hc hw))
          have hv' : ∀ n, ((dIterate A c (popSt s c)).lab n).dist ∈ DVals A ∧
              ((dIterate A c (popSt s c)).lab n).rhs ∈ DVals A := by
            intro n
            constructor
            · rw [h2]; split_ifs
              · exact (hv c).2
              · exact (hv n).1
            · apply foldl_vals (A.succ c) (fun v => v ∈ DVals A)
              · intro x
                by_cases hx : x = c
                · subst hx; simpa [popSt] using (hv x).2
                · simpa [popSt, setD_ne _ _ hx] using (hv x).2
              · intro m hm
                apply dvals_add _ hm
                simpa [popSt] using (hv c).2
          obtain ⟨fuel, r, hl, hr⟩ := ih (fun n => ⟨((dIterate A c (popSt s c)).lab n).dist, (hv' n).1⟩) (by
            rw [Pi.lt_def]
            constructor
            · intro n
              show ((dIterate A c (popSt s c)).lab n).dist ≤ (f n : WithTop K)
              rw [hf, h2]
              split_ifs with h
              · rw [h]; exact (hi.open_lt c hm).le
              · exact le_rfl
            · refine ⟨c, ?_⟩
              show ((dIterate A c (popSt s c)).lab c).dist < (f c : WithTop K)
              rw [hf, h2, if_pos rfl]
              exact hi.open_lt c hm) _ h1 hv' (fun n => rfl)
          refine ⟨fuel + 1, r, ?_, hr⟩
          simp only [dLoop, hw, if_true, dStep_eq ht hi.toDInv hc]
          exact hl
      · refine ⟨1, .ok s, by simp [dLoop, hw], Or.inl ⟨s, rfl, hi, ?_⟩⟩
        intro e
        apply hw
        have := hi.start_top hsg
        simp [continueWhile, e, this]
  exact key (fun n => ⟨_, (hv n).1⟩) s hi hv (fun n => rfl)

/-- Following `prev` from a node that has been reached. -/
theorem dFollow_spec [Fintype N] {A : DAlgo N K} (hpos : ∀ n, ∀ m ∈ A.succ n, 0 < m.2) {s : DSt N K} (hi : DInv A s) (n : N)
    (hn : (s.lab n).rhs ≠ ⊤) :
    ∃ fuel l d, dFollow A s.lab fuel n = some (.ok l) ∧ TrailTo (dstep A) A.goal n d (n :: l) ∧
      (d : WithTop K) ≤ (s.lab n).rhs ∧ (n :: l).Nodup ∧ ∀ m ∈ l, (s.lab m).rhs < (s.lab n).rhs := by
  have key : ∀ k n, (Finset.univ.filter fun m => (s.lab m).rhs < (s.lab n).rhs).card ≤ k → (s.lab n).rhs ≠ ⊤ →
    ∃ fuel l d, dFollow A s.lab fuel n = some (.ok l) ∧ TrailTo (dstep A) A.goal n d (n :: l) ∧
      (d : WithTop K) ≤ (s.lab n).rhs ∧ (n :: l).Nodup ∧ ∀ m ∈ l, (s.lab m).rhs < (s.lab n).rhs := by
    intro k
    induction k with
    | zero =>
      intro n hk hn
      by_cases hg : n = A.goal
      · subst hg
        exact ⟨1, [], 0, by simp [dFollow], TrailTo.here, by rw [hi.goal_rhs]; simp, by simp, by simp⟩
      · exfalso
        obtain ⟨p, c, h1, h2, h3⟩ := hi.pred n hg hn
        have hlt : (s.lab p).rhs < (s.lab n).rhs := by
          have hpt : (s.lab p).dist ≠ ⊤ := fun e => hn (by rw [e] at h3; simpa using h3)
          refine lt_of_le_of_lt (rhs_le_dist hi p) (lt_of_lt_of_le ?_ h3)
          obtain ⟨v, hv⟩ := WithTop.ne_top_iff_exists.1 hpt
          rw [← hv, ← WithTop.coe_add, WithTop.coe_lt_coe]
          exact lt_add_of_pos_right _ (hpos p _ h2)
        have := Finset.card_eq_zero.1 (Nat.le_zero.1 hk)
        have hp : p ∈ (Finset.univ.filter fun m => (s.lab m).rhs < (s.lab n).rhs) := by simp [hlt]
        rw [this] at hp
        simp at hp
    | succ k ih =>
      intro n hk hn
      by_cases hg : n = A.goal
      · subst hg
        exact ⟨1, [], 0, by simp [dFollow], TrailTo.here, by rw [hi.goal_rhs]; simp, by simp, by simp⟩
      · obtain ⟨p, c, h1, h2, h3⟩ := hi.pred n hg hn
        have hpt : (s.lab p).dist ≠ ⊤ := fun e => hn (by rw [e] at h3; simpa using h3)
        have hlt : (s.lab p).rhs < (s.lab n).rhs := by
          refine lt_of_le_of_lt (rhs_le_dist hi p) (lt_of_lt_of_le ?_ h3)
          obtain ⟨v, hv⟩ := WithTop.ne_top_iff_exists.1 hpt
          rw [← hv, ← WithTop.coe_add, WithTop.coe_lt_coe]
          exact lt_add_of_pos_right _ (hpos p _ h2)
        have hcard : (Finset.univ.filter fun m => (s.lab m).rhs < (s.lab p).rhs).card ≤ k := by
          have : (Finset.univ.filter fun m => (s.lab m).rhs < (s.lab p).rhs) ⊂
              (Finset.univ.filter fun m => (s.lab m).rhs < (s.lab n).rhs) := by
            rw [Finset.ssubset_iff_of_subset]
            · exact ⟨p, by simp [hlt], by simp⟩
            · intro x hx
              simp only [Finset.mem_filter, Finset.mem_univ, true_and] at hx ⊢
              exact hx.trans hlt
          have := Finset.card_lt_card this
          omega
        obtain ⟨fuel, l, d, e1, e2, e3, e4, e5⟩ := ih p hcard (ne_top_of_le_ne_top hpt (rhs_le_dist hi p))
        refine ⟨fuel + 1, p :: l, d + c, ?_, e2.next h2, ?_, ?_, ?_⟩
        · simp [dFollow, hg, h1, e1, CRes.bind]
        · refine le_trans ?_ h3
          rw [WithTop.coe_add]
          gcongr
          exact e3.trans (rhs_le_dist hi p)
        · rw [List.nodup_cons]
          refine ⟨?_, e4⟩
          intro hmem
          rcases List.mem_cons.1 hmem with h | h
          · rw [h] at hlt; exact lt_irrefl _ hlt
          · exact absurd ((e5 _ h).trans hlt) (lt_irrefl _)
        · intro m hm
          rcases List.mem_cons.1 hm with rfl | h
          · exact hlt
          · exact (e5 m h).trans hlt
  exact key _ n le_rfl hn

/-- All labels of a freshly initialised map. -/
def allFresh : N → DLab N K := fun _ => DLab.fresh

/-- Everything about a first search with different start and goal. -/
theorem dFind_spec [Fintype N] {A : DAlgo N K} (ht : DTopOk A) (hpos : ∀ n, ∀ m ∈ A.succ n, 0 < m.2)
    (hsg : A.start ≠ A.goal) :
    ∃ fuel, (CanReach (dstep A) A.goal A.start ∧ ∃ l d, (∀ k, dFind A (fuel + k) allFresh = some (.ok l)) ∧
        TrailTo (dstep A) A.goal A.start d l ∧ l.Nodup) ∨
      (¬ CanReach (dstep A) A.goal A.start ∧ ∀ k, dFind A (fuel + k) allFresh = some .ub) := by
  obtain ⟨fuel, r, hl, hr⟩ := dLoop_spec ht hpos hsg (dInit_inv hsg) (by
    have hd : ∀ n, ((dInit A fun _ => DLab.fresh).lab n).dist = ⊤ ∧
        (((dInit A fun _ => DLab.fresh).lab n).rhs = ⊤ ∨ ((dInit A fun _ => DLab.fresh).lab n).rhs = 0) := by
      intro n
      by_cases h : n = A.goal
      · subst h; simp [dInit, setD, hsg.symm, DLab.calcKey, DLab.fresh]
      · by_cases hs : n = A.start
        · subst hs; simp [dInit, setD, h, DLab.fresh]
        · simp [dInit, setD, h, hs, DLab.fresh]
    have h0 : (0 : WithTop K) ∈ DVals A := Or.inl ⟨0, AddSubmonoid.zero_mem _, by simp⟩
    have ht : (⊤ : WithTop K) ∈ DVals A := Or.inr rfl
    intro n
    obtain ⟨h1, h2⟩ := hd n
    rw [h1]
    refine ⟨ht, ?_⟩
    rcases h2 with h2 | h2 <;> rw [h2]
    · exact ht
    · exact h0)
  rcases hr with ⟨s', rfl, hi, hs⟩ | ⟨rfl, hnr⟩
  · obtain ⟨f2, l, d, e1, e2, _, e4, _⟩ := dFollow_spec hpos hi.toDInv A.start hs
    refine ⟨fuel + f2, Or.inl ⟨⟨_, _, e2⟩, A.start :: l, d, ?_, e2, e4⟩⟩
    intro k
    obtain ⟨p, c, hp, _⟩ := hi.pred A.start hsg hs
    have h1 : dLoop A (fuel + f2 + k) (dInit A allFresh) = some (.ok s') := by
      rw [add_assoc]; exact dLoop_mono hl _
    have h2 : dFollow A s'.lab (fuel + f2 + k) A.start = some (.ok l) := by
      rw [show fuel + f2 + k = f2 + (fuel + k) by omega]; exact dFollow_mono e1 _
    simp [dFind, h1, dPath, hp, h2, CRes.bind]
  · refine ⟨fuel, Or.inr ⟨hnr, fun k => ?_⟩⟩
    have h1 : dLoop A (fuel + k) (dInit A allFresh) = some .ub := dLoop_mono hl _
    simp [dFind, h1]

omit [IsOrderedAddMonoid K] in
theorem dFind_mono {A : DAlgo N K} {fuel : Nat} {lab0 : N → DLab N K} {r : CRes (List N)}
    (h : dFind A fuel lab0 = some r) (k : Nat) : dFind A (fuel + k) lab0 = some r := by
  unfold dFind at h ⊢
  cases hl : dLoop A fuel (dInit A lab0) with
  | none => rw [hl] at h; simp at h
  | some x =>
    rw [hl] at h
    rw [dLoop_mono hl k]
    cases x with
    | ub => exact h
    | throw e => exact h
    | ok s =>
      simp only [dPath] at h ⊢
      by_cases hp : (s.lab A.start).prev.isSome = true
      · rw [if_pos hp] at h ⊢
        simp only [Option.map_eq_some_iff] at h ⊢
        obtain ⟨a, h1, h2⟩ := h
        exact ⟨a, dFollow_mono h1 k, h2⟩
      · rw [if_neg hp] at h ⊢; exact h

/-- C96: on every finite map with positive step costs the incremental search ends, whatever node the open list hands out. -/
theorem dstar_ends [Fintype N] {A : DAlgo N K} (ht : DTopOk A) (hpos : ∀ n, ∀ m ∈ A.succ n, 0 < m.2)
    (hsg : A.start ≠ A.goal) : ∃ fuel r, dFind A fuel allFresh = some r := by
  obtain ⟨f, h | h⟩ := dFind_spec ht hpos hsg
  · obtain ⟨_, l, d, h, _⟩ := h; exact ⟨f, _, h 0⟩
  · exact ⟨f, _, h.2 0⟩

omit [IsOrderedAddMonoid K] in
theorem dFind_det {A : DAlgo N K} {f1 f2 : Nat} {lab0 : N → DLab N K} {r1 r2 : CRes (List N)}
    (h1 : dFind A f1 lab0 = some r1) (h2 : dFind A f2 lab0 = some r2) : r1 = r2 := by
  have a := dFind_mono h1 f2
  have b := dFind_mono h2 f1
  rw [add_comm] at b
  rw [a] at b
  exact Option.some.inj b

/-- C96 (partial: the path need not be a shortest one): if the start can be reached, the search returns a path from the start
to the goal that uses only steps of the map and visits no node twice, in whatever order the open list hands out the nodes.
Missing for the full property: the path need not be a shortest one (`dstar_not_shortest`). -/
theorem dstar_path_partial [Fintype N] {A : DAlgo N K} (ht : DTopOk A) (hpos : ∀ n, ∀ m ∈ A.succ n, 0 < m.2)
    (hsg : A.start ≠ A.goal) (hr : CanReach (dstep A) A.goal A.start) {fuel : Nat} {r : CRes (List N)}
    (hf : dFind A fuel allFresh = some r) :
    ∃ l d, r = .ok l ∧ TrailTo (dstep A) A.goal A.start d l ∧ l.Nodup := by
  obtain ⟨f, h | h⟩ := dFind_spec ht hpos hsg
  · obtain ⟨_, l, d, h1, h2, h3⟩ := h
    exact ⟨l, d, dFind_det hf (h1 0), h2, h3⟩
  · exact absurd hr h.1

/-- C96: if no path exists, the search takes an element from the empty open list, always: failure is never reported. -/
theorem dstar_unreachable_ub [Fintype N] {A : DAlgo N K} (ht : DTopOk A) (hpos : ∀ n, ∀ m ∈ A.succ n, 0 < m.2)
    (hsg : A.start ≠ A.goal) (hr : ¬ CanReach (dstep A) A.goal A.start) {fuel : Nat} {r : CRes (List N)}
    (hf : dFind A fuel allFresh = some r) : r = .ub := by
  obtain ⟨f, h | h⟩ := dFind_spec ht hpos hsg
  · exact absurd h.1 hr
  · exact dFind_det hf (h.2 0)

omit [IsOrderedAddMonoid K] in
/-- C96: with equal start and goal the result is the empty path, on every map and with every content of the nodes. -/
theorem dstar_start_is_goal {A : DAlgo N K} (ht : DTopOk A) (hsg : A.start = A.goal) (fuel : Nat) (lab0 : N → DLab N K) :
    dFind A (fuel + 1) lab0 = some (.ok []) := by
  have htop : ∀ lab, A.top lab [A.goal] = some A.goal := by
    intro lab
    cases h : A.top lab [A.goal] with
    | none => rw [ht.none_iff] at h; simp at h
    | some t => have := ht.mem _ _ _ h; simp at this; rw [this]
  have hl : (dInit A lab0).lab A.goal =
      { (DLab.fresh : DLab N K) with rhs := 0, h := A.heur A.goal A.goal, key2 := 0,
                                     key1 := ((0 : WithTop K) + (A.heur A.goal A.goal : K)), opn := true } := by
    simp [dInit, setD, hsg, DLab.calcKey, DLab.calc1, DLab.calc2, DLab.fresh]
  have ho : (dInit A lab0).opn = [A.goal] := rfl
  have hw : continueWhile A (dInit A lab0) = false := by
    simp only [continueWhile, topKey, ho, htop, hsg, hl]
    simp [lessKeys, DLab.calc1, DLab.calc2, DLab.fresh]
  have : dLoop A (fuel + 1) (dInit A lab0) = some (.ok (dInit A lab0)) := by
    simp [dLoop, hw]
  simp only [dFind, this, dPath, hsg, hl]
  simp [DLab.fresh]

end PathPlanning.DStar
