import Verif.Model.DStar
import Verif.Spec.DStar
import Mathlib.Algebra.Order.Group.Defs
import Mathlib.Data.Fintype.Card
import Mathlib.Data.DFinsupp.WellFounded
import Mathlib.Order.WellFoundedSet
import Mathlib.Algebra.Group.Submonoid.Pointwise

/-! # Invariants of the incremental search -/

namespace PathPlanning.DStar
open Spec

variable {N K : Type} [DecidableEq N] [AddCommGroup K] [LinearOrder K] [IsOrderedAddMonoid K]

/-- Step relation of a search. -/
def dstep (A : DAlgo N K) : N → N → K → Prop := fun p n c => (n, c) ∈ A.succ p

/-- Contract of the container of the open nodes. -/
structure DTopOk (A : DAlgo N K) : Prop where
  none_iff : ∀ lab l, A.top lab l = none ↔ l = []
  mem : ∀ lab l t, A.top lab l = some t → t ∈ l

/-- Invariant that also holds between two calls of `processNeighbor`. -/
structure DInv (A : DAlgo N K) (s : DSt N K) : Prop where
  opn_iff : ∀ n, (s.lab n).opn = true ↔ n ∈ s.opn
  nodup : s.opn.Nodup
  closed_iff : ∀ n, (s.lab n).closed = true ↔ (s.lab n).dist ≠ ⊤
  open_lt : ∀ n ∈ s.opn, (s.lab n).rhs < (s.lab n).dist
  open_key : ∀ n ∈ s.opn, (s.lab n).key2 = (s.lab n).rhs ∧ (s.lab n).key1 = (s.lab n).rhs + ((s.lab n).h : K)
  shut_eq : ∀ n, n ∉ s.opn → (s.lab n).rhs = (s.lab n).dist
  pred : ∀ n, n ≠ A.goal → (s.lab n).rhs ≠ ⊤ →
    ∃ p c, (s.lab n).prev = some p ∧ (n, c) ∈ A.succ p ∧ (s.lab p).dist + (c : K) ≤ (s.lab n).rhs
  prev_none : ∀ n, (n = A.goal ∨ (s.lab n).rhs = ⊤) → (s.lab n).prev = none
  goal_rhs : (s.lab A.goal).rhs = 0
  goal_dist : (s.lab A.goal).dist = ⊤ ∨ (s.lab A.goal).dist = 0
  first : (s.lab A.goal).dist = ⊤ → ∀ n, n ≠ A.goal → (s.lab n).rhs = ⊤
  reach : ∀ n, (s.lab n).rhs ≠ ⊤ → CanReach (dstep A) A.goal n

omit [IsOrderedAddMonoid K] in
@[simp] theorem setD_self (lab : N → DLab N K) (n : N) (l : DLab N K) : setD lab n l n = l := by simp [setD]
omit [IsOrderedAddMonoid K] in
theorem setD_ne (lab : N → DLab N K) {n m : N} (l : DLab N K) (h : m ≠ n) : setD lab n l m = lab m := by
  simp [setD, h]
omit [IsOrderedAddMonoid K] in
@[simp] theorem setD_setD (lab : N → DLab N K) (n : N) (l l' : DLab N K) : setD (setD lab n l) n l' = setD lab n l' := by
  funext m; by_cases h : m = n <;> simp [setD, h]

theorem rhs_le_dist {A : DAlgo N K} {s : DSt N K} (hi : DInv A s) (n : N) : (s.lab n).rhs ≤ (s.lab n).dist := by
  by_cases h : n ∈ s.opn
  · exact (hi.open_lt n h).le
  · exact (hi.shut_eq n h).le

/-- `processNeighbor` either does nothing or gives the neighbour a smaller value than its distance. -/
theorem dProcess_cases {A : DAlgo N K} {s : DSt N K} (hi : DInv A s) {cur : N} (hc : (s.lab cur).dist ≠ ⊤)
    (hg : (s.lab A.goal).dist = 0) (m : N × K) (hm : 0 < m.2) (h0 : 0 ≤ (s.lab cur).dist) :
    (dProcess A cur s m = s ∧ (s.lab m.1).rhs ≠ ⊤ ∧ ¬ (s.lab cur).dist + (m.2 : K) < (s.lab m.1).dist) ∨
    (m.1 ≠ A.goal ∧ m.1 ≠ cur ∧ (s.lab cur).dist + (m.2 : K) < (s.lab m.1).dist ∧
      dProcess A cur s m =
        ⟨setD s.lab m.1 { s.lab m.1 with
            prev := some cur, h := A.heur m.1 A.start, rhs := (s.lab cur).dist + (m.2 : K),
            key2 := (s.lab cur).dist + (m.2 : K),
            key1 := (s.lab cur).dist + (m.2 : K) + (A.heur m.1 A.start : K), opn := true },
          s.opn.erase m.1 ++ [m.1]⟩) := by
  obtain ⟨n, c⟩ := m
  simp only at hm ⊢
  by_cases hcl : (s.lab cur).dist + (c : K) < (s.lab n).dist
  · right
    have hng : n ≠ A.goal := by
      rintro rfl
      rw [hg] at hcl
      have : (0 : WithTop K) ≤ (s.lab cur).dist + (c : K) :=
        add_nonneg h0 (by exact_mod_cast hm.le)
      exact absurd hcl (not_lt.2 this)
    have hnc : n ≠ cur := by
      rintro rfl
      have : (s.lab n).dist ≤ (s.lab n).dist + (c : K) :=
        le_add_of_nonneg_right (by exact_mod_cast hm.le)
      exact absurd hcl (not_lt.2 this)
    refine ⟨hng, hnc, hcl, ?_⟩
    have hopn : (if (s.lab n).opn = true then s.opn.erase n else s.opn) = s.opn.erase n := by
      by_cases ho : (s.lab n).opn = true
      · rw [if_pos ho]
      · rw [if_neg ho, List.erase_of_not_mem]
        rwa [← hi.opn_iff]
    simp only [dProcess, hcl, decide_true, Bool.not_true, Bool.and_false, Bool.or_true, if_true,
      updateVertex, hng, if_false, setD_self, setD_setD, DLab.calcKey, DLab.calc1, DLab.calc2, Bool.false_eq_true]
    rw [if_pos (ne_of_gt hcl), hopn]
  · left
    have hcd : (s.lab n).dist ≠ ⊤ := by
      intro e
      rw [e] at hcl
      apply hcl
      rw [WithTop.lt_top_iff_ne_top]
      exact WithTop.add_ne_top.2 ⟨hc, WithTop.coe_ne_top⟩
    have : (s.lab n).closed = true := (hi.closed_iff n).2 hcd
    refine ⟨?_, ?_, hcl⟩
    · simp [dProcess, this, hcl]
    · exact ne_top_of_le_ne_top hcd (rhs_le_dist hi n)

omit [IsOrderedAddMonoid K] in
theorem updateVertex_lab (A : DAlgo N K) (n : N) (d : WithTop K) (s : DSt N K) (x : N) :
    ((updateVertex A n d s).lab x).dist = (s.lab x).dist ∧
    (((updateVertex A n d s).lab x).rhs = (s.lab x).rhs ∨ ((updateVertex A n d s).lab x).rhs = d) := by
  unfold updateVertex
  by_cases hx : x = n
  · subst hx
    by_cases hg : x = A.goal
    · simp only [hg, if_true]
      split <;> simp [DLab.calcKey]
    · simp only [hg, if_false]
      split <;> simp [DLab.calcKey]
  · generalize (if n = A.goal then s.lab n else { s.lab n with rhs := d }) = l
    simp only
    split <;> simp [setD_ne _ _ hx]

omit [IsOrderedAddMonoid K] in
theorem dProcess_lab (A : DAlgo N K) (cur : N) (s : DSt N K) (m : N × K) (n : N) :
    ((dProcess A cur s m).lab n).dist = (s.lab n).dist ∧
    (((dProcess A cur s m).lab n).rhs = (s.lab n).rhs ∨
      ((dProcess A cur s m).lab n).rhs = (s.lab cur).dist + (m.2 : K)) := by
  have key : (setD s.lab m.1 { s.lab m.1 with prev := some cur, h := A.heur m.1 A.start } n).dist = (s.lab n).dist ∧
      (setD s.lab m.1 { s.lab m.1 with prev := some cur, h := A.heur m.1 A.start } n).rhs = (s.lab n).rhs := by
    by_cases h : n = m.1
    · subst h; simp
    · simp [setD_ne _ _ h]
  unfold dProcess
  simp only
  split
  · simp
  · split
    · have := updateVertex_lab A m.1 ((s.lab cur).dist + (m.2 : K))
        ⟨setD s.lab m.1 { s.lab m.1 with prev := some cur, h := A.heur m.1 A.start }, s.opn⟩ n
      simp only [key.1, key.2] at this
      exact this
    · simp

omit [IsOrderedAddMonoid K] in
theorem dProcess_dist (A : DAlgo N K) (cur : N) (s : DSt N K) (m : N × K) (n : N) :
    ((dProcess A cur s m).lab n).dist = (s.lab n).dist := (dProcess_lab A cur s m n).1

theorem dProcess_inv {A : DAlgo N K} {s : DSt N K} (hi : DInv A s) {cur : N} (hc : (s.lab cur).dist ≠ ⊤)
    (hg : (s.lab A.goal).dist = 0) (h0 : 0 ≤ (s.lab cur).dist) (m : N × K) (hm : 0 < m.2) (hsucc : m ∈ A.succ cur) :
    DInv A (dProcess A cur s m) ∧ ((dProcess A cur s m).lab m.1).rhs ≠ ⊤ ∧
      ∀ n, (s.lab n).rhs ≠ ⊤ → ((dProcess A cur s m).lab n).rhs ≠ ⊤ := by
  rcases dProcess_cases hi hc hg m hm h0 with ⟨e, h1, _⟩ | ⟨hng, hnc, hlt, e⟩
  · rw [e]; exact ⟨hi, h1, fun n hn => hn⟩
  · obtain ⟨n, c⟩ := m
    simp only at hm hng hnc hlt e
    have hval : (s.lab cur).dist + (c : K) ≠ ⊤ := WithTop.add_ne_top.2 ⟨hc, WithTop.coe_ne_top⟩
    have hcr : (s.lab cur).rhs ≠ ⊤ := ne_top_of_le_ne_top hc (rhs_le_dist hi cur)
    have hmem : ∀ x, x ∈ s.opn.erase n ++ [n] ↔ x ∈ s.opn ∨ x = n := by
      intro x
      simp only [List.mem_append, List.mem_singleton]
      by_cases hx : x = n
      · simp [hx]
      · rw [List.mem_erase_of_ne hx]
    rw [e]
    refine ⟨?_, by simpa using hval, ?_⟩
    · constructor
      · intro x
        rw [hmem]
        by_cases hx : x = n
        · subst hx; simp
        · simp only [setD_ne _ _ hx, hi.opn_iff, hx, or_false]
      · rw [List.nodup_append]
        refine ⟨hi.nodup.erase n, by simp, ?_⟩
        intro a ha b hb
        simp only [List.mem_singleton] at hb
        rintro rfl
        subst hb
        exact (List.Nodup.not_mem_erase hi.nodup) ha
      · intro x
        by_cases hx : x = n
        · subst hx; simpa using hi.closed_iff x
        · simpa [setD_ne _ _ hx] using hi.closed_iff x
      · intro x hxo
        by_cases hx : x = n
        · subst hx; simpa using hlt
        · simp only [setD_ne _ _ hx]
          exact hi.open_lt x (((hmem x).1 hxo).resolve_right hx)
      · intro x hxo
        by_cases hx : x = n
        · subst hx; simp
        · simp only [setD_ne _ _ hx]
          exact hi.open_key x (((hmem x).1 hxo).resolve_right hx)
      · intro x hxo
        rw [hmem] at hxo
        push Not at hxo
        simp only [setD_ne _ _ hxo.2]
        exact hi.shut_eq x hxo.1
      · intro x hxg hxr
        by_cases hx : x = n
        · subst hx
          refine ⟨cur, c, by simp, hsucc, ?_⟩
          simp only [setD_self, setD_ne _ _ hnc.symm]
          exact le_rfl
        · simp only [setD_ne _ _ hx] at hxr ⊢
          obtain ⟨p, d, h1, h2, h3⟩ := hi.pred x hxg hxr
          refine ⟨p, d, h1, h2, ?_⟩
          by_cases hp : p = n
          · subst hp; simpa using h3
          · simpa [setD_ne _ _ hp] using h3
      · intro x hx
        by_cases hxn : x = n
        · subst hxn
          rcases hx with hx | hx
          · exact absurd hx hng
          · simp only [setD_self] at hx; exact absurd hx hval
        · simp only [setD_ne _ _ hxn] at hx ⊢
          exact hi.prev_none x hx
      · simpa [setD_ne _ _ hng.symm] using hi.goal_rhs
      · simpa [setD_ne _ _ hng.symm] using hi.goal_dist
      · intro hgd
        simp only [setD_ne _ _ hng.symm, hg] at hgd
        exact absurd hgd (by simp)
      · intro x hxr
        by_cases hx : x = n
        · subst hx
          obtain ⟨d, l, hw⟩ := hi.reach cur hcr
          exact ⟨_, _, hw.next hsucc⟩
        · simp only [setD_ne _ _ hx] at hxr
          exact hi.reach x hxr
    · intro x hx
      by_cases hxn : x = n
      · subst hxn; simpa using hval
      · simpa [setD_ne _ _ hxn] using hx

omit [IsOrderedAddMonoid K] in
theorem foldl_dist (A : DAlgo N K) (cur : N) (l : List (N × K)) (s : DSt N K) (n : N) :
    ((l.foldl (dProcess A cur) s).lab n).dist = (s.lab n).dist := by
  induction l generalizing s with
  | nil => rfl
  | cons m l ih => rw [List.foldl_cons, ih, dProcess_dist]

theorem foldl_inv {A : DAlgo N K} {cur : N} (l : List (N × K)) (hl : ∀ m ∈ l, 0 < m.2 ∧ m ∈ A.succ cur)
    {s : DSt N K} (hi : DInv A s) (hc : (s.lab cur).dist ≠ ⊤) (hg : (s.lab A.goal).dist = 0) (h0 : 0 ≤ (s.lab cur).dist) :
    DInv A (l.foldl (dProcess A cur) s) ∧ (∀ m ∈ l, ((l.foldl (dProcess A cur) s).lab m.1).rhs ≠ ⊤) ∧
      ∀ n, (s.lab n).rhs ≠ ⊤ → ((l.foldl (dProcess A cur) s).lab n).rhs ≠ ⊤ := by
  induction l generalizing s with
  | nil => exact ⟨hi, by simp, fun n hn => hn⟩
  | cons m l ih =>
    rw [List.foldl_cons]
    obtain ⟨h1, h2, h3⟩ := dProcess_inv hi hc hg h0 m (hl m (by simp)).1 (hl m (by simp)).2
    obtain ⟨k1, k2, k3⟩ := ih (fun x hx => hl x (by simp [hx])) h1 (by rw [dProcess_dist]; exact hc)
      (by rw [dProcess_dist]; exact hg) (by rw [dProcess_dist]; exact h0)
    refine ⟨k1, ?_, fun n hn => k3 n (h3 n hn)⟩
    intro x hx
    rcases List.mem_cons.1 hx with rfl | hx
    · exact k3 _ h2
    · exact k2 x hx

/-- Invariant between the rounds of the loop. -/
structure DLoopInv (A : DAlgo N K) (s : DSt N K) : Prop extends DInv A s where
  complete : ∀ n, (s.lab n).dist ≠ ⊤ → ∀ m ∈ A.succ n, (s.lab m.1).rhs ≠ ⊤
  start_top : A.start ≠ A.goal → (s.lab A.start).dist = ⊤
  nonneg : ∀ n, 0 ≤ (s.lab n).dist ∧ 0 ≤ (s.lab n).rhs

omit [IsOrderedAddMonoid K] in
theorem foldl_vals {A : DAlgo N K} {cur : N} (l : List (N × K)) (P : WithTop K → Prop)
    {s : DSt N K} (hs : ∀ n, P (s.lab n).rhs) (hadd : ∀ m ∈ l, P ((s.lab cur).dist + (m.2 : K))) :
    ∀ n, P ((l.foldl (dProcess A cur) s).lab n).rhs := by
  induction l generalizing s with
  | nil => exact hs
  | cons m l ih =>
    rw [List.foldl_cons]
    apply ih
    · intro n
      rcases (dProcess_lab A cur s m n).2 with e | e <;> rw [e]
      · exact hs n
      · exact hadd m (by simp)
    · intro x hx
      rw [dProcess_dist]
      exact hadd x (by simp [hx])

/-- The state after the current node has been taken from the open list. -/
def popSt (s : DSt N K) (c : N) : DSt N K :=
  ⟨setD s.lab c { s.lab c with opn := false, closed := true, dist := (s.lab c).rhs }, s.opn.erase c⟩

theorem dStep_eq {A : DAlgo N K} (ht : DTopOk A) {s : DSt N K} (hi : DInv A s) {c : N}
    (hc : A.top s.lab s.opn = some c) : dStep A s = .ok (dIterate A c (popSt s c)) := by
  have := hi.open_lt c (ht.mem _ _ _ hc)
  simp [dStep, hc, popSt, this]

/-- One round that takes `c` from the open list. -/
theorem pop_inv {A : DAlgo N K} (hpos : ∀ n, ∀ m ∈ A.succ n, 0 < m.2) {s : DSt N K} (hi : DLoopInv A s) {c : N}
    (hc : c ∈ s.opn) (hs : c ≠ A.start ∨ A.start = A.goal) :
    DLoopInv A (dIterate A c (popSt s c)) ∧
      (∀ n, ((dIterate A c (popSt s c)).lab n).dist = if n = c then (s.lab c).rhs else (s.lab n).dist) := by
  have hlt := hi.open_lt c hc
  have hrt : (s.lab c).rhs ≠ ⊤ := ne_top_of_lt hlt
  have hmem : ∀ x, x ∈ s.opn.erase c ↔ x ∈ s.opn ∧ x ≠ c := by
    intro x
    rw [List.Nodup.mem_erase_iff hi.nodup, and_comm]
  have hgd : ((popSt s c).lab A.goal).dist = 0 := by
    by_cases hg : A.goal = c
    · subst hg; simp [popSt, hi.goal_rhs]
    · simp only [popSt, setD_ne _ _ hg]
      rcases hi.goal_dist with h | h
      · exact absurd (hi.first h c (Ne.symm hg)) hrt
      · exact h
  have hi1 : DInv A (popSt s c) := by
    constructor
    · intro x
      simp only [popSt, hmem]
      by_cases hx : x = c
      · subst hx; simp
      · simp only [setD_ne _ _ hx, hi.opn_iff]; simp [hx]
    · exact hi.nodup.erase c
    · intro x
      by_cases hx : x = c
      · subst hx; simpa [popSt] using hrt
      · simpa [popSt, setD_ne _ _ hx] using hi.closed_iff x
    · intro x hx
      have hx' := (hmem x).1 hx
      simpa [popSt, setD_ne _ _ hx'.2] using hi.open_lt x hx'.1
    · intro x hx
      have hx' := (hmem x).1 hx
      simpa [popSt, setD_ne _ _ hx'.2] using hi.open_key x hx'.1
    · intro x hx
      by_cases hxc : x = c
      · subst hxc; simp [popSt]
      · have : x ∉ s.opn := fun h => hx ((hmem x).2 ⟨h, hxc⟩)
        simpa [popSt, setD_ne _ _ hxc] using hi.shut_eq x this
    · intro x hxg hxr
      have hr : ((popSt s c).lab x).rhs = (s.lab x).rhs ∧ ((popSt s c).lab x).prev = (s.lab x).prev := by
        by_cases hx : x = c
        · subst hx; simp [popSt]
        · simp [popSt, setD_ne _ _ hx]
      rw [hr.1] at hxr ⊢
      rw [hr.2]
      obtain ⟨p, d, h1, h2, h3⟩ := hi.pred x hxg hxr
      refine ⟨p, d, h1, h2, ?_⟩
      by_cases hp : p = c
      · subst hp
        simp only [popSt, setD_self]
        exact le_trans (by gcongr) h3
      · simpa [popSt, setD_ne _ _ hp] using h3
    · intro x hx
      have hr : ((popSt s c).lab x).rhs = (s.lab x).rhs ∧ ((popSt s c).lab x).prev = (s.lab x).prev := by
        by_cases hx : x = c
        · subst hx; simp [popSt]
        · simp [popSt, setD_ne _ _ hx]
      rw [hr.1] at hx
      rw [hr.2]
      exact hi.prev_none x hx
    · by_cases hg : A.goal = c
      · rw [← hi.goal_rhs, hg]; simp [popSt]
      · simpa [popSt, setD_ne _ _ hg] using hi.goal_rhs
    · exact Or.inr hgd
    · intro h; rw [hgd] at h; exact absurd h (by simp)
    · intro x hxr
      apply hi.reach x
      by_cases hx : x = c
      · subst hx; exact hrt
      · simpa [popSt, setD_ne _ _ hx] using hxr
  have hcd : ((popSt s c).lab c).dist = (s.lab c).rhs := by simp [popSt]
  have hdist : ∀ n, ((dIterate A c (popSt s c)).lab n).dist = if n = c then (s.lab c).rhs else (s.lab n).dist := by
    intro n
    rw [dIterate, foldl_dist]
    by_cases hn : n = c
    · subst hn; simp [popSt]
    · simp [popSt, setD_ne _ _ hn, hn]
  obtain ⟨k1, k2, k3⟩ := foldl_inv (A := A) (cur := c) (A.succ c) (fun m hm => ⟨hpos c m hm, hm⟩) hi1
    (by rw [hcd]; exact hrt) hgd (by rw [hcd]; exact (hi.nonneg c).2)
  refine ⟨⟨k1, ?_, ?_, ?_⟩, hdist⟩
  · intro n hn m hm
    rw [hdist] at hn
    by_cases hnc : n = c
    · subst hnc; exact k2 m hm
    · rw [if_neg hnc] at hn
      apply k3
      have := hi.complete n hn m hm
      by_cases hmc : m.1 = c
      · rw [hmc]; simpa [popSt] using hrt
      · simpa [popSt, setD_ne _ _ hmc] using this
  · intro hsg
    rw [hdist]
    have : A.start ≠ c := (hs.resolve_right hsg).symm
    rw [if_neg this]
    exact hi.start_top hsg
  · intro n
    constructor
    · rw [hdist]
      split_ifs
      · exact (hi.nonneg c).2
      · exact (hi.nonneg n).1
    · apply foldl_vals (A.succ c) (fun v => 0 ≤ v)
      · intro x
        by_cases hx : x = c
        · subst hx; simpa [popSt] using (hi.nonneg x).2
        · simpa [popSt, setD_ne _ _ hx] using (hi.nonneg x).2
      · intro m hm
        rw [hcd]
        exact add_nonneg (hi.nonneg c).2 (by exact_mod_cast (hpos c m hm).le)

/-- The start itself is never taken from the open list. -/
theorem top_ne_start {A : DAlgo N K} (ht : DTopOk A) {s : DSt N K} (hi : DInv A s) {c : N}
    (hc : A.top s.lab s.opn = some c) (hw : continueWhile A s = true) : c ≠ A.start := by
  rintro rfl
  have hm := ht.mem _ _ _ hc
  have hlt := hi.open_lt _ hm
  obtain ⟨e2, e1⟩ := hi.open_key _ hm
  simp [continueWhile, topKey, hc, lessKeys, DLab.calc1, DLab.calc2, hlt, e1, e2, hlt.ne] at hw

end PathPlanning.DStar
