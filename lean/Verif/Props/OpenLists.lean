import Verif.Model.OpenLists
import Verif.Spec.Search
import Mathlib.Data.List.Basic

/-!
# The open lists meet the contract the search relies on (C35)
-/

namespace PathPlanning
set_option linter.unusedSectionVars false

variable {N C : Type}

/-- C35: `QueueManager` is a lawful open list. -/
def queueLawful : Lawful (QueueManager : OpenList N C) where
  mem (o : List N) n := n ∈ o
  size (o : List N) := o.length
  empty_mem n := by simp [QueueManager]
  add_mem := by
    intro (o : List N) n k m
    show m ∈ o ++ [n] ↔ _
    simp [or_comm]
  next_none := by
    intro (o : List N)
    cases o with
    | nil => simp [QueueManager]
    | cons a o => simp [QueueManager]; exact ⟨a, fun h => absurd rfl h⟩
  next_some := by
    intro (o : List N) n (o' : List N) h
    cases o with
    | nil => simp [QueueManager] at h
    | cons a o =>
      simp only [QueueManager, Option.some.injEq, Prod.mk.injEq] at h
      obtain ⟨rfl, rfl⟩ := h
      exact ⟨by simp, fun m hm => by simp [hm], fun m hm => by simpa using hm⟩
  next_size := by
    intro (o : List N) n (o' : List N) h
    cases o with
    | nil => simp [QueueManager] at h
    | cons a o =>
      simp only [QueueManager, Option.some.injEq, Prod.mk.injEq] at h
      obtain ⟨rfl, rfl⟩ := h
      simp

/-- C35: `StackManager` is a lawful open list. -/
def stackLawful : Lawful (StackManager : OpenList N C) where
  mem (o : List N) n := n ∈ o
  size (o : List N) := o.length
  empty_mem n := by simp [StackManager]
  add_mem := by
    intro (o : List N) n k m
    show m ∈ n :: o ↔ _
    simp
  next_none := by
    intro (o : List N)
    cases o with
    | nil => simp [StackManager]
    | cons a o => simp [StackManager]; exact ⟨a, fun h => absurd rfl h⟩
  next_some := by
    intro (o : List N) n (o' : List N) h
    cases o with
    | nil => simp [StackManager] at h
    | cons a o =>
      simp only [StackManager, Option.some.injEq, Prod.mk.injEq] at h
      obtain ⟨rfl, rfl⟩ := h
      exact ⟨by simp, fun m hm => by simp [hm], fun m hm => by simpa using hm⟩
  next_size := by
    intro (o : List N) n (o' : List N) h
    cases o with
    | nil => simp [StackManager] at h
    | cons a o =>
      simp only [StackManager, Option.some.injEq, Prod.mk.injEq] at h
      obtain ⟨rfl, rfl⟩ := h
      simp

section prio
variable [DecidableEq N] [LinearOrder C]

theorem bestEntry_mem : ∀ (e : N × WithTop C) (o : List (N × WithTop C)), bestEntry e o ∈ e :: o := by
  intro e o
  induction o generalizing e with
  | nil => simp [bestEntry]
  | cons f fs ih =>
    rw [bestEntry]
    split
    · exact List.mem_cons_of_mem _ (ih f)
    · rcases List.mem_cons.1 (ih e) with h | h
      · rw [h]; simp
      · simp [h]

theorem bestEntry_le : ∀ (e : N × WithTop C) (o : List (N × WithTop C)),
    ∀ x ∈ e :: o, (bestEntry e o).2 ≤ x.2 := by
  intro e o
  induction o generalizing e with
  | nil => intro x hx; simp at hx; simp [bestEntry, hx]
  | cons f fs ih =>
    intro x hx
    rw [bestEntry]
    split
    · rename_i hlt
      rcases List.mem_cons.1 hx with h | h
      · exact ((ih f) f (by simp)).trans (by rw [h]; exact hlt.le)
      · exact ih f x h
    · rename_i hlt
      rcases List.mem_cons.1 hx with h | h
      · exact ih e x (by simp [h])
      · rcases List.mem_cons.1 h with h | h
        · exact ((ih e) e (by simp)).trans (by rw [h]; exact not_lt.1 hlt)
        · exact ih e x (by simp [h])

/-- The reference priority queue is a lawful open list. -/
def prioLawful : Lawful (PriorityManager : OpenList N C) where
  mem (o : List (N × WithTop C)) n := ∃ k, (n, k) ∈ o
  size (o : List (N × WithTop C)) := o.length
  empty_mem n := by simp [PriorityManager]
  add_mem := by
    intro (o : List (N × WithTop C)) n k m
    show (∃ k', (m, k') ∈ o ++ [(n, k)]) ↔ _
    simp only [List.mem_append, List.mem_singleton, Prod.mk.injEq]
    constructor
    · rintro ⟨k', h | h⟩
      · exact .inr ⟨k', h⟩
      · exact .inl h.1
    · rintro (h | ⟨k', h⟩)
      · exact ⟨k, .inr ⟨h, rfl⟩⟩
      · exact ⟨k', .inl h⟩
  next_none := by
    intro (o : List (N × WithTop C))
    cases o with
    | nil => simp [PriorityManager]
    | cons a o => simp [PriorityManager]; exact ⟨a.1, a.2, fun h => absurd rfl h⟩
  next_some := by
    intro (o : List (N × WithTop C)) n (o' : List (N × WithTop C)) h
    cases o with
    | nil => simp [PriorityManager] at h
    | cons a o =>
      simp only [PriorityManager, Option.some.injEq, Prod.mk.injEq] at h
      obtain ⟨rfl, rfl⟩ := h
      refine ⟨⟨_, bestEntry_mem a o⟩, fun m ⟨k, hm⟩ => ⟨k, List.mem_of_mem_erase hm⟩,
        fun m ⟨k, hm⟩ => ?_⟩
      by_cases e : (m, k) = bestEntry a o
      · left; rw [← e]
      · right; exact ⟨k, (List.mem_erase_of_ne e).2 hm⟩
  next_size := by
    intro (o : List (N × WithTop C)) n (o' : List (N × WithTop C)) h
    cases o with
    | nil => simp [PriorityManager] at h
    | cons a o =>
      simp only [PriorityManager, Option.some.injEq, Prod.mk.injEq] at h
      obtain ⟨rfl, rfl⟩ := h
      show ((a :: o).erase _).length < (a :: o).length
      rw [List.length_erase_of_mem (bestEntry_mem a o)]
      simp

/-- ... and hands out entries with the smallest key. -/
def prioMin : MinFirst (PriorityManager : OpenList N C) where
  ent (o : List (N × WithTop C)) n k := (n, k) ∈ o
  empty_ent n k := by simp [PriorityManager]
  add_ent := by
    intro (o : List (N × WithTop C)) n k m k'
    show (m, k') ∈ o ++ [(n, k)] ↔ _
    simp [or_comm]
  next_some := by
    intro (o : List (N × WithTop C)) n (o' : List (N × WithTop C)) h
    cases o with
    | nil => simp [PriorityManager] at h
    | cons a o =>
      simp only [PriorityManager, Option.some.injEq, Prod.mk.injEq] at h
      obtain ⟨rfl, rfl⟩ := h
      refine ⟨(bestEntry a o).2, bestEntry_mem a o, fun m k' hm => bestEntry_le a o _ hm,
        fun m k hm => List.mem_of_mem_erase hm, fun m k hm => ?_⟩
      by_cases e : (m, k) = bestEntry a o
      · left; rw [← e]; exact ⟨rfl, rfl⟩
      · right; exact (List.mem_erase_of_ne e).2 hm

end prio

/-- An operation on an open list as seen by its user. -/
inductive OLOp (N : Type) where
  | add (n : N)
  | next
  | clear

/-- Running a history of operations; the nodes handed out by `next` are collected (nothing is
handed out by `next` on an empty list, which is a failed assert in the code and does not occur in
the search, which tests `empty()` first). -/
def runOps (P : OpenList N C) (key : N → WithTop C) : List (OLOp N) → P.O → List N × P.O
  | [], o => ([], o)
  | .add n :: ops, o => runOps P key ops (P.add o n (key n))
  | .clear :: ops, _ => runOps P key ops P.empty
  | .next :: ops, o =>
    match P.next o with
    | none => runOps P key ops o
    | some (n, o') => let r := runOps P key ops o'; (n :: r.1, r.2)

/-- Reference semantics: the stored nodes in order of insertion; FIFO takes the oldest, LIFO the
youngest. -/
def refOps (fifo : Bool) : List (OLOp N) → List N → List N
  | [], _ => []
  | .add n :: ops, l => refOps fifo ops (l ++ [n])
  | .clear :: ops, _ => refOps fifo ops []
  | .next :: ops, l =>
    if fifo then
      match l with
      | [] => refOps fifo ops []
      | n :: l' => n :: refOps fifo ops l'
    else
      match l.getLast? with
      | none => refOps fifo ops []
      | some n => n :: refOps fifo ops l.dropLast

/-- C35: over every history, `QueueManager` hands out the nodes in first-in first-out order. -/
theorem queue_fifo (key : N → WithTop C) (ops : List (OLOp N)) :
    (runOps (QueueManager : OpenList N C) key ops (QueueManager (C := C)).empty).1
      = refOps true ops [] := by
  have h : ∀ (ops : List (OLOp N)) (o : List N),
      (runOps (QueueManager : OpenList N C) key ops o).1 = refOps true ops o := by
    intro ops
    induction ops with
    | nil => intro o; rfl
    | cons op ops ih =>
      intro o
      cases op with
      | add n => exact ih _
      | clear => exact ih _
      | next =>
        cases o with
        | nil => exact ih _
        | cons a o =>
          show a :: (runOps (QueueManager : OpenList N C) key ops o).1 = _
          rw [ih]; rfl
  exact h ops []

/-- C35: over every history, `StackManager` hands out the nodes in last-in first-out order. -/
theorem stack_lifo (key : N → WithTop C) (ops : List (OLOp N)) :
    (runOps (StackManager : OpenList N C) key ops (StackManager (C := C)).empty).1
      = refOps false ops [] := by
  have h : ∀ (ops : List (OLOp N)) (o : List N),
      (runOps (StackManager : OpenList N C) key ops o).1 = refOps false ops o.reverse := by
    intro ops
    induction ops with
    | nil => intro o; rfl
    | cons op ops ih =>
      intro o
      cases op with
      | add n =>
        show (runOps (StackManager : OpenList N C) key ops (n :: o)).1 = _
        rw [ih]; simp [refOps]
      | clear =>
        show (runOps (StackManager : OpenList N C) key ops []).1 = _
        rw [ih]; rfl
      | next =>
        cases o with
        | nil =>
          show (runOps (StackManager : OpenList N C) key ops []).1 = _
          rw [ih]; rfl
        | cons a o =>
          show a :: (runOps (StackManager : OpenList N C) key ops o).1 = _
          rw [ih]; simp [refOps]
  exact h ops []

/-- A non-trivial history. -/
example : refOps true [OLOp.add 1, .add 2, .next, .add 3, .next, .next] ([] : List Nat) = [1, 2, 3] ∧
    refOps false [OLOp.add 1, .add 2, .next, .add 3, .next, .next] ([] : List Nat) = [2, 3, 1] := by
  decide

end PathPlanning
