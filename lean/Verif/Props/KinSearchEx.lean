import Verif.Props.KinSearch
import Verif.Props.SearchExamples

/-!
# Search over stored poses: a path that cannot be driven, and the hypotheses of the theorems
-/

namespace PathPlanning
namespace KinEx
open Spec

/-- Poses `0 … 8` are `s a0 a p0 p1 p2 n0 n g0`; cells `0 … 4` are `S A P N G`.  From the start `s` the
vehicle reaches `p1` directly (cost 5) and `p2` through `a` (cost 4); both lie in cell `P`, but only from
`p1` it can drive on to `n`, the goal. -/
def A : KAlgo (Fin 5) (Fin 9) Nat where
  zero := 0
  add := (· + ·)
  moves := [fun k _ => if k = 0 then some (2, 2) else if k = 2 then some (2, 5) else
      if k = 4 then some (4, 7) else none,
    fun k _ => if k = 0 then some (5, 4) else none]
  predDepth := 0
  usable _ _ := .ok true
  lookup k := .ok (some ([0, 1, 1, 2, 2, 2, 3, 3, 4] : List (Fin 5))[k])
  heur k _ := ([8, 8, 6, 2, 4, 4, 2, 0, 0] : List Nat)[k]
  isGoal _ k _ := k = 7
  distTo _ _ := 0
  accept := none

/-- The poses of the nodes before the search. -/
def kin0 : Fin 5 → Fin 9 := fun n => ([0, 1, 3, 6, 8] : List (Fin 9))[n]

def minTop {N C : Type} [LinearOrder C] : List (N × C) → Option (N × C)
  | [] => none
  | x :: l => match minTop l with
    | none => some x
    | some y => if y.2 < x.2 then some y else some x

theorem minTop_ok {N C : Type} [LinearOrder C] : TopOk (minTop (N := N) (C := C)) where
  none_iff l := by
    cases l with
    | nil => simp [minTop]
    | cons x l =>
      simp only [minTop, reduceCtorEq, iff_false]
      split
      · simp
      · split_ifs <;> simp
  mem l := by
    induction l with
    | nil => intro x hx; simp [minTop] at hx
    | cons a l ih =>
      intro x hx
      simp only [minTop] at hx
      split at hx
      · cases hx; simp
      · rename_i y hy
        split_ifs at hx <;> cases hx
        · exact List.mem_cons_of_mem _ (ih _ hy)
        · simp
  min l := by
    induction l with
    | nil => intro x hx; simp [minTop] at hx
    | cons a l ih =>
      intro x hx y hy
      simp only [minTop] at hx
      rcases List.mem_cons.1 hy with rfl | hy
      · split at hx
        · cases hx; exact le_refl _
        · split_ifs at hx with h1 <;> cases hx
          · exact h1.le
          · exact le_refl _
      · split at hx
        · rename_i hn
          cases l with
          | nil => simp at hy
          | cons b l =>
            exfalso
            simp only [minTop] at hn
            split at hn
            · cases hn
            · split_ifs at hn <;> cases hn
        · rename_i z hz
          have := ih z hz y hy
          split_ifs at hx with h1 <;> cases hx
          · exact this
          · exact (not_lt.1 h1).trans this

def cfg : SCfg (Fin 5) Nat where
  start := [0]
  goal := [4]
  useCands := false
  oversearch := 0
  accept := none
  abort _ := false
  canExpand _ _ _ := none
  top := minTop

def P : OpenList (Fin 5) Nat := PriorityManager

/-- The state after an iteration that goes on. -/
def next (st : KSt (Fin 5) (Fin 9) Nat P) : Option (KSt (Fin 5) (Fin 9) Nat P) :=
  match kIterate A cfg st with
  | .more st' => some st'
  | .done _ _ => none

theorem kLoop_next {n : Nat} {st st' : KSt (Fin 5) (Fin 9) Nat P} (h : next st = some st') :
    kLoop A cfg (n + 1) st = kLoop A cfg n st' := by
  unfold next at h
  rw [kLoop]
  split at h <;> rename_i e
  · cases h; rw [e]
  · cases h

def st4 : Option (KSt (Fin 5) (Fin 9) Nat P) :=
  (next (kInit A P cfg kin0)).bind fun s => (next s).bind fun s => (next s).bind next

theorem st4_some : st4.isSome = true := by decide +kernel

/-- The state before the fifth iteration. -/
def fin : KSt (Fin 5) (Fin 9) Nat P := st4.get st4_some

theorem fin_next : P.next fin.s.opn = some (3, P.empty) := by rfl

theorem fin_kin : fin.kin 0 = 0 ∧ fin.kin 1 = 2 ∧ fin.kin 2 = 5 ∧ fin.kin 3 = 7 := by decide +kernel

theorem fin_prev : (fin.s.lab 3).prev = some 2 ∧ (fin.s.lab 2).prev = some 1 ∧ (fin.s.lab 1).prev = some 0 ∧
    (fin.s.lab 0).prev = none := by decide +kernel

theorem run4 (n : Nat) : kLoop A cfg (n + 4) (kInit A P cfg kin0) = kLoop A cfg n fin := by
  have h : st4 = some fin := (Option.some_get st4_some).symm
  unfold st4 at h
  simp only [Option.bind_eq_some_iff] at h
  obtain ⟨a, h1, b, h2, c, h3, h4⟩ := h
  rw [kLoop_next (n := n + 3) h1, kLoop_next (n := n + 2) h2, kLoop_next (n := n + 1) h3,
    kLoop_next (n := n) h4]

theorem last_iter : ∃ st', kIterate A cfg fin = .done (.ok [0, 1, 2, 3]) st' ∧ st'.kin = fin.kin := by
  obtain ⟨p3, p2, p1, p0⟩ := fin_prev
  unfold kIterate
  rw [fin_next]
  set s1 := popNode (A.alg fin.s.lab fin.kin) cfg fin.s 3 P.empty with hs1
  have e : ∀ m, (s1.lab m).prev = (fin.s.lab m).prev := by
    intro m
    rw [hs1]
    unfold popNode setLab
    simp only
    split_ifs with h
    · rw [h]
    · rfl
  have hb : backtrack s1.lab [0] 3 = .ok [0, 1, 2, 3] := by
    unfold backtrack
    rw [backtrackFrom, if_neg (by decide), dif_neg (by decide), e 3, p3]
    simp only [e 2, p2]
    rw [if_neg (by decide), backtrackFrom, if_neg (by decide), dif_neg (by decide), e 2, p2]
    simp only [e 1, p1]
    rw [if_neg (by decide), backtrackFrom, if_neg (by decide), dif_neg (by decide), e 1, p1]
    simp only [e 0, p0]
    rw [if_neg (by decide), backtrackFrom, if_pos (by decide)]
  have hg : goalLoop (A.alg s1.lab fin.kin) (A.cfg cfg fin.kin) 3 cfg.goal s1 =
      .ok ⟨true, [0, 1, 2, 3], s1⟩ := by
    show goalLoop (A.alg s1.lab fin.kin) (A.cfg cfg fin.kin) 3 [4] s1 = _
    unfold goalLoop
    rw [if_pos (by simp [KAlgo.alg, A, fin_kin.2.2.2]), if_neg (by simp [KAlgo.cfg, cfg])]
    have : (A.cfg cfg fin.kin).start = [0] := rfl
    rw [this, hb]; rfl
  have ha : cfg.abort fin.s.expansions = false := rfl
  simp only [ha, ← hs1, hg, Bool.false_eq_true, if_false]
  exact ⟨_, rfl, rfl⟩

theorem run : kFindPath A P cfg kin0 5 = some (.ok [0, 2, 5, 7]) := by
  obtain ⟨st', h, hk⟩ := last_iter
  unfold kFindPath
  rw [run4 1, kLoop, h]
  simp only [Option.map_some, hk, List.map_cons, List.map_nil, fin_kin]

theorem costOk : KCostOk A [2, 4, 5] where
  costs := by
    intro mv hmv k ps c k' h
    simp only [A, List.mem_cons, List.not_mem_nil, or_false] at hmv
    rcases hmv with rfl | rfl
    · simp only at h; split_ifs at h <;> cases h <;> simp
    · simp only at h; split_ifs at h <;> cases h <;> simp
  infl c _ a := Nat.le_add_right a c
  mono a b c h := Nat.add_le_add_right h c

/-- The heuristic is consistent (and the goal has value 0): no legal step lowers it by more than its cost. -/
theorem heur_consistent : ∀ k c k', LegalStep A k c k' → ∀ g, A.heur k g ≤ A.add c (A.heur k' g) := by
  rintro k c k' ⟨mv, hmv, ps, h, _⟩ g
  simp only [A, List.mem_cons, List.not_mem_nil, or_false] at hmv
  rcases hmv with rfl | rfl
  · simp only at h
    split_ifs at h with h1 h2 h3 <;> cases h <;> subst_vars <;> revert g <;> decide
  · simp only at h
    split_ifs at h with h1
    cases h; subst_vars; revert g; decide

theorem no_step : ¬ ∃ c, LegalStep A 5 c 7 := by
  rintro ⟨c, mv, hmv, ps, h, _⟩
  simp only [A, List.mem_cons, List.not_mem_nil, or_false] at hmv
  rcases hmv with rfl | rfl <;> simp at h

end KinEx

open Spec in
/-- **C71, finding.**  With a heuristic, even a consistent one, `kin_exact_without_heuristic` is false: a node
that was expanded is given a cheaper pose later, and the path leads through this pose to poses computed from
the earlier one. -/
theorem kin_inexact_with_heuristic : ∃ (A : KAlgo (Fin 5) (Fin 9) Nat) (P : OpenList (Fin 5) Nat)
    (cfg : SCfg (Fin 5) Nat) (kin0 : Fin 5 → Fin 9) (cs : List Nat) (fuel : Nat) (q : List (Fin 9)) (a b : Fin 9),
    KCostOk A cs ∧ Nonempty (Lawful P) ∧ Nonempty (MinFirst P) ∧ TopOk cfg.top ∧ MapOk A cfg.start kin0 ∧
    (∀ k c k', LegalStep A k c k' → ∀ g, A.heur k g ≤ A.add c (A.heur k' g)) ∧
    kFindPath A P cfg kin0 fuel = some (.ok q) ∧ [a, b] <:+: q ∧ ¬ ∃ c, LegalStep A a c b :=
  ⟨KinEx.A, KinEx.P, KinEx.cfg, KinEx.kin0, _, 5, _, 5, 7, KinEx.costOk, ⟨prioLawful⟩, ⟨prioMin⟩, KinEx.minTop_ok,
    ⟨fun _ _ _ => ⟨true, rfl⟩, fun _ _ _ _ => ⟨_, rfl⟩⟩, KinEx.heur_consistent, KinEx.run,
    ⟨[0, 2], [], rfl⟩, KinEx.no_step⟩

end PathPlanning
