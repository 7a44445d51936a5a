import Verif.Props.HybridHist
import Verif.Props.KinHistEx

/-!
# C105: a later search with expansion that returns poses of an earlier search
-/

namespace PathPlanning
namespace StaleEx
open Spec

/-- Poses and nodes are the same; the moves are `0 → 1` (cost 5), `1 → 2` and `2 → 1` (cost 1).  Node 3 cannot be reached by moves. -/
def A : KAlgo (Fin 4) (Fin 4) Nat where
  zero := 0
  add := (· + ·)
  moves := [fun k _ => if k = 0 then some (5, 1) else if k = 1 then some (1, 2) else if k = 2 then some (1, 1) else none]
  predDepth := 0
  usable _ _ := .ok true
  lookup k := .ok (some k)
  heur _ _ := 0
  isGoal _ _ _ := false
  distTo _ _ := 0
  accept := none

def P : OpenList (Fin 4) Nat := PriorityManager

/-- The expansion always succeeds, with the way from pose 1 to pose 3. -/
def E : KExp Unit (Fin 4) Nat where
  expand _ _ _ _ := .ok (true, ())
  get _ := [1, 3]
  turn k _ := k

def cfg (s : Fin 4) : SCfg (Fin 4) Nat := ⟨[s], [3], false, 0, none, fun _ => false, fun _ _ _ => none, KinEx.minTop, none⟩

theorem costOk : KCostOk A [5, 1] where
  costs mv h k ps c k' e := by
    simp only [A, List.mem_singleton] at h
    subst h
    simp only at e
    split_ifs at e <;> simp_all
  infl _ _ _ := Nat.le_add_right _ _
  mono _ _ _ h := Nat.add_le_add_right h _

/-- Two searches without expansion, from 0 and then from 2. -/
def run1 : Option (CRes (List (Fin 4)) × KSt (Fin 4) (Fin 4) Nat P) := kFindOn A P (cfg 0) (fun _ => Label.fresh 0) id 4
theorem run1_some : run1.isSome = true := by decide +kernel
def st1 : KSt (Fin 4) (Fin 4) Nat P := (run1.get run1_some).2
def run2 : Option (CRes (List (Fin 4)) × KSt (Fin 4) (Fin 4) Nat P) := kFindOn A P (cfg 2) st1.s.lab st1.kin 3
theorem run2_some : run2.isSome = true := by decide +kernel
def st2 : KSt (Fin 4) (Fin 4) Nat P := (run2.get run2_some).2

theorem st2_prev : (st2.s.lab 1).prev = some 2 ∧ (st2.s.lab 2).prev = some 1 := by decide +kernel
theorem st2_kin : st2.kin 0 = 0 ∧ st2.kin 1 = 1 ∧ st2.kin 2 = 2 ∧ st2.kin 3 = 3 := by decide +kernel

/-- The third search finds a way from its start pose 1 - and returns the poses 1 and 2 of the earlier searches before it. -/
theorem run3 : ∃ st, xFindOn A E P (cfg 1) st2.s.lab st2.kin () 1 = some (.ok [1, 2, 1, 1, 3], st, ()) := by
  unfold xFindOn
  rw [xSearchS]
  have hn : (P.next (kInitOn A P (cfg 1) st2.s.lab st2.kin).s.opn).map (·.1) = some 1 := by decide +kernel
  cases hx : P.next (kInitOn A P (cfg 1) st2.s.lab st2.kin).s.opn with
  | none => rw [hx] at hn; cases hn
  | some co =>
    obtain ⟨c, o⟩ := co
    rw [hx] at hn
    simp only [Option.map_some, Option.some.injEq] at hn
    subst hn
    unfold xIterateS
    rw [hx]
    simp only
    rw [if_neg (by decide)]
    set lab := (popNode (A.alg (kInitOn A P (cfg 1) st2.s.lab st2.kin).s.lab (kInitOn A P (cfg 1) st2.s.lab st2.kin).kin) (cfg 1)
      (kInitOn A P (cfg 1) st2.s.lab st2.kin).s 1 o).lab with hlab
    have hk : (kInitOn A P (cfg 1) st2.s.lab st2.kin).kin = st2.kin := rfl
    have e : ∀ m, (lab m).prev = (st2.s.lab m).prev := by
      intro m
      rw [hlab]
      by_cases h : m = 1
      · subst h; simp [popNode, setLab, kInitOn, initSearch, addStart, cfg]
      · simp [popNode, setLab, kInitOn, initSearch, addStart, cfg, h]
    have hb : backtrackCopy lab [1] 1 = .ok [1, 2, 1] := by
      unfold backtrackCopy
      rw [e 1, st2_prev.1]
      simp only [e 2, st2_prev.2]
      rw [if_neg (by decide), backtrackFrom, if_neg (by decide), dif_neg (by decide), e 2, st2_prev.2]
      simp only [e 1, st2_prev.1]
      rw [if_neg (by decide), backtrackFrom, if_pos (by decide)]
    have hl : xLoop E (cfg 1).start lab (kInitOn A P (cfg 1) st2.s.lab st2.kin).kin 1 (cfg 1).goal () =
        .ok (some [1, 2, 1, 1, 3], ()) := by
      rw [hk]
      show xLoop E [1] lab st2.kin 1 [3] () = _
      rw [xLoop]
      simp only [E, CRes.bind, if_true, xPath, hb]
      simp [st2_kin]
    rw [hl]
    exact ⟨_, rfl⟩

end StaleEx

open Spec in
/-- **C105, finding.**  A later search whose expansion leads from the start to the goal can return a path that first drives in a circle
along the poses of earlier searches: the history consists of two searches, the path is `1, 2, 1` and then the way `1, 3`. -/
theorem later_expansion_stale : ∃ (A : KAlgo (Fin 4) (Fin 4) Nat) (E : KExp Unit (Fin 4) Nat) (P : OpenList (Fin 4) Nat)
    (cfg : SCfg (Fin 4) Nat) (cs : List Nat) (S : List (Fin 4)) (lab : Labels (Fin 4) Nat) (kin0 : Fin 4 → Fin 4) (fuel : Nat)
    (st : KSt (Fin 4) (Fin 4) Nat P), KCostOk A cs ∧ Nonempty (Lawful P) ∧ TopOk cfg.top ∧ KUsed A cs P S lab ∧
    cfg.start = [1] ∧ kin0 1 = 1 ∧ E.get () = [1, 3] ∧
    xFindOn A E P cfg lab kin0 () fuel = some (.ok [1, 2, 1, 1, 3], st, ()) := by
  obtain ⟨st, h⟩ := StaleEx.run3
  have h1 : StaleEx.run1 = some (StaleEx.run1.get StaleEx.run1_some) := (Option.some_get _).symm
  have h2 : StaleEx.run2 = some (StaleEx.run2.get StaleEx.run2_some) := (Option.some_get _).symm
  have u1 : KUsed StaleEx.A [5, 1] StaleEx.P [0] StaleEx.st1.s.lab :=
    KUsed.find (cfg := StaleEx.cfg 0) (S := []) (kin0 := id) (fuel := 4) StaleEx.costOk .setMap h1
  have u2 : KUsed StaleEx.A [5, 1] StaleEx.P [2, 0] StaleEx.st2.s.lab :=
    KUsed.find (cfg := StaleEx.cfg 2) (S := [0]) (kin0 := StaleEx.st1.kin) (fuel := 3) StaleEx.costOk u1 h2
  exact ⟨StaleEx.A, StaleEx.E, StaleEx.P, StaleEx.cfg 1, [5, 1], [2, 0], StaleEx.st2.s.lab, StaleEx.st2.kin, 1, st, StaleEx.costOk,
    ⟨prioLawful⟩, KinEx.minTop_ok, u2, rfl, StaleEx.st2_kin.2.1, rfl, h⟩

end PathPlanning
