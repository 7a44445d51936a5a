import Verif.Props.KinDuringMap
import Verif.Props.KinSearchEx

/-!
# Steering searches on a map that changes: the hypotheses of C120 are met
-/

namespace PathPlanning
namespace KDurEx
open Spec KinEx

/-- After the first expansion the steps from the start pose are blocked. -/
def us (j : Nat) (k _k' : Fin 9) : CRes Bool := .ok (decide (j = 0 ∨ k ≠ 0))

/-- After the first expansion everything is blocked. -/
def closing (j : Nat) (_ _ : Fin 9) : CRes Bool := .ok (decide (j = 0))

def next (st : KSt (Fin 5) (Fin 9) Nat P) : Option (KSt (Fin 5) (Fin 9) Nat P) :=
  match kIterate (A.withUsable (us st.s.expansions)) cfg st with
  | .more st' => some st'
  | .done _ _ => none

theorem loop_next {n : Nat} {st st' : KSt (Fin 5) (Fin 9) Nat P} (h : next st = some st') :
    kLoopDuring A us cfg (n + 1) st = kLoopDuring A us cfg n st' := by
  unfold next at h
  rw [kLoopDuring]
  split at h <;> rename_i e
  · cases h; rw [e]
  · cases h

def st4 : Option (KSt (Fin 5) (Fin 9) Nat P) :=
  (next (kInit A P cfg kin0)).bind fun s => (next s).bind fun s => (next s).bind next

theorem st4_some : st4.isSome = true := by decide +kernel

/-- The state before the fifth iteration. -/
def fin : KSt (Fin 5) (Fin 9) Nat P := st4.get st4_some

theorem fin_next : P.next fin.s.opn = some (3, P.empty) := by rfl

theorem fin_kin : fin.kin 0 = 0 ∧ fin.kin 1 = 2 ∧ fin.kin 2 = 5 ∧ fin.kin 3 = 7 := by decide +kernel

theorem fin_exp : fin.s.expansions = 4 := by decide +kernel

theorem fin_prev : (fin.s.lab 3).prev = some 2 ∧ (fin.s.lab 2).prev = some 1 ∧ (fin.s.lab 1).prev = some 0 ∧
    (fin.s.lab 0).prev = none := by decide +kernel

theorem run4 (n : Nat) : kLoopDuring A us cfg (n + 4) (kInit A P cfg kin0) = kLoopDuring A us cfg n fin := by
  have h : st4 = some fin := (Option.some_get st4_some).symm
  unfold st4 at h
  simp only [Option.bind_eq_some_iff] at h
  obtain ⟨a, h1, b, h2, c, h3, h4⟩ := h
  rw [loop_next (n := n + 3) h1, loop_next (n := n + 2) h2, loop_next (n := n + 1) h3, loop_next (n := n) h4]

theorem last_iter : ∃ st', kIterate (A.withUsable (us fin.s.expansions)) cfg fin = .done (.ok [0, 1, 2, 3]) st' ∧
    st'.kin = fin.kin ∧ st'.s.expansions = 5 := by
  generalize us fin.s.expansions = u
  obtain ⟨p3, p2, p1, p0⟩ := fin_prev
  unfold kIterate
  rw [fin_next]
  set s1 := popNode ((A.withUsable u).alg fin.s.lab fin.kin) cfg fin.s 3 P.empty with hs1
  have e : ∀ m, (s1.lab m).prev = (fin.s.lab m).prev := by
    intro m
    rw [hs1]
    unfold popNode setLab
    simp only
    split_ifs with h
    · rw [h]
    · rfl
  have hb : backtrack s1.lab [0] 3 = .ok [0, 1, 2, 3] := by
    unfold backtrack
    rw [backtrackFrom, if_neg (by decide), dif_neg (by decide), e 3, p3]
    simp only [e 2, p2]
    rw [if_neg (by decide), backtrackFrom, if_neg (by decide), dif_neg (by decide), e 2, p2]
    simp only [e 1, p1]
    rw [if_neg (by decide), backtrackFrom, if_neg (by decide), dif_neg (by decide), e 1, p1]
    simp only [e 0, p0]
    rw [if_neg (by decide), backtrackFrom, if_pos (by decide)]
  have hg : goalLoop ((A.withUsable u).alg s1.lab fin.kin) ((A.withUsable u).cfg cfg fin.kin) 3 cfg.goal s1 =
      .ok ⟨true, [0, 1, 2, 3], s1⟩ := by
    show goalLoop ((A.withUsable u).alg s1.lab fin.kin) ((A.withUsable u).cfg cfg fin.kin) 3 [4] s1 = _
    unfold goalLoop
    rw [if_pos (by simp [KAlgo.alg, KAlgo.withUsable, A, fin_kin.2.2.2]), if_neg (by simp [KAlgo.cfg, cfg])]
    have : ((A.withUsable u).cfg cfg fin.kin).start = [0] := rfl
    rw [this, hb]; rfl
  have ha : cfg.abort fin.s.expansions = false := rfl
  have hx : s1.expansions = 5 := by rw [hs1]; show fin.s.expansions + 1 = 5; rw [fin_exp]
  simp only [ha, ← hs1, hg, Bool.false_eq_true, if_false]
  exact ⟨_, rfl, rfl, hx⟩

/-- The path of the unchanged map is found although its first step has been blocked meanwhile. -/
theorem finds : kFindPathDuring A us P cfg kin0 5 = some (.ok [0, 2, 5, 7], 5) := by
  obtain ⟨st', h, hk, hx⟩ := last_iter
  unfold kFindPathDuring
  rw [run4 1, kLoopDuring, h]
  simp only [Option.map_some, hk, hx, List.map_cons, List.map_nil, fin_kin]

/-- Everything is blocked before the goal is reached: the empty path after three expansions. -/
theorem stuck : kFindPathDuring A closing P cfg kin0 4 = some (.ok [], 3) := by rfl

/-- The same vehicle with a goal test that holds at the goal pose itself. -/
def A' : KAlgo (Fin 5) (Fin 9) Nat := { A with isGoal := fun g k _ => decide (g = k ∨ k = 7) }

theorem stuck' : kFindPathDuring A' closing P cfg kin0 4 = some (.ok [], 3) := by rfl

theorem costOk' : KCostOk A' [2, 4, 5] := ⟨costOk.costs, costOk.infl, costOk.mono⟩

end KDurEx

open Spec KDurEx in
/-- **C120, finding.**  A path may begin with a step that the present map forbids: the step was judged when its node was expanded
and is not looked at again. -/
theorem KDur.outdated_step : ∃ (A : KAlgo (Fin 5) (Fin 9) Nat) (us : Nat → Fin 9 → Fin 9 → CRes Bool)
    (P : OpenList (Fin 5) Nat) (cfg : SCfg (Fin 5) Nat) (kin0 : Fin 5 → Fin 9) (cs : List Nat) (fuel E : Nat)
    (q : List (Fin 9)) (a b : Fin 9),
    KCostOk A cs ∧ Nonempty (Lawful P) ∧ TopOk cfg.top ∧
    kFindPathDuring A us P cfg kin0 fuel = some (.ok q, E) ∧ [a, b] <+: q ∧ ∀ j, 0 < j → us j a b = .ok false :=
  ⟨KinEx.A, us, KinEx.P, KinEx.cfg, KinEx.kin0, _, 5, 5, _, 0, 2, KinEx.costOk, ⟨prioLawful⟩, KinEx.minTop_ok, finds,
    ⟨[5, 7], rfl⟩, fun j hj => by simp [us, hj.ne']⟩

/-- The hypotheses of `KDur.path` are met. -/
example := KDur.path KinEx.costOk prioLawful KinEx.minTop_ok KDurEx.finds (by decide)

/-- The hypotheses of `KDur.ends` are met. -/
example := KDur.ends (A := KinEx.A) (us := KDurEx.us) (P := KinEx.P) (cfg := KinEx.cfg) (kin0 := KinEx.kin0) KinEx.costOk
  prioLawful KinEx.minTop_ok

/-- The hypotheses of `KDur.complete` are met. -/
example := KDur.complete KDurEx.costOk' prioLawful KinEx.minTop_ok (fun _ => rfl)
  (fun k pv => by simp [KDurEx.A']) KDurEx.stuck'

end PathPlanning
