import Verif.Props.KinDuringExact
import Verif.Props.KinSearchEx

/-!
# Steering searches without heuristic on changing maps: obstacles that vanish (C120)
-/

namespace PathPlanning
namespace KDurEx2
open Spec KinEx

/-- Poses `0 … 8`, cells `0 … 4` (`S X Y Z G`).  From the start `0` the vehicle reaches `1` and `2` in cell `X` (costs 10 and 2)
and `4` in cell `Y` (cost 9); from `2` it reaches `5` in cell `Y` (cost 3), and only from `4` the goal `7` (cost 4). -/
def A : KAlgo (Fin 5) (Fin 9) Nat where
  zero := 0
  add := (· + ·)
  moves := [fun k _ => if k = 0 then some (10, 1) else if k = 2 then some (3, 5) else
      if k = 4 then some (4, 7) else none,
    fun k _ => if k = 0 then some (2, 2) else none,
    fun k _ => if k = 0 then some (9, 4) else none]
  predDepth := 0
  usable _ _ := .ok true
  lookup k := .ok (some ([0, 1, 1, 2, 2, 2, 3, 3, 4] : List (Fin 5))[k])
  heur _ _ := 0
  isGoal _ k _ := k = 7
  distTo _ _ := 0
  accept := none

/-- The step from `2` to `5` becomes possible at the third expansion. -/
def opening (j : Nat) (k _k' : Fin 9) : CRes Bool := .ok (decide (k ≠ 2 ∨ 2 ≤ j))

/-- The step from `2` to `5` is blocked after the first expansion. -/
def blocking (j : Nat) (k _k' : Fin 9) : CRes Bool := .ok (decide (k ≠ 2 ∨ j = 0))

theorem costOk : KCostOk A [2, 3, 4, 9, 10] where
  costs := by
    intro mv hmv k ps c k' h
    simp only [A, List.mem_cons, List.not_mem_nil, or_false] at hmv
    rcases hmv with rfl | rfl | rfl
    · simp only at h; split_ifs at h <;> cases h <;> simp
    · simp only at h; split_ifs at h <;> cases h <;> simp
    · simp only at h; split_ifs at h <;> cases h <;> simp
  infl c _ a := Nat.le_add_right a c
  mono a b c h := Nat.add_le_add_right h c

theorem no_step : ¬ ∃ c, LegalStep A 5 c 7 := by
  rintro ⟨c, mv, hmv, ps, h, _⟩
  simp only [A, List.mem_cons, List.not_mem_nil, or_false] at hmv
  rcases hmv with rfl | rfl | rfl <;> simp at h

def next (us : Nat → Fin 9 → Fin 9 → CRes Bool) (st : KSt (Fin 5) (Fin 9) Nat P) : Option (KSt (Fin 5) (Fin 9) Nat P) :=
  match kIterate (A.withUsable (us st.s.expansions)) cfg st with
  | .more st' => some st'
  | .done _ _ => none

theorem loop_next {us : Nat → Fin 9 → Fin 9 → CRes Bool} {n : Nat} {st st' : KSt (Fin 5) (Fin 9) Nat P}
    (h : next us st = some st') : kLoopDuring A us cfg (n + 1) st = kLoopDuring A us cfg n st' := by
  unfold next at h
  rw [kLoopDuring]
  split at h <;> rename_i e
  · cases h; rw [e]
  · cases h

/-- The last iteration: the goal is at the top of the queue. -/
theorem last_iter {us : Nat → Fin 9 → Fin 9 → CRes Bool} {fin : KSt (Fin 5) (Fin 9) Nat P} {l : List (Fin 5)}
    (hn : P.next fin.s.opn = some (3, P.empty)) (hk : fin.kin 3 = 7)
    (hb : ∀ lab : Labels (Fin 5) Nat, (∀ m, (lab m).prev = (fin.s.lab m).prev) → backtrack lab [0] 3 = .ok l) (hl : l ≠ []) :
    ∃ st', kIterate (A.withUsable (us fin.s.expansions)) cfg fin = .done (.ok l) st' ∧ st'.kin = fin.kin ∧
      st'.s.expansions = fin.s.expansions + 1 := by
  generalize us fin.s.expansions = u
  unfold kIterate
  rw [hn]
  set s1 := popNode ((A.withUsable u).alg fin.s.lab fin.kin) cfg fin.s 3 P.empty with hs1
  have e : ∀ m, (s1.lab m).prev = (fin.s.lab m).prev := by
    intro m
    rw [hs1]
    unfold popNode setLab
    simp only
    split_ifs with h
    · rw [h]
    · rfl
  have hg : goalLoop ((A.withUsable u).alg s1.lab fin.kin) ((A.withUsable u).cfg cfg fin.kin) 3 cfg.goal s1 =
      .ok ⟨true, l, s1⟩ := by
    show goalLoop ((A.withUsable u).alg s1.lab fin.kin) ((A.withUsable u).cfg cfg fin.kin) 3 [4] s1 = _
    unfold goalLoop
    rw [if_pos (by simp [KAlgo.alg, KAlgo.withUsable, A, hk]), if_neg (by simp [KAlgo.cfg, cfg])]
    have : ((A.withUsable u).cfg cfg fin.kin).start = [0] := rfl
    rw [this, hb _ e]; rfl
  have ha : cfg.abort fin.s.expansions = false := rfl
  have hx : s1.expansions = fin.s.expansions + 1 := by rw [hs1]; rfl
  simp only [ha, ← hs1, hg, Bool.false_eq_true, if_false, if_true, ne_eq, hl, not_false_eq_true]
  exact ⟨_, rfl, rfl, hx⟩

/-! ### The step becomes possible -/

def st5 : Option (KSt (Fin 5) (Fin 9) Nat P) :=
  (next opening (kInit A P cfg kin0)).bind fun s => (next opening s).bind fun s => (next opening s).bind fun s =>
    (next opening s).bind (next opening)

theorem st5_some : st5.isSome = true := by decide +kernel

/-- The state before the sixth iteration. -/
def fin : KSt (Fin 5) (Fin 9) Nat P := st5.get st5_some

theorem fin_next : P.next fin.s.opn = some (3, P.empty) := by rfl

theorem fin_kin : fin.kin 0 = 0 ∧ fin.kin 1 = 2 ∧ fin.kin 2 = 5 ∧ fin.kin 3 = 7 := by decide +kernel

theorem fin_exp : fin.s.expansions = 5 := by decide +kernel

theorem fin_prev : (fin.s.lab 3).prev = some 2 ∧ (fin.s.lab 2).prev = some 1 ∧ (fin.s.lab 1).prev = some 0 ∧
    (fin.s.lab 0).prev = none := by decide +kernel

theorem run5 (n : Nat) : kLoopDuring A opening cfg (n + 5) (kInit A P cfg kin0) = kLoopDuring A opening cfg n fin := by
  have h : st5 = some fin := (Option.some_get st5_some).symm
  unfold st5 at h
  simp only [Option.bind_eq_some_iff] at h
  obtain ⟨a, h1, b, h2, c, h3, d, h4, h5⟩ := h
  rw [loop_next (n := n + 4) h1, loop_next (n := n + 3) h2, loop_next (n := n + 2) h3, loop_next (n := n + 1) h4,
    loop_next (n := n) h5]

theorem finds : kFindPathDuring A opening P cfg kin0 6 = some (.ok [0, 2, 5, 7], 6) := by
  obtain ⟨p3, p2, p1, p0⟩ := fin_prev
  obtain ⟨st', h, hk, hx⟩ := last_iter (us := opening) (fin := fin) (l := [0, 1, 2, 3]) fin_next fin_kin.2.2.2 (by
    intro lab e
    unfold backtrack
    rw [backtrackFrom, if_neg (by decide), dif_neg (by decide), e 3, p3]
    simp only [e 2, p2]
    rw [if_neg (by decide), backtrackFrom, if_neg (by decide), dif_neg (by decide), e 2, p2]
    simp only [e 1, p1]
    rw [if_neg (by decide), backtrackFrom, if_neg (by decide), dif_neg (by decide), e 1, p1]
    simp only [e 0, p0]
    rw [if_neg (by decide), backtrackFrom, if_pos (by decide)]) (by decide)
  unfold kFindPathDuring
  rw [run5 1, kLoopDuring, h]
  simp only [Option.map_some, hk, hx, fin_exp, List.map_cons, List.map_nil, fin_kin]

/-! ### The step is blocked -/

def st4 : Option (KSt (Fin 5) (Fin 9) Nat P) :=
  (next blocking (kInit A P cfg kin0)).bind fun s => (next blocking s).bind fun s => (next blocking s).bind (next blocking)

theorem st4_some : st4.isSome = true := by decide +kernel

/-- The state before the fifth iteration. -/
def fin4 : KSt (Fin 5) (Fin 9) Nat P := st4.get st4_some

theorem fin4_next : P.next fin4.s.opn = some (3, P.empty) := by rfl

theorem fin4_kin : fin4.kin 0 = 0 ∧ fin4.kin 2 = 4 ∧ fin4.kin 3 = 7 := by decide +kernel

theorem fin4_exp : fin4.s.expansions = 4 := by decide +kernel

theorem fin4_prev : (fin4.s.lab 3).prev = some 2 ∧ (fin4.s.lab 2).prev = some 0 ∧ (fin4.s.lab 0).prev = none := by
  decide +kernel

theorem run4 (n : Nat) : kLoopDuring A blocking cfg (n + 4) (kInit A P cfg kin0) = kLoopDuring A blocking cfg n fin4 := by
  have h : st4 = some fin4 := (Option.some_get st4_some).symm
  unfold st4 at h
  simp only [Option.bind_eq_some_iff] at h
  obtain ⟨a, h1, b, h2, c, h3, h4⟩ := h
  rw [loop_next (n := n + 3) h1, loop_next (n := n + 2) h2, loop_next (n := n + 1) h3, loop_next (n := n) h4]

theorem finds4 : kFindPathDuring A blocking P cfg kin0 5 = some (.ok [0, 4, 7], 5) := by
  obtain ⟨p3, p2, p0⟩ := fin4_prev
  obtain ⟨st', h, hk, hx⟩ := last_iter (us := blocking) (fin := fin4) (l := [0, 2, 3]) fin4_next fin4_kin.2.2 (by
    intro lab e
    unfold backtrack
    rw [backtrackFrom, if_neg (by decide), dif_neg (by decide), e 3, p3]
    simp only [e 2, p2]
    rw [if_neg (by decide), backtrackFrom, if_neg (by decide), dif_neg (by decide), e 2, p2]
    simp only [e 0, p0]
    rw [if_neg (by decide), backtrackFrom, if_pos (by decide)]) (by decide)
  unfold kFindPathDuring
  rw [run4 1, kLoopDuring, h]
  simp only [Option.map_some, hk, hx, fin4_exp, List.map_cons, List.map_nil, fin4_kin]

end KDurEx2

open Spec KDurEx2 in
/-- **C120, finding.**  If obstacles vanish during the search, `KDur.exact_blocking` is false: a step that was blocked when its node
was expanded is tried again when an older entry of that node leaves the queue; it then replaces the pose of another expanded
node, and the path leads through this pose to a pose computed from the earlier one, although not even a map without any
obstacles has such a step. -/
theorem KDur.inexact_when_freed : ∃ (A : KAlgo (Fin 5) (Fin 9) Nat) (us : Nat → Fin 9 → Fin 9 → CRes Bool)
    (P : OpenList (Fin 5) Nat) (cfg : SCfg (Fin 5) Nat) (kin0 : Fin 5 → Fin 9) (cs : List Nat) (fuel E : Nat)
    (q : List (Fin 9)) (a b : Fin 9),
    KCostOk A cs ∧ Nonempty (Lawful P) ∧ Nonempty (MinFirst P) ∧ TopOk cfg.top ∧ (∀ k g, A.heur k g = A.zero) ∧
    cfg.heurGoal = none ∧ (∀ x, A.add x A.zero = x) ∧ (∀ j k k', us j k k' = .ok true → us (j + 1) k k' = .ok true) ∧
    kFindPathDuring A us P cfg kin0 fuel = some (.ok q, E) ∧ [a, b] <:+: q ∧
    ¬ ∃ c, LegalStep (A.withUsable fun _ _ => .ok true) a c b :=
  ⟨KDurEx2.A, opening, KinEx.P, KinEx.cfg, KinEx.kin0, _, 6, 6, _, 5, 7, costOk, ⟨prioLawful⟩, ⟨prioMin⟩, KinEx.minTop_ok,
    fun _ _ => rfl, rfl, fun _ => rfl, fun j k k' h => by
      simp only [opening, CRes.ok.injEq, decide_eq_true_eq] at h ⊢
      omega, finds,
    ⟨[0, 2], [], rfl⟩, no_step⟩

/-- The hypotheses of `KDur.exact_blocking` are met by a search during which a step is blocked. -/
example := KDur.exact_blocking KDurEx2.costOk prioLawful prioMin KinEx.minTop_ok (fun _ _ => rfl) rfl (fun _ => rfl)
  (fun j k k' h => by
    simp only [KDurEx2.blocking, CRes.ok.injEq, decide_eq_true_eq] at h ⊢
    omega) KDurEx2.finds4 (by decide)

end PathPlanning
