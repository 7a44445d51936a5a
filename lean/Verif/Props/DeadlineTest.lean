import Verif.Model.TimeLimitTest
import Verif.Props.Deadline

/-!
# `setTimeLimit` and searches with a goal test of the user (C129)
-/

namespace PathPlanning.Deadline
open TimeLimit
set_option linter.unusedSectionVars false

variable {K : Type} [Field K] [LinearOrder K] [IsStrictOrderedRing K] [FloorRing K]
variable {N C : Type} [DecidableEq N] [LinearOrder C] [Fintype N]
variable {A : Algo N C} {P : OpenList N C} {cfg : SCfg N C} {lab : Labels N C} {T : GoalTest N C P}
variable {limit l1 l2 : K} {now now1 now2 : Int} {clock clock1 clock2 : Nat → Int}

/-- **C129 (goal tests, the limit is kept).**  `kept` for searches with any goal test. -/
theorem test_kept (h0 : 0 < limit) {s : Option Int} (hs : stampAbort limit now = .ok s) {f : Nat} {r : CRes (List N)} {t : SSt N C P}
    (h : findTimedTest A P cfg T limit now clock lab f = some (r, t)) {k : Nat}
    (hk : limit * 1000000000 ≤ ((clock k - now : Int) : K)) : t.expansions ≤ k := by
  unfold findTimedTest at h
  rw [hs] at h
  dsimp only at h
  exact kept_core (cfg := customCfg cfg T) h0 (customTest_quiet T) hs h init_expansions hk

/-- **C129 (goal tests, no limit).** -/
theorem test_no_limit (h : limit ≤ 0) (f : Nat) :
    findTimedTest A P cfg T limit now clock lab f = findPathCustom A P { cfg with abort := fun _ => false } T lab f := by
  have : stampAbort limit now = .ok none := by rw [stampAbort, if_neg (not_lt.2 h)]
  unfold findTimedTest
  rw [this]
  rfl

/-- **C129 (goal tests, exactly when it overflows).** -/
theorem test_overflows (hp : 0 < limit) (hlo : -2 ^ 63 ≤ now) (hhi : now < 2 ^ 63) (f : Nat) :
    (2 ^ 63 ≤ max 0 now + ⌊limit * 1000⌋ * 1000000 →
      ∃ t, findTimedTest A P cfg T limit now clock lab f = some (.ub, t) ∧ t.expansions = 0) ∧
    (max 0 now + ⌊limit * 1000⌋ * 1000000 < 2 ^ 63 →
      findTimedTest A P cfg T limit now clock lab f =
        findPathCustom A P { cfg with abort := fun k => decide (now + ⌊limit * 1000⌋ * 1000000 ≤ clock k) } T lab f) := by
  obtain ⟨h1, h2⟩ := overflow_exact hp hlo hhi
  refine ⟨fun h => ?_, fun h => ?_⟩
  · unfold findTimedTest
    rw [h1.2 h]
    exact ⟨_, rfl, init_expansions⟩
  · have := h2 (fun hub => absurd (h1.1 hub) (not_le.2 h))
    unfold findTimedTest
    rw [this]
    rfl

/-- **C129 (goal tests, less than a millisecond).**  The goal test is not even called for the start. -/
theorem test_below_millisecond (ht : TopOk cfg.top) (h0 : 0 < limit) (h1 : limit < 1 / 1000) (hlo : -2 ^ 63 ≤ now) (hhi : now < 2 ^ 63)
    (hc : now ≤ clock 0) (f : Nat) :
    ∃ t, findTimedTest A P cfg T limit now clock lab (f + 1) = some (.ok [], t) ∧ t.expansions = 0 := by
  have hz : ⌊limit * 1000⌋ = 0 := by
    rw [Int.floor_eq_zero_iff]
    exact ⟨by positivity, (lt_div_iff₀ (by norm_num : (0 : K) < 1000)).1 h1⟩
  have h2 := (test_overflows (A := A) (P := P) (cfg := cfg) (T := T) (clock := clock) (lab := lab) h0 hlo hhi (f + 1)).2
    (by rw [hz]; norm_num at hhi ⊢; exact hhi)
  rw [h2, hz]
  simp only [zero_mul, add_zero]
  refine ⟨initSearch A P { customCfg cfg T with abort := fun k => decide (now ≤ clock k) } lab, ?_, init_expansions⟩
  show searchLoop A { customCfg cfg T with abort := fun k => decide (now ≤ clock k) } (customTest A T) (f + 1) _ = _
  generalize hst : initSearch A P { customCfg cfg T with abort := fun k => decide (now ≤ clock k) } lab = st
  have he : st.expansions = 0 := by rw [← hst]; exact init_expansions
  have hca : st.cands = [] := by rw [← hst]; exact init_cands
  have hf : finish { customCfg cfg T with abort := fun k => decide (now ≤ clock k) } st = .ok [] := by
    have ht' : TopOk (customCfg cfg T).top := ht
    rw [finish, hca, (ht'.none_iff _).2 rfl]
  have hi : iterate A { customCfg cfg T with abort := fun k => decide (now ≤ clock k) } (customTest A T) st = .done (.ok []) st := by
    unfold iterate
    rw [hf]
    cases P.next st.opn with
    | none => rfl
    | some co => simp only [he, hc, decide_true, if_true]
  rw [searchLoop]
  have hst' : initSearch A P { cfg with goal := [], heurGoal := T.heurGoal, abort := fun k => decide (now ≤ clock k) } lab = st := hst
  rw [hst', hi]

/-- **C129 (goal tests, larger limit).**  A path found within the limit is not lost with a larger limit, none, or on a faster machine. -/
theorem test_larger_limit (ok : CostOk A) (L : Lawful P) {S : List N} (hU : Used A P S lab) (ht : TopOk cfg.top) (h1 : 0 < l1)
    (hl : l1 ≤ l2 ∨ l2 ≤ 0) {s1 s2 : Option Int} (hs1 : stampAbort l1 now1 = .ok s1) (hs2 : stampAbort l2 now2 = .ok s2)
    (hc : ∀ k, clock2 k - now2 ≤ clock1 k - now1) {f f' : Nat} {p : List N} {r' : CRes (List N)} {t t' : SSt N C P}
    (h : findTimedTest A P cfg T l1 now1 clock1 lab f = some (.ok p, t)) (h' : findTimedTest A P cfg T l2 now2 clock2 lab f' = some (r', t'))
    (hp : p ≠ []) : ∃ p', r' = .ok p' ∧ p' ≠ [] := by
  unfold findTimedTest at h h'
  rw [hs1] at h
  rw [hs2] at h'
  exact custom_path_found ok L hU ht T (later_of hl h1 hs1 hs2 hc) h h' hp

end PathPlanning.Deadline
