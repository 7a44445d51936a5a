import Verif.Model.TimeLimitKinTest
import Verif.Props.DeadlineHybrid

/-!
# `setTimeLimit` and steering searches with a goal test (C129)
-/

namespace PathPlanning.Deadline
open TimeLimit
set_option linter.unusedSectionVars false

variable {K : Type} [Field K] [LinearOrder K] [IsStrictOrderedRing K] [FloorRing K]
variable {N S C : Type} [DecidableEq N] [LinearOrder C] [Fintype N]
variable {B : KAlgo N S C} {P : OpenList N C} {cfg : SCfg N C} {lab : Labels N C} {kin : N → S} {T : KGoalTest N S C P}
variable {limit : K} {now : Int} {clock : Nat → Int}

theorem kTest_count (st : KSt N S C P) (cur : N) : (kTest B T st cur).s.expansions = st.s.expansions := by
  unfold kTest
  split <;> rfl

theorem kIterateT_round {b : Nat → Bool} (st : KSt N S C P) :
    (∀ t, kIterateT B { cfg with abort := b } T st = .more t → Round b st.s.expansions t.s.expansions) ∧
    (∀ r t, kIterateT B { cfg with abort := b } T st = .done r t → Round b st.s.expansions t.s.expansions) := by
  unfold kIterateT
  cases hn : P.next st.s.opn with
  | none => exact ⟨fun t h => (by cases h), fun r t h => by cases h; exact .inl rfl⟩
  | some co =>
    obtain ⟨cur, o⟩ := co
    simp only
    by_cases hab : b st.s.expansions = true
    · rw [if_pos hab]
      exact ⟨fun t h => (by cases h), fun r t h => by cases h; exact .inl rfl⟩
    rw [if_neg hab]
    have hb : b st.s.expansions = false := by simpa using hab
    generalize hst1 : ({ st with s := popNode (B.alg st.s.lab st.kin) (tCfg { cfg with abort := b } T st.kin) st.s cur o } :
      KSt N S C P) = st1
    have h1 : st1.s.expansions = st.s.expansions + 1 := by rw [← hst1]; rfl
    have he : (kTest B T st1 cur).s.expansions = st.s.expansions + 1 := (kTest_count st1 cur).trans h1
    by_cases htm : (T.terminate st1 cur).2 = true
    · rw [if_pos htm]
      exact ⟨fun t h => (by cases h), fun r t h => by cases h; exact .inr ⟨he, hb⟩⟩
    rw [if_neg htm]
    by_cases hov : (cfg.useCands && !(kTest B T st1 cur).s.cands.isEmpty &&
        decide ((B.alg (kTest B T st1 cur).s.lab (kTest B T st1 cur).kin).addW (kTest B T st1 cur).s.firstW cfg.oversearch <
          (B.alg (kTest B T st1 cur).s.lab (kTest B T st1 cur).kin).total ((kTest B T st1 cur).s.lab cur))) = true
    · rw [if_pos hov]
      exact ⟨fun t h => (by cases h), fun r t h => by cases h; exact .inr ⟨he, hb⟩⟩
    rw [if_neg hov]
    cases hx : kExpand B [] cur B.moves (kTest B T st1 cur) with
    | throw e => exact ⟨fun t h => (by cases h), fun r t h => by cases h; exact .inr ⟨he, hb⟩⟩
    | ub => exact ⟨fun t h => (by cases h), fun r t h => by cases h; exact .inr ⟨he, hb⟩⟩
    | ok st' => exact ⟨fun t h => (by cases h; exact .inr ⟨(kExpand_count hx).trans he, hb⟩), fun r t h => by cases h⟩

theorem steer_test_before_end {b : Nat → Bool} : ∀ (f : Nat) (st : KSt N S C P) (r t),
    kLoopT B { cfg with abort := b } T f st = some (r, t) →
    (∀ k < st.s.expansions, b k = false) → ∀ k < t.s.expansions, b k = false := by
  have step : ∀ {n n'}, Round b n n' → (∀ k < n, b k = false) → ∀ k < n', b k = false := by
    intro n n' h hI k hk
    rcases h with rfl | ⟨rfl, hb⟩
    · exact hI k hk
    · rcases Nat.lt_succ_iff_lt_or_eq.1 hk with h | rfl
      · exact hI k h
      · exact hb
  intro f
  induction f with
  | zero => intro st r t h; simp [kLoopT] at h
  | succ f ih =>
    intro st r t h hI
    rw [kLoopT] at h
    obtain ⟨k1, k2⟩ := kIterateT_round (B := B) (T := T) (cfg := cfg) (b := b) st
    cases hi : kIterateT B { cfg with abort := b } T st with
    | done r1 t1 =>
      rw [hi] at h
      simp only [Option.some.injEq, Prod.mk.injEq] at h
      obtain ⟨_, rfl⟩ := h
      exact step (k2 _ _ hi) hI
    | more t1 =>
      rw [hi] at h
      exact ih t1 r t h (step (k1 _ hi) hI)

/-- **C129 (steering searches with a goal test keep the limit).**  `kept` for steering searches with any goal test, on nodes with whatever
history, and however the search ends. -/
theorem steer_test_kept (h0 : 0 < limit) {s : Option Int} (hs : stampAbort limit now = .ok s) {f : Nat} {r : CRes (List N)}
    {t : KSt N S C P} (h : kFindTimedTestOn B P cfg T limit now clock lab kin f = some (r, t)) {k : Nat}
    (hk : limit * 1000000000 ≤ ((clock k - now : Int) : K)) : t.s.expansions ≤ k := by
  unfold kFindTimedTestOn at h
  rw [hs] at h
  by_contra hlt
  have hb := steer_test_before_end f _ r t h (by
    intro j hj
    have hj : j < (kInitOn B P cfg lab kin).s.expansions := hj
    rw [initOn_expansions] at hj
    exact absurd hj (Nat.not_lt_zero _)) k (not_le.1 hlt)
  cases s with
  | none => exact absurd (stamp_none hs) (not_le.2 h0)
  | some a =>
    obtain ⟨_, rfl⟩ := stamp_some hs
    simp only [clockAbort, decide_eq_false_iff_not, not_le] at hb
    have h2 : clock k - now < ⌊limit * 1000⌋ * 1000000 := by omega
    have h3 : ((clock k - now : Int) : K) < ((⌊limit * 1000⌋ * 1000000 : Int) : K) := Int.cast_lt.2 h2
    push_cast at h3
    have h4 := Int.floor_le (limit * 1000)
    push_cast at hk
    linarith

/-- **C129 (steering searches with a goal test, no limit).** -/
theorem steer_test_no_limit (h : limit ≤ 0) (f : Nat) :
    kFindTimedTestOn B P cfg T limit now clock lab kin f = kFindTestOn B P { cfg with abort := fun _ => false } T lab kin f := by
  have : stampAbort limit now = .ok none := by rw [stampAbort, if_neg (not_lt.2 h)]
  unfold kFindTimedTestOn
  rw [this]
  rfl

/-- **C129 (steering searches with a goal test, exactly when it overflows).** -/
theorem steer_test_overflows (hp : 0 < limit) (hlo : -2 ^ 63 ≤ now) (hhi : now < 2 ^ 63) (f : Nat) :
    (2 ^ 63 ≤ max 0 now + ⌊limit * 1000⌋ * 1000000 →
      kFindTimedTestOn B P cfg T limit now clock lab kin f = some (.ub, kInitOn B P cfg lab kin)) ∧
    (max 0 now + ⌊limit * 1000⌋ * 1000000 < 2 ^ 63 →
      kFindTimedTestOn B P cfg T limit now clock lab kin f =
        kFindTestOn B P { cfg with abort := fun k => decide (now + ⌊limit * 1000⌋ * 1000000 ≤ clock k) } T lab kin f) := by
  obtain ⟨h1, h2⟩ := overflow_exact hp hlo hhi
  refine ⟨fun h => ?_, fun h => ?_⟩
  · unfold kFindTimedTestOn
    rw [h1.2 h]
  · have := h2 (fun hub => absurd (h1.1 hub) (not_le.2 h))
    unfold kFindTimedTestOn
    rw [this]
    rfl

/-- **C129 (steering searches with a goal test, less than a millisecond).**  The goal test is not even called for the start. -/
theorem steer_test_below_millisecond (ht : TopOk cfg.top) (h0 : 0 < limit) (h1 : limit < 1 / 1000) (hlo : -2 ^ 63 ≤ now)
    (hhi : now < 2 ^ 63) (hc : now ≤ clock 0) (f : Nat) :
    kFindTimedTestOn B P cfg T limit now clock lab kin (f + 1) = some (.ok [], kInitOn B P cfg lab kin) := by
  have hz : ⌊limit * 1000⌋ = 0 := by
    rw [Int.floor_eq_zero_iff]
    exact ⟨by positivity, (lt_div_iff₀ (by norm_num : (0 : K) < 1000)).1 h1⟩
  have h2 := (steer_test_overflows (B := B) (P := P) (cfg := cfg) (T := T) (clock := clock) (lab := lab) (kin := kin) h0 hlo hhi (f + 1)).2
    (by rw [hz]; norm_num at hhi ⊢; exact hhi)
  rw [h2, hz]
  simp only [zero_mul, add_zero]
  have he : (kInitOn B P cfg lab kin).s.expansions = 0 := initOn_expansions
  have hf : finish { cfg with abort := fun k => decide (now ≤ clock k) } (kInitOn B P cfg lab kin).s = .ok [] := by
    rw [finish, show (kInitOn B P cfg lab kin).s.cands = [] from init_cands, (ht.none_iff _).2 rfl]
  have hi : kIterateT B { cfg with abort := fun k => decide (now ≤ clock k) } T (kInitOn B P cfg lab kin) =
      .done (.ok []) (kInitOn B P cfg lab kin) := by
    unfold kIterateT
    rw [hf]
    cases P.next (kInitOn B P cfg lab kin).s.opn with
    | none => rfl
    | some co => simp only [he, hc, decide_true, if_true]
  show kLoopT B { cfg with abort := fun k => decide (now ≤ clock k) } T (f + 1) (kInitOn B P cfg lab kin) = _
  rw [kLoopT, hi]

end PathPlanning.Deadline
