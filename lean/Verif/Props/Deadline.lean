import Verif.Model.TimeLimit
import Verif.Props.TimeLimitKin
import Mathlib.Tactic.Linarith
import Mathlib.Tactic.NormNum
import Mathlib.Tactic.Positivity

/-!
# `setTimeLimit` (C129)
-/

namespace PathPlanning.Deadline
open TimeLimit
set_option linter.unusedSectionVars false

variable {K : Type} [Field K] [LinearOrder K] [IsStrictOrderedRing K] [FloorRing K]
variable {N C : Type} [DecidableEq N] [LinearOrder C] [Fintype N]
variable {A : Algo N C} {P : OpenList N C} {cfg : SCfg N C} {lab : Labels N C}
variable {limit l1 l2 : K} {now now1 now2 : Int} {clock clock1 clock2 : Nat → Int}

/-- **C129 (no limit).**  A limit of zero or less is no limit: the search is the one without a limit, whatever the clock shows. -/
theorem no_limit (h : limit ≤ 0) (f : Nat) :
    findTimed A P cfg limit now clock lab f = findPathNodes A P { cfg with abort := fun _ => false } lab f := by
  have : stampAbort limit now = .ok none := by rw [stampAbort, if_neg (not_lt.2 h)]
  unfold findTimed
  rw [this]
  rfl

theorem stamp_some {s : Int} (h : stampAbort limit now = .ok (some s)) :
    0 < limit ∧ s = now + ⌊limit * 1000⌋ * 1000000 := by
  unfold stampAbort at h
  by_cases h1 : 0 < limit
  · have h0 : (0 : K) ≤ limit * 1000 := by positivity
    simp only [h1, if_true, truncC_nonneg h0] at h
    split_ifs at h
    cases h
    exact ⟨h1, rfl⟩
  · rw [if_neg h1] at h; cases h

theorem stamp_none (h : stampAbort limit now = .ok none) : limit ≤ 0 := by
  by_contra hn
  unfold stampAbort at h
  simp only [not_le.1 hn, if_true] at h
  split_ifs at h
  cases h

/-- **C129 (a usable limit).**  Up to 7·10⁹ seconds (222 years) nothing overflows as long as the clock shows between 0 and 2·10¹⁸ nanoseconds
(until the year 2033 on a clock that counts from 1970). -/
theorem usable (hl : limit ≤ 7000000000) (h0 : 0 ≤ now) (h1 : now ≤ 2000000000000000000) :
    ∃ o, stampAbort limit now = .ok o := by
  unfold stampAbort
  by_cases hp : 0 < limit
  · have hn : (0 : K) ≤ limit * 1000 := by positivity
    have a1 : 0 ≤ ⌊limit * 1000⌋ := Int.floor_nonneg.2 hn
    have a2 : ⌊limit * 1000⌋ ≤ 7000000000000 := by
      have : ((⌊limit * 1000⌋ : Int) : K) ≤ ((7000000000000 : Int) : K) := by
        refine (Int.floor_le _).trans ?_
        push_cast
        linarith
      exact_mod_cast this
    simp only [hp, if_true, truncC_nonneg hn]
    rw [if_neg (by simp only [inI64]; omega), if_neg (by simp only [inI64]; omega), if_neg (by simp only [inI64]; omega)]
    exact ⟨_, rfl⟩
  · rw [if_neg hp]; exact ⟨_, rfl⟩

/-- **C129 (overflow).**  A limit of 2⁶³ milliseconds or more, such as `DBL_MAX` or infinity for "no limit", is undefined behaviour before
the first node is expanded. -/
theorem huge (h : 9223372036854775.808 ≤ limit) (f : Nat) :
    findTimed A P cfg limit now clock lab f = some (.ub, initSearch A P cfg lab) := by
  have hp : (0 : K) < limit := lt_of_lt_of_le (by norm_num) h
  have hn : (0 : K) ≤ limit * 1000 := by positivity
  have a1 : (9223372036854775808 : Int) ≤ ⌊limit * 1000⌋ := by
    rw [Int.le_floor]
    push_cast
    norm_num at h ⊢
    linarith
  have : stampAbort limit now = .ub := by
    unfold stampAbort
    simp only [hp, if_true, truncC_nonneg hn]
    rw [if_pos (by simp only [inI64]; omega)]
  unfold findTimed
  rw [this]

/-- **C129 (exactly when it overflows).**  For a positive limit and any reading of the 64-bit clock (`now`) the stamp is undefined exactly if
the whole milliseconds of the limit, in nanoseconds, added to the reading - or to zero, if the reading is negative - reach 2⁶³.
Otherwise the search runs with the sum as its deadline. -/
theorem overflow_exact (hp : 0 < limit) (hlo : -2 ^ 63 ≤ now) (hhi : now < 2 ^ 63) :
    (stampAbort limit now = .ub ↔ 2 ^ 63 ≤ max 0 now + ⌊limit * 1000⌋ * 1000000) ∧
    (stampAbort limit now ≠ .ub → stampAbort limit now = .ok (some (now + ⌊limit * 1000⌋ * 1000000))) := by
  have hn : (0 : K) ≤ limit * 1000 := by positivity
  have a1 : 0 ≤ ⌊limit * 1000⌋ := Int.floor_nonneg.2 hn
  unfold stampAbort
  simp only [hp, if_true, truncC_nonneg hn]
  norm_num at hlo hhi
  generalize ⌊limit * 1000⌋ = z at a1
  by_cases c1 : inI64 z
  · by_cases c2 : inI64 (z * 1000000)
    · by_cases c3 : inI64 (now + z * 1000000)
      · simp only [c1, c2, c3, not_true_eq_false, if_false, reduceCtorEq, false_iff, ne_eq, not_false_eq_true, true_implies, and_true]
        unfold inI64 at c1 c2 c3
        omega
      · simp only [c1, c2, c3, not_true_eq_false, not_false_eq_true, if_false, if_true, true_iff, ne_eq, false_implies, and_true]
        unfold inI64 at c1 c2 c3
        omega
    · simp only [c1, c2, not_true_eq_false, not_false_eq_true, if_false, if_true, true_iff, ne_eq, false_implies, and_true]
      unfold inI64 at c1 c2
      omega
  · simp only [c1, not_false_eq_true, if_true, true_iff, ne_eq, not_true_eq_false, false_implies, and_true]
    unfold inI64 at c1
    omega

/-- **C129 (exactly when it overflows), for a whole search.** -/
theorem search_overflows (hp : 0 < limit) (hlo : -2 ^ 63 ≤ now) (hhi : now < 2 ^ 63) (f : Nat) :
    (2 ^ 63 ≤ max 0 now + ⌊limit * 1000⌋ * 1000000 →
      findTimed A P cfg limit now clock lab f = some (.ub, initSearch A P cfg lab)) ∧
    (max 0 now + ⌊limit * 1000⌋ * 1000000 < 2 ^ 63 →
      findTimed A P cfg limit now clock lab f =
        findPathNodes A P { cfg with abort := fun k => decide (now + ⌊limit * 1000⌋ * 1000000 ≤ clock k) } lab f) := by
  obtain ⟨h1, h2⟩ := overflow_exact hp hlo hhi
  refine ⟨fun h => ?_, fun h => ?_⟩
  · unfold findTimed
    rw [h1.2 h]
  · have := h2 (fun hub => absurd (h1.1 hub) (not_le.2 h))
    unfold findTimed
    rw [this]
    rfl

/-- Not vacuous: at the reading 0, 2⁶³ nanoseconds are exceeded by 9223372036.855 seconds but not by 9223372036.854. -/
example : stampAbort (9223372036.855 : ℚ) 0 = .ub ∧ stampAbort (9223372036.854 : ℚ) 0 = .ok (some 9223372036854000000) := by
  have f1 : ⌊(9223372036.855 : ℚ) * 1000⌋ = 9223372036855 := by norm_num
  have f2 : ⌊(9223372036.854 : ℚ) * 1000⌋ = 9223372036854 := by norm_num
  constructor
  · rw [(overflow_exact (by norm_num) (by norm_num) (by norm_num)).1, f1]; norm_num
  · rw [(overflow_exact (by norm_num) (by norm_num) (by norm_num)).2, f2]
    · norm_num
    · rw [Ne, (overflow_exact (by norm_num) (by norm_num) (by norm_num)).1, f2]; norm_num

theorem init_expansions : (initSearch A P cfg lab).expansions = 0 := by
  unfold initSearch
  have : ∀ (ss : List N) (st : SSt N C P), st.expansions = 0 → (ss.foldl (addStart A) st).expansions = 0 := by
    intro ss
    induction ss with
    | nil => intro st h; exact h
    | cons s ss ih => intro st h; exact ih _ h
  exact this _ _ rfl

/-- A limit that has passed in the first round. -/
theorem struck (ht : TopOk cfg.top) {b : Nat → Bool} (hb : b 0 = true) (f : Nat) :
    findPathNodes A P { cfg with abort := b } lab (f + 1) = some (.ok [], initSearch A P cfg lab) := by
  have he : (initSearch A P cfg lab).expansions = 0 := init_expansions
  rw [find_eq, searchLoop]
  have hi : iterate A { cfg with abort := b } (poseTest A cfg) (initSearch A P cfg lab) =
      .done (.ok []) (initSearch A P cfg lab) := by
    have hf : finish { cfg with abort := b } (initSearch A P cfg lab) = .ok [] := by
      rw [finish, init_cands, (ht.none_iff _).2 rfl]
    unfold iterate
    rw [hf]
    cases P.next (initSearch A P cfg lab).opn with
    | none => rfl
    | some co => simp only [he, hb, if_true]
  rw [hi]

/-- **C129 (less than a millisecond).**  The limit is cut off to whole milliseconds: below one millisecond, and if the clock does not go
back, every search returns "no path" without expanding a node - also if start and goal are the same. -/
theorem below_millisecond (ht : TopOk cfg.top) (h0 : 0 < limit) (h1 : limit < 1 / 1000) (hnow : inI64 now) (hc : now ≤ clock 0) (f : Nat) :
    findTimed A P cfg limit now clock lab (f + 1) = some (.ok [], initSearch A P cfg lab) := by
  have ht0 : truncC (limit * 1000) = 0 := by
    apply truncC_eq_zero
    · have : (0 : K) ≤ limit * 1000 := by positivity
      linarith
    · have := (lt_div_iff₀ (by norm_num : (0 : K) < 1000)).1 h1
      exact this
  have : stampAbort limit now = .ok (some now) := by
    unfold stampAbort
    simp only [h0, if_true, ht0, zero_mul, add_zero]
    rw [if_neg (by simp [inI64]), if_neg (by simp [inI64]), if_neg (by simpa using hnow)]
  unfold findTimed
  rw [this]
  exact struck ht (by simp [clockAbort, hc]) f

/-- The limit strikes later with a larger argument and on a faster machine. -/
theorem later_of (hl : l1 ≤ l2 ∨ l2 ≤ 0) (h1 : 0 < l1) {s1 s2 : Option Int} (hs1 : stampAbort l1 now1 = .ok s1)
    (hs2 : stampAbort l2 now2 = .ok s2) (hc : ∀ k, clock2 k - now2 ≤ clock1 k - now1) :
    Later (clockAbort s1 clock1) (clockAbort s2 clock2) := by
  intro k hk
  cases s2 with
  | none => cases hk
  | some b =>
    cases s1 with
    | none => exact absurd (stamp_none hs1) (not_le.2 h1)
    | some a =>
      obtain ⟨_, rfl⟩ := stamp_some hs1
      obtain ⟨hp, rfl⟩ := stamp_some hs2
      simp only [clockAbort, decide_eq_true_eq] at hk ⊢
      have hf : ⌊l1 * 1000⌋ ≤ ⌊l2 * 1000⌋ := by
        rcases hl with h | h
        · exact Int.floor_le_floor (by linarith)
        · exact absurd hp (not_lt.2 h)
      have := hc k
      omega

/-- **C129 (a larger limit, a faster machine).**  Of two runs of the same search, the second with a larger limit (or none) and with
clock readings that are, counted from its beginning, not later than those of the first, the first returns what the second returns, or no path. -/
theorem larger_limit (ht : TopOk cfg.top) (hu : cfg.useCands = false) (h1 : 0 < l1) (hl : l1 ≤ l2 ∨ l2 ≤ 0)
    {s1 s2 : Option Int} (hs1 : stampAbort l1 now1 = .ok s1) (hs2 : stampAbort l2 now2 = .ok s2)
    (hc : ∀ k, clock2 k - now2 ≤ clock1 k - now1) {f f' : Nat} {r r' : CRes (List N)} {t t' : SSt N C P}
    (h : findTimed A P cfg l1 now1 clock1 lab f = some (r, t)) (h' : findTimed A P cfg l2 now2 clock2 lab f' = some (r', t')) :
    (r = r' ∧ t = t') ∨ r = .ok [] := by
  unfold findTimed at h h'
  rw [hs1] at h
  rw [hs2] at h'
  rcases more_time ht hu (later_of hl h1 hs1 hs2 hc) h h' with e | ⟨_, e⟩
  · exact .inl e
  · exact .inr e

theorem before_end {b : Nat → Bool} {test : SSt N C P → N → CRes (TestOut N C P)} (hq : Quiet test) : ∀ (f : Nat) (st : SSt N C P) (r t),
    searchLoop A { cfg with abort := b } test f st = some (r, t) →
    (∀ k < st.expansions, b k = false) → ∀ k < t.expansions, b k = false := by
  intro f
  induction f with
  | zero => intro st r t h; simp [searchLoop] at h
  | succ f ih =>
    intro st r t h hI
    have hsucc : b st.expansions = false → ∀ k < st.expansions + 1, b k = false := by
      intro hb k hk
      rcases Nat.lt_succ_iff_lt_or_eq.1 hk with h | rfl
      · exact hI k h
      · exact hb
    rw [searchLoop] at h
    cases hi : iterate A { cfg with abort := b } test st with
    | more st1 =>
      rw [hi] at h
      refine ih st1 r t h ?_
      obtain ⟨cur, o, t1, _, h2, h3, _, _, h4⟩ := iterate_more hi
      rw [h4, During.expandNode_expansions, (hq _ _ _ h3).2.2.1]
      exact hsucc h2
    | done r1 st1 =>
      rw [hi] at h
      simp only [Option.some.injEq, Prod.mk.injEq] at h
      obtain ⟨rfl, rfl⟩ := h
      intro k hk
      unfold iterate at hi
      cases hn : P.next st.opn with
      | none => rw [hn] at hi; cases hi; exact hI k hk
      | some co =>
        obtain ⟨cur, o⟩ := co
        rw [hn] at hi
        dsimp only at hi
        by_cases hab : b st.expansions = true
        · rw [if_pos hab] at hi; cases hi; exact hI k hk
        · rw [if_neg hab] at hi
          have hb := hsucc (by simpa using hab)
          cases ht : test (popNode A { cfg with abort := b } st cur o) cur with
          | throw e => rw [ht] at hi; cases hi; exact hb k hk
          | ub => rw [ht] at hi; cases hi; exact hb k hk
          | ok t2 =>
            rw [ht] at hi
            have he : t2.st.expansions = st.expansions + 1 := (hq _ _ _ ht).2.2.1
            dsimp only at hi
            split_ifs at hi <;> (cases hi; rw [he] at hk; exact hb k hk)

theorem kept_core (h0 : 0 < limit) {test : SSt N C P → N → CRes (TestOut N C P)} (hq : Quiet test) {s : Option Int}
    (hs : stampAbort limit now = .ok s) {f : Nat} {r : CRes (List N)} {st t : SSt N C P}
    (h : searchLoop A { cfg with abort := clockAbort s clock } test f st = some (r, t)) (he : st.expansions = 0) {k : Nat}
    (hk : limit * 1000000000 ≤ ((clock k - now : Int) : K)) : t.expansions ≤ k := by
  by_contra hlt
  have hb := before_end hq _ _ _ _ h (by
    intro j hj
    rw [he] at hj
    exact absurd hj (Nat.not_lt_zero _)) k (not_le.1 hlt)
  cases s with
  | none => exact absurd (stamp_none hs) (not_le.2 h0)
  | some a =>
    obtain ⟨_, rfl⟩ := stamp_some hs
    simp only [clockAbort, decide_eq_false_iff_not, not_le] at hb
    have h2 : clock k - now < ⌊limit * 1000⌋ * 1000000 := by omega
    have h3 : ((clock k - now : Int) : K) < ((⌊limit * 1000⌋ * 1000000 : Int) : K) := Int.cast_lt.2 h2
    push_cast at h3
    have h4 := Int.floor_le (limit * 1000)
    push_cast at hk
    linarith

/-- **C129 (the limit is kept).**  No node is expanded in a round at whose beginning the limit has passed: if the `k`-th reading is
`limit` seconds or more after the beginning, at most `k` nodes are expanded, however the search ends (exceptions included). -/
theorem kept (h0 : 0 < limit) {s : Option Int} (hs : stampAbort limit now = .ok s) {f : Nat} {r : CRes (List N)} {t : SSt N C P}
    (h : findTimed A P cfg limit now clock lab f = some (r, t)) {k : Nat}
    (hk : limit * 1000000000 ≤ ((clock k - now : Int) : K)) : t.expansions ≤ k := by
  unfold findTimed at h
  rw [hs] at h
  dsimp only at h
  rw [find_eq] at h
  exact kept_core h0 (poseTest_quiet cfg) hs h init_expansions hk

/-- **C129 (not too early).**  If the result is "no path" although a run without limit would have found one, then a reading of the clock was
later than one millisecond before the limit. -/
theorem not_early (ht : TopOk cfg.top) (hu : cfg.useCands = false) {s : Option Int} (hs : stampAbort limit now = .ok s) {f f' : Nat}
    {r r' : CRes (List N)} {t t' : SSt N C P} (h : findTimed A P cfg limit now clock lab f = some (r, t))
    (h' : findPathNodes A P { cfg with abort := fun _ => false } lab f' = some (r', t')) (hne : r ≠ r') :
    r = .ok [] ∧ (limit - 1 / 1000) * 1000000000 < ((clock t.expansions - now : Int) : K) := by
  unfold findTimed at h
  rw [hs] at h
  dsimp only at h
  rcases more_time (cfg := cfg) ht hu (soon := clockAbort s clock) (late := fun _ => false) (fun _ h => by cases h) h h' with ⟨e, _⟩ | ⟨e1, e2⟩
  · exact absurd e hne
  · refine ⟨e2, ?_⟩
    cases s with
    | none => cases e1
    | some a =>
      obtain ⟨_, rfl⟩ := stamp_some hs
      simp only [clockAbort, decide_eq_true_eq] at e1
      have h2 : ⌊limit * 1000⌋ * 1000000 ≤ clock t.expansions - now := by omega
      have h3 : ((⌊limit * 1000⌋ * 1000000 : Int) : K) ≤ ((clock t.expansions - now : Int) : K) := Int.cast_le.2 h2
      push_cast at h3 ⊢
      have h4 := Int.lt_floor_add_one (limit * 1000)
      linarith

/-- **C129 (steering searches).**  `no_limit` for searches with a steering neighbourhood. -/
theorem steer_no_limit {S : Type} {B : KAlgo N S C} {kin : N → S} (h : limit ≤ 0) (f : Nat) :
    kFindTimed B P cfg limit now clock kin f = kFindPath B P { cfg with abort := fun _ => false } kin f := by
  have : stampAbort limit now = .ok none := by rw [stampAbort, if_neg (not_lt.2 h)]
  unfold kFindTimed
  rw [this]
  rfl

/-- **C129 (steering searches).**  `larger_limit` for searches with a steering neighbourhood. -/
theorem steer_larger_limit {S : Type} {B : KAlgo N S C} {kin : N → S} (ht : TopOk cfg.top) (hu : cfg.useCands = false) (h1 : 0 < l1)
    (hl : l1 ≤ l2 ∨ l2 ≤ 0) {s1 s2 : Option Int} (hs1 : stampAbort l1 now1 = .ok s1) (hs2 : stampAbort l2 now2 = .ok s2)
    (hc : ∀ k, clock2 k - now2 ≤ clock1 k - now1) {f f' : Nat} {r r' : CRes (List S)}
    (h : kFindTimed B P cfg l1 now1 clock1 kin f = some r) (h' : kFindTimed B P cfg l2 now2 clock2 kin f' = some r') :
    r = r' ∨ r = .ok [] := by
  unfold kFindTimed at h h'
  rw [hs1] at h
  rw [hs2] at h'
  exact steer_more_time ht hu (later_of hl h1 hs1 hs2 hc) h h'

end PathPlanning.Deadline
