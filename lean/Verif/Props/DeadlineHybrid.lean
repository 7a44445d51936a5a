import Verif.Model.TimeLimitHybrid
import Verif.Props.DeadlineKin
import Verif.Props.HybridHist

/-!
# `setTimeLimit` and steering searches with an analytic expansion (C129)
-/

namespace PathPlanning.Deadline
open TimeLimit
set_option linter.unusedSectionVars false

variable {K : Type} [Field K] [LinearOrder K] [IsStrictOrderedRing K] [FloorRing K]
variable {N S C X : Type} [DecidableEq N] [LinearOrder C] [Fintype N]
variable {B : KAlgo N S C} {E : KExp X S C} {P : OpenList N C} {cfg : SCfg N C} {lab : Labels N C} {kin : N → S} {x : X}
variable {limit l1 l2 : K} {now now1 now2 : Int} {clock clock1 clock2 : Nat → Int}

/-- One round: nothing is expanded, or one node in a round whose reading is before the end. -/
def Round (b : Nat → Bool) (n n' : Nat) : Prop := n' = n ∨ n' = n + 1 ∧ b n = false

theorem kIterate_round {b : Nat → Bool} (st : KSt N S C P) :
    (∀ t, kIterate B { cfg with abort := b } st = .more t → Round b st.s.expansions t.s.expansions) ∧
    (∀ r t, kIterate B { cfg with abort := b } st = .done r t → Round b st.s.expansions t.s.expansions) := by
  unfold kIterate
  cases hn : P.next st.s.opn with
  | none => exact ⟨fun t h => (by cases h), fun r t h => by cases h; exact .inl rfl⟩
  | some co =>
    obtain ⟨cur, o⟩ := co
    simp only
    by_cases hab : b st.s.expansions = true
    · rw [if_pos hab]
      exact ⟨fun t h => (by cases h), fun r t h => by cases h; exact .inl rfl⟩
    rw [if_neg hab]
    have hb : b st.s.expansions = false := by simpa using hab
    cases hg : goalLoop (B.alg (popNode (B.alg st.s.lab st.kin) { cfg with abort := b } st.s cur o).lab st.kin)
        (B.cfg { cfg with abort := b } st.kin) cur cfg.goal (popNode (B.alg st.s.lab st.kin) { cfg with abort := b } st.s cur o) with
    | throw e => exact ⟨fun t h => (by cases h), fun r t h => by cases h; exact .inr ⟨rfl, hb⟩⟩
    | ub => exact ⟨fun t h => (by cases h), fun r t h => by cases h; exact .inr ⟨rfl, hb⟩⟩
    | ok t1 =>
      have he : t1.st.expansions = st.s.expansions + 1 := (goalLoop_quiet _ _ _ _ _ hg).2.2.1
      simp only
      by_cases htm : t1.term = true
      · rw [if_pos htm]
        by_cases hr : t1.result ≠ []
        · rw [if_pos hr]
          exact ⟨fun t h => (by cases h), fun r t h => by cases h; exact .inr ⟨he, hb⟩⟩
        · rw [if_neg hr]
          exact ⟨fun t h => (by cases h), fun r t h => by cases h; exact .inr ⟨he, hb⟩⟩
      rw [if_neg htm]
      by_cases hov : (cfg.useCands && !t1.st.cands.isEmpty &&
          decide ((B.alg t1.st.lab st.kin).addW t1.st.firstW cfg.oversearch < (B.alg t1.st.lab st.kin).total (t1.st.lab cur))) = true
      · rw [if_pos hov]
        exact ⟨fun t h => (by cases h), fun r t h => by cases h; exact .inr ⟨he, hb⟩⟩
      rw [if_neg hov]
      cases hx : kExpand B cfg.goal cur B.moves { s := t1.st, kin := st.kin } with
      | throw e => exact ⟨fun t h => (by cases h), fun r t h => by cases h; exact .inr ⟨he, hb⟩⟩
      | ub => exact ⟨fun t h => (by cases h), fun r t h => by cases h; exact .inr ⟨he, hb⟩⟩
      | ok st' =>
        exact ⟨fun t h => (by cases h; exact .inr ⟨(kExpand_count hx).trans he, hb⟩), fun r t h => by cases h⟩

theorem xIterateS_round {b : Nat → Bool} (st : KSt N S C P) (x : X) :
    (∀ t y, xIterateS B E { cfg with abort := b } st x = .more t y → Round b st.s.expansions t.s.expansions) ∧
    (∀ r t y, xIterateS B E { cfg with abort := b } st x = .done r t y → Round b st.s.expansions t.s.expansions) := by
  obtain ⟨k1, k2⟩ := kIterate_round (B := B) (cfg := cfg) (b := b) st
  unfold xIterateS
  have hrest : ∀ x' : X,
      (∀ t y, (match kIterate B { cfg with abort := b } st with
        | .more st' => XIterS.more st' x'
        | .done r st' => .done (contents st'.kin r) st' x' : XIterS N S C X P) = .more t y → Round b st.s.expansions t.s.expansions) ∧
      (∀ r t y, (match kIterate B { cfg with abort := b } st with
        | .more st' => XIterS.more st' x'
        | .done r st' => .done (contents st'.kin r) st' x' : XIterS N S C X P) = .done r t y → Round b st.s.expansions t.s.expansions) := by
    intro x'
    cases h : kIterate B { cfg with abort := b } st with
    | more st' => exact ⟨fun t y e => (by cases e; exact k1 _ h), fun r t y e => by cases e⟩
    | done r st' => exact ⟨fun t y e => (by cases e), fun r t y e => by cases e; exact k2 _ _ h⟩
  cases hn : P.next st.s.opn with
  | none => exact hrest x
  | some co =>
    obtain ⟨cur, o⟩ := co
    simp only
    by_cases hab : b st.s.expansions = true
    · rw [if_pos hab]; exact hrest x
    rw [if_neg hab]
    have hb : b st.s.expansions = false := by simpa using hab
    cases hl : xLoop E cfg.start (popNode (B.alg st.s.lab st.kin) { cfg with abort := b } st.s cur o).lab st.kin cur cfg.goal x with
    | throw e => exact ⟨fun t y h => (by cases h), fun r t y h => by cases h; exact .inr ⟨rfl, hb⟩⟩
    | ub => exact ⟨fun t y h => (by cases h), fun r t y h => by cases h; exact .inr ⟨rfl, hb⟩⟩
    | ok z =>
      obtain ⟨q, x'⟩ := z
      cases q with
      | none => exact hrest x'
      | some q => exact ⟨fun t y h => (by cases h), fun r t y h => by cases h; exact .inr ⟨rfl, hb⟩⟩

theorem hybrid_before_end {b : Nat → Bool} : ∀ (f : Nat) (st : KSt N S C P) (x : X) (r t y),
    xSearchS B E { cfg with abort := b } f st x = some (r, t, y) →
    (∀ k < st.s.expansions, b k = false) → ∀ k < t.s.expansions, b k = false := by
  have step : ∀ {n n'}, Round b n n' → (∀ k < n, b k = false) → ∀ k < n', b k = false := by
    intro n n' h hI k hk
    rcases h with rfl | ⟨rfl, hb⟩
    · exact hI k hk
    · rcases Nat.lt_succ_iff_lt_or_eq.1 hk with h | rfl
      · exact hI k h
      · exact hb
  intro f
  induction f with
  | zero => intro st x r t y h; simp [xSearchS] at h
  | succ f ih =>
    intro st x r t y h hI
    rw [xSearchS] at h
    obtain ⟨k1, k2⟩ := xIterateS_round (B := B) (E := E) (cfg := cfg) (b := b) st x
    cases hi : xIterateS B E { cfg with abort := b } st x with
    | done r1 t1 y1 =>
      rw [hi] at h
      simp only [Option.some.injEq, Prod.mk.injEq] at h
      obtain ⟨_, rfl, _⟩ := h
      exact step (k2 _ _ _ hi) hI
    | more t1 y1 =>
      rw [hi] at h
      exact ih t1 y1 r t y h (step (k1 _ _ hi) hI)

/-- **C129 (searches with an analytic expansion keep the limit).**  `kept` for steering searches with an analytic expansion, on nodes with
whatever history, and however the search ends. -/
theorem hybrid_kept (h0 : 0 < limit) {s : Option Int} (hs : stampAbort limit now = .ok s) {f : Nat} {r : CRes (List S)}
    {t : KSt N S C P} {y : X} (h : xFindTimedOn B E P cfg limit now clock lab kin x f = some (r, t, y)) {k : Nat}
    (hk : limit * 1000000000 ≤ ((clock k - now : Int) : K)) : t.s.expansions ≤ k := by
  unfold xFindTimedOn at h
  rw [hs] at h
  by_contra hlt
  have hb := hybrid_before_end f _ x r t y h (by
    intro j hj
    have hj : j < (kInitOn B P cfg lab kin).s.expansions := hj
    rw [initOn_expansions] at hj
    exact absurd hj (Nat.not_lt_zero _)) k (not_le.1 hlt)
  cases s with
  | none => exact absurd (stamp_none hs) (not_le.2 h0)
  | some a =>
    obtain ⟨_, rfl⟩ := stamp_some hs
    simp only [clockAbort, decide_eq_false_iff_not, not_le] at hb
    have h2 : clock k - now < ⌊limit * 1000⌋ * 1000000 := by omega
    have h3 : ((clock k - now : Int) : K) < ((⌊limit * 1000⌋ * 1000000 : Int) : K) := Int.cast_lt.2 h2
    push_cast at h3
    have h4 := Int.floor_le (limit * 1000)
    push_cast at hk
    linarith

/-- **C129 (searches with an analytic expansion, no limit).** -/
theorem hybrid_no_limit (h : limit ≤ 0) (f : Nat) :
    xFindTimedOn B E P cfg limit now clock lab kin x f = xFindOn B E P { cfg with abort := fun _ => false } lab kin x f := by
  have : stampAbort limit now = .ok none := by rw [stampAbort, if_neg (not_lt.2 h)]
  unfold xFindTimedOn
  rw [this]
  rfl

/-- **C129 (searches with an analytic expansion, exactly when it overflows).** -/
theorem hybrid_overflows (hp : 0 < limit) (hlo : -2 ^ 63 ≤ now) (hhi : now < 2 ^ 63) (f : Nat) :
    (2 ^ 63 ≤ max 0 now + ⌊limit * 1000⌋ * 1000000 →
      xFindTimedOn B E P cfg limit now clock lab kin x f = some (.ub, kInitOn B P cfg lab kin, x)) ∧
    (max 0 now + ⌊limit * 1000⌋ * 1000000 < 2 ^ 63 →
      xFindTimedOn B E P cfg limit now clock lab kin x f =
        xFindOn B E P { cfg with abort := fun k => decide (now + ⌊limit * 1000⌋ * 1000000 ≤ clock k) } lab kin x f) := by
  obtain ⟨h1, h2⟩ := overflow_exact hp hlo hhi
  refine ⟨fun h => ?_, fun h => ?_⟩
  · unfold xFindTimedOn
    rw [h1.2 h]
  · have := h2 (fun hub => absurd (h1.1 hub) (not_le.2 h))
    unfold xFindTimedOn
    rw [this]
    rfl

/-- **C129 (searches with an analytic expansion, less than a millisecond).**  Not even an expansion from the start is tried. -/
theorem hybrid_below_millisecond (ht : TopOk cfg.top) (h0 : 0 < limit) (h1 : limit < 1 / 1000) (hlo : -2 ^ 63 ≤ now) (hhi : now < 2 ^ 63)
    (hc : now ≤ clock 0) (f : Nat) :
    xFindTimedOn B E P cfg limit now clock lab kin x (f + 1) = some (.ok [], kInitOn B P cfg lab kin, x) := by
  have hz : ⌊limit * 1000⌋ = 0 := by
    rw [Int.floor_eq_zero_iff]
    exact ⟨by positivity, (lt_div_iff₀ (by norm_num : (0 : K) < 1000)).1 h1⟩
  have h2 := (hybrid_overflows (B := B) (E := E) (P := P) (cfg := cfg) (clock := clock) (lab := lab) (kin := kin) (x := x) h0 hlo hhi (f + 1)).2
    (by rw [hz]; norm_num at hhi ⊢; exact hhi)
  rw [h2, hz]
  simp only [zero_mul, add_zero]
  have he : (kInitOn B P cfg lab kin).s.expansions = 0 := initOn_expansions
  have hf : finish { cfg with abort := fun k => decide (now ≤ clock k) } (kInitOn B P cfg lab kin).s = .ok [] := by
    rw [finish, show (kInitOn B P cfg lab kin).s.cands = [] from init_cands, (ht.none_iff _).2 rfl]
  have hi : xIterateS B E { cfg with abort := fun k => decide (now ≤ clock k) } (kInitOn B P cfg lab kin) x =
      .done (.ok []) (kInitOn B P cfg lab kin) x := by
    unfold xIterateS kIterate
    cases P.next (kInitOn B P cfg lab kin).s.opn with
    | none => simp only [hf, contents, List.map_nil]
    | some co => simp only [he, hc, decide_true, if_true, hf, contents, List.map_nil]
  show xSearchS B E { cfg with abort := fun k => decide (now ≤ clock k) } (f + 1) (kInitOn B P cfg lab kin) x = _
  rw [xSearchS, hi]

theorem xIterateS_clock {soon late : Nat → Bool} (hsl : Later soon late) (st : KSt N S C P) (x : X) :
    xIterateS B E { cfg with abort := soon } st x = xIterateS B E { cfg with abort := late } st x ∨
      (soon st.s.expansions = true ∧
        xIterateS B E { cfg with abort := soon } st x = .done (contents st.kin (finish cfg st.s)) st x) := by
  by_cases hs : soon st.s.expansions = true ∧ P.next st.s.opn ≠ none
  · right
    refine ⟨hs.1, ?_⟩
    cases hn : P.next st.s.opn with
    | none => exact absurd hn hs.2
    | some co => simp only [xIterateS, kIterate, hn, hs.1, if_true]; rfl
  · left
    have hk : kIterate B { cfg with abort := soon } st = kIterate B { cfg with abort := late } st := by
      rcases kIterate_clock (A := B) (cfg := cfg) hsl st with e | ⟨h1, _⟩
      · exact e
      · cases hn : P.next st.s.opn with
        | none => simp only [kIterate, hn]; rfl
        | some co => exact absurd ⟨h1, by rw [hn]; simp⟩ hs
    unfold xIterateS
    simp only [hk]
    cases hn : P.next st.s.opn with
    | none => rfl
    | some co =>
      have hs' : ¬ soon st.s.expansions = true := fun h => hs ⟨h, by rw [hn]; simp⟩
      have hl : ¬ late st.s.expansions = true := fun h => hs' (hsl _ h)
      simp only [hs', hl]
      rfl

theorem xIterateS_nocands (hu : cfg.useCands = false) (b : Nat → Bool) {st st' : KSt N S C P} {x x' : X}
    (h : xIterateS B E { cfg with abort := b } st x = .more st' x') : st'.s.cands = st.s.cands := by
  have hrest : ∀ y, (match kIterate B { cfg with abort := b } st with
      | .more s => XIterS.more s y
      | .done r s => .done (contents s.kin r) s y) = .more st' x' → st'.s.cands = st.s.cands := by
    intro y hy
    cases hk : kIterate B { cfg with abort := b } st with
    | done r s => rw [hk] at hy; cases hy
    | more s => rw [hk] at hy; cases hy; exact kIterate_nocands hu b hk
  unfold xIterateS at h
  cases hn : P.next st.s.opn with
  | none => simp only [hn] at h; exact hrest _ h
  | some co =>
    obtain ⟨cur, o⟩ := co
    simp only [hn] at h
    by_cases hab : b st.s.expansions = true
    · simp only [hab, if_true] at h; exact hrest _ h
    · simp only [hab, if_false, Bool.false_eq_true] at h
      split at h
      · cases h
      · cases h
      · cases h
      · exact hrest _ h

/-- Two runs of a search with an analytic expansion on the same nodes, whatever their history, the second with the longer limit: the same
result, the same nodes and the same state of the expansion, or "no path" because the limit of the first has struck. -/
theorem hybrid_two_runs {soon late : Nat → Bool} (ht : TopOk cfg.top) (hu : cfg.useCands = false) (hsl : Later soon late)
    {r r' : CRes (List S)} {t t' : KSt N S C P} {y y' : X} : ∀ (f : Nat) (st : KSt N S C P) (x : X), st.s.cands = [] →
    xSearchS B E { cfg with abort := soon } f st x = some (r, t, y) →
    ∀ f', xSearchS B E { cfg with abort := late } f' st x = some (r', t', y') →
    (r = r' ∧ t = t' ∧ y = y') ∨ (r = .ok [] ∧ soon t.s.expansions = true) := by
  intro f
  induction f with
  | zero => intro st x _ h; simp [xSearchS] at h
  | succ f ih =>
    intro st x hI h f' h'
    rw [xSearchS] at h
    rcases xIterateS_clock (cfg := cfg) (B := B) (E := E) hsl st x with e | ⟨hs, e⟩
    · rw [e] at h
      cases f' with
      | zero => simp [xSearchS] at h'
      | succ f' =>
        rw [xSearchS] at h'
        cases hi : xIterateS B E { cfg with abort := late } st x with
        | done r1 t1 y1 =>
          rw [hi] at h h'
          simp only [Option.some.injEq, Prod.mk.injEq] at h h'
          exact .inl ⟨h.1.symm.trans h'.1, h.2.1.symm.trans h'.2.1, h.2.2.symm.trans h'.2.2⟩
        | more t1 y1 =>
          rw [hi] at h h'
          exact ih t1 y1 ((xIterateS_nocands hu _ hi).trans hI) h f' h'
    · rw [e] at h
      simp only [Option.some.injEq, Prod.mk.injEq] at h
      obtain ⟨rfl, rfl, _⟩ := h
      right
      refine ⟨?_, hs⟩
      rw [finish, hI, (ht.none_iff _).2 rfl]; rfl

/-- **C129 (searches with an analytic expansion, larger limit).**  `larger_limit` on nodes with whatever history; if the results are the
same, so are the nodes and the state of the expansion afterwards. -/
theorem hybrid_larger_limit (ht : TopOk cfg.top) (hu : cfg.useCands = false) (h1 : 0 < l1) (hl : l1 ≤ l2 ∨ l2 ≤ 0)
    {s1 s2 : Option Int} (hs1 : stampAbort l1 now1 = .ok s1) (hs2 : stampAbort l2 now2 = .ok s2)
    (hc : ∀ k, clock2 k - now2 ≤ clock1 k - now1) {f f' : Nat} {r r' : CRes (List S)} {t t' : KSt N S C P} {y y' : X}
    (h : xFindTimedOn B E P cfg l1 now1 clock1 lab kin x f = some (r, t, y))
    (h' : xFindTimedOn B E P cfg l2 now2 clock2 lab kin x f' = some (r', t', y')) :
    (r = r' ∧ t = t' ∧ y = y') ∨ r = .ok [] := by
  unfold xFindTimedOn at h h'
  rw [hs1] at h
  rw [hs2] at h'
  rcases hybrid_two_runs ht hu (later_of hl h1 hs1 hs2 hc) f (kInitOn B P cfg lab kin) x init_cands h f' h' with e | ⟨e, _⟩
  · exact .inl e
  · exact .inr e

/-- **C129 (searches with an analytic expansion, not too early).**  `not_early` for searches with an analytic expansion, on nodes with
whatever history. -/
theorem hybrid_not_early (ht : TopOk cfg.top) (hu : cfg.useCands = false) {s : Option Int} (hs : stampAbort limit now = .ok s) {f f' : Nat}
    {r r' : CRes (List S)} {t t' : KSt N S C P} {y y' : X}
    (h : xFindTimedOn B E P cfg limit now clock lab kin x f = some (r, t, y))
    (h' : xFindOn B E P { cfg with abort := fun _ => false } lab kin x f' = some (r', t', y')) (hne : r ≠ r') :
    r = .ok [] ∧ (limit - 1 / 1000) * 1000000000 < ((clock t.s.expansions - now : Int) : K) := by
  unfold xFindTimedOn at h
  rw [hs] at h
  rcases hybrid_two_runs (soon := clockAbort s clock) (late := fun _ => false) ht hu (fun _ h => by cases h) f
    (kInitOn B P cfg lab kin) x init_cands h f' h' with ⟨e, _⟩ | ⟨e, e1⟩
  · exact absurd e hne
  · refine ⟨e, ?_⟩
    cases s with
    | none => cases e1
    | some a =>
      obtain ⟨_, rfl⟩ := stamp_some hs
      simp only [clockAbort, decide_eq_true_eq] at e1
      have h2 : ⌊limit * 1000⌋ * 1000000 ≤ clock t.s.expansions - now := by omega
      have h3 : ((⌊limit * 1000⌋ * 1000000 : Int) : K) ≤ ((clock t.s.expansions - now : Int) : K) := Int.cast_le.2 h2
      push_cast at h3 ⊢
      have h4 := Int.lt_floor_add_one (limit * 1000)
      linarith

end PathPlanning.Deadline
