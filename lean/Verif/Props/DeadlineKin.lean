import Verif.Props.Deadline
import Verif.Lemmas.KinCount

/-!
# `setTimeLimit` and searches with a steering neighbourhood (C129)
-/

namespace PathPlanning.Deadline
open TimeLimit
set_option linter.unusedSectionVars false

variable {K : Type} [Field K] [LinearOrder K] [IsStrictOrderedRing K] [FloorRing K]
variable {N S C : Type} [DecidableEq N] [LinearOrder C] [Fintype N]
variable {B : KAlgo N S C} {P : OpenList N C} {cfg : SCfg N C} {lab : Labels N C} {kin : N → S}
variable {limit : K} {now : Int} {clock : Nat → Int}

/-- `kFindTimed` is this search on freshly initialised nodes, without the nodes afterwards. -/
theorem timed_fresh (f : Nat) : kFindTimed B P cfg limit now clock kin f =
    (kFindTimedOn B P cfg limit now clock (fun _ => Label.fresh B.zero) kin f).map fun x =>
      match x.1 with
      | .ok p => .ok (p.map x.2.kin)
      | .throw e => .throw e
      | .ub => .ub := by
  unfold kFindTimed kFindTimedOn
  cases stampAbort limit now with
  | ok s => rfl
  | throw e => rfl
  | ub => rfl

theorem kExpand_count {goal : List N} {cur : N} {ms : List (S → List S → Option (C × S))} {st st' : KSt N S C P}
    (h : kExpand B goal cur ms st = .ok st') : st'.s.expansions = st.s.expansions := (kExpand_touched ms st st' h).1

theorem steer_before_end {b : Nat → Bool} : ∀ (f : Nat) (st : KSt N S C P) (r t),
    kLoop B { cfg with abort := b } f st = some (r, t) →
    (∀ k < st.s.expansions, b k = false) → ∀ k < t.s.expansions, b k = false := by
  intro f
  induction f with
  | zero => intro st r t h; simp [kLoop] at h
  | succ f ih =>
    intro st r t h hI
    rw [kLoop] at h
    unfold kIterate at h
    cases hn : P.next st.s.opn with
    | none =>
      rw [hn] at h
      simp only [Option.some.injEq, Prod.mk.injEq] at h
      obtain ⟨_, rfl⟩ := h
      exact hI
    | some co =>
      obtain ⟨cur, o⟩ := co
      rw [hn] at h
      simp only at h
      by_cases hab : b st.s.expansions = true
      · rw [if_pos hab] at h
        simp only [Option.some.injEq, Prod.mk.injEq] at h
        obtain ⟨_, rfl⟩ := h
        exact hI
      rw [if_neg hab] at h
      have hb : ∀ k < st.s.expansions + 1, b k = false := by
        intro k hk
        rcases Nat.lt_succ_iff_lt_or_eq.1 hk with h | rfl
        · exact hI k h
        · simpa using hab
      have hend : ∀ (r1 : CRes (List N)) (s1 : SSt N C P), s1.expansions = st.s.expansions + 1 →
          (KIter.done r1 { s := s1, kin := st.kin } : KIter N S C P) = .done r t → ∀ k < t.s.expansions, b k = false := by
        intro r1 s1 e h1 k hk
        cases h1
        have hk : k < s1.expansions := hk
        rw [e] at hk
        exact hb k hk
      cases hg : goalLoop (B.alg (popNode (B.alg st.s.lab st.kin) { cfg with abort := b } st.s cur o).lab st.kin)
          (B.cfg { cfg with abort := b } st.kin) cur cfg.goal (popNode (B.alg st.s.lab st.kin) { cfg with abort := b } st.s cur o) with
      | throw e =>
        rw [hg] at h
        simp only [Option.some.injEq, Prod.mk.injEq] at h
        obtain ⟨rfl, rfl⟩ := h
        exact hend _ _ rfl rfl
      | ub =>
        rw [hg] at h
        simp only [Option.some.injEq, Prod.mk.injEq] at h
        obtain ⟨rfl, rfl⟩ := h
        exact hend _ _ rfl rfl
      | ok t1 =>
        rw [hg] at h
        have he : t1.st.expansions = st.s.expansions + 1 := (goalLoop_quiet _ _ _ _ _ hg).2.2.1
        simp only at h
        by_cases htm : t1.term = true
        · rw [if_pos htm] at h
          by_cases hr : t1.result ≠ []
          · rw [if_pos hr] at h
            simp only [Option.some.injEq, Prod.mk.injEq] at h
            obtain ⟨rfl, rfl⟩ := h
            exact hend _ _ he rfl
          · rw [if_neg hr] at h
            simp only [Option.some.injEq, Prod.mk.injEq] at h
            obtain ⟨rfl, rfl⟩ := h
            exact hend _ _ he rfl
        rw [if_neg htm] at h
        by_cases hov : (cfg.useCands && !t1.st.cands.isEmpty &&
            decide ((B.alg t1.st.lab st.kin).addW t1.st.firstW cfg.oversearch < (B.alg t1.st.lab st.kin).total (t1.st.lab cur))) = true
        · rw [if_pos hov] at h
          simp only [Option.some.injEq, Prod.mk.injEq] at h
          obtain ⟨rfl, rfl⟩ := h
          exact hend _ _ he rfl
        rw [if_neg hov] at h
        cases hx : kExpand B cfg.goal cur B.moves { s := t1.st, kin := st.kin } with
        | throw e =>
          rw [hx] at h
          simp only [Option.some.injEq, Prod.mk.injEq] at h
          obtain ⟨rfl, rfl⟩ := h
          exact hend _ _ he rfl
        | ub =>
          rw [hx] at h
          simp only [Option.some.injEq, Prod.mk.injEq] at h
          obtain ⟨rfl, rfl⟩ := h
          exact hend _ _ he rfl
        | ok st' =>
          rw [hx] at h
          simp only at h
          refine ih st' r t h ?_
          rw [kExpand_count hx]
          show ∀ k < t1.st.expansions, _
          rw [he]; exact hb

theorem initOn_expansions : (kInitOn B P cfg lab kin).s.expansions = 0 := init_expansions

/-- **C129 (steering searches keep the limit).**  `kept` for searches with a steering neighbourhood, on nodes with whatever history, and
however the search ends (exceptions included): if the `k`-th reading is `limit` seconds or more after the beginning, at most `k` nodes
are expanded. -/
theorem steer_kept (h0 : 0 < limit) {s : Option Int} (hs : stampAbort limit now = .ok s) {f : Nat} {r : CRes (List N)} {t : KSt N S C P}
    (h : kFindTimedOn B P cfg limit now clock lab kin f = some (r, t)) {k : Nat}
    (hk : limit * 1000000000 ≤ ((clock k - now : Int) : K)) : t.s.expansions ≤ k := by
  unfold kFindTimedOn at h
  rw [hs] at h
  by_contra hlt
  have hb := steer_before_end f _ r t h (by
    intro j hj
    have hj : j < (kInitOn B P cfg lab kin).s.expansions := hj
    rw [initOn_expansions] at hj
    exact absurd hj (Nat.not_lt_zero _)) k (not_le.1 hlt)
  cases s with
  | none => exact absurd (stamp_none hs) (not_le.2 h0)
  | some a =>
    obtain ⟨_, rfl⟩ := stamp_some hs
    simp only [clockAbort, decide_eq_false_iff_not, not_le] at hb
    have h2 : clock k - now < ⌊limit * 1000⌋ * 1000000 := by omega
    have h3 : ((clock k - now : Int) : K) < ((⌊limit * 1000⌋ * 1000000 : Int) : K) := Int.cast_lt.2 h2
    push_cast at h3
    have h4 := Int.floor_le (limit * 1000)
    push_cast at hk
    linarith

/-- **C129 (steering searches, exactly when it overflows).**  `search_overflows` for searches with a steering neighbourhood. -/
theorem steer_search_overflows (hp : 0 < limit) (hlo : -2 ^ 63 ≤ now) (hhi : now < 2 ^ 63) (f : Nat) :
    (2 ^ 63 ≤ max 0 now + ⌊limit * 1000⌋ * 1000000 →
      kFindTimedOn B P cfg limit now clock lab kin f = some (.ub, kInitOn B P cfg lab kin)) ∧
    (max 0 now + ⌊limit * 1000⌋ * 1000000 < 2 ^ 63 →
      kFindTimedOn B P cfg limit now clock lab kin f =
        kFindOn B P { cfg with abort := fun k => decide (now + ⌊limit * 1000⌋ * 1000000 ≤ clock k) } lab kin f) := by
  obtain ⟨h1, h2⟩ := overflow_exact hp hlo hhi
  refine ⟨fun h => ?_, fun h => ?_⟩
  · unfold kFindTimedOn
    rw [h1.2 h]
  · have := h2 (fun hub => absurd (h1.1 hub) (not_le.2 h))
    unfold kFindTimedOn
    rw [this]
    rfl

/-- **C129 (steering searches, less than a millisecond).**  `below_millisecond` for searches with a steering neighbourhood. -/
theorem steer_below_millisecond (ht : TopOk cfg.top) (h0 : 0 < limit) (h1 : limit < 1 / 1000) (hnow : inI64 now) (hc : now ≤ clock 0)
    (f : Nat) : kFindTimedOn B P cfg limit now clock lab kin (f + 1) = some (.ok [], kInitOn B P cfg lab kin) := by
  have ht0 : truncC (limit * 1000) = 0 := by
    apply truncC_eq_zero
    · have : (0 : K) ≤ limit * 1000 := by positivity
      linarith
    · have := (lt_div_iff₀ (by norm_num : (0 : K) < 1000)).1 h1
      exact this
  have : stampAbort limit now = .ok (some now) := by
    unfold stampAbort
    simp only [h0, if_true, ht0, zero_mul, add_zero]
    rw [if_neg (by simp [inI64]), if_neg (by simp [inI64]), if_neg (by simpa using hnow)]
  unfold kFindTimedOn
  rw [this]
  have he : (kInitOn B P cfg lab kin).s.expansions = 0 := initOn_expansions
  have hf : finish { cfg with abort := clockAbort (some now) clock } (kInitOn B P cfg lab kin).s = .ok [] := by
    rw [finish, show (kInitOn B P cfg lab kin).s.cands = [] from init_cands, (ht.none_iff _).2 rfl]
  have hi : kIterate B { cfg with abort := clockAbort (some now) clock } (kInitOn B P cfg lab kin) =
      .done (.ok []) (kInitOn B P cfg lab kin) := by
    unfold kIterate
    rw [hf]
    cases P.next (kInitOn B P cfg lab kin).s.opn with
    | none => rfl
    | some co => simp only [he, clockAbort, hc, decide_true, if_true]
  show kLoop B { cfg with abort := clockAbort (some now) clock } (f + 1) (kInitOn B P cfg lab kin) = _
  rw [kLoop, hi]

/-- **C129 (steering searches, not too early).**  `not_early` for searches with a steering neighbourhood, on nodes with whatever history. -/
theorem steer_not_early (ht : TopOk cfg.top) (hu : cfg.useCands = false) {s : Option Int} (hs : stampAbort limit now = .ok s) {f f' : Nat}
    {r r' : CRes (List N)} {t t' : KSt N S C P} (h : kFindTimedOn B P cfg limit now clock lab kin f = some (r, t))
    (h' : kFindOn B P { cfg with abort := fun _ => false } lab kin f' = some (r', t')) (hne : r ≠ r') :
    r = .ok [] ∧ (limit - 1 / 1000) * 1000000000 < ((clock t.s.expansions - now : Int) : K) := by
  unfold kFindTimedOn at h
  rw [hs] at h
  rcases kLoop_clock (cfg := cfg) (A := B) (soon := clockAbort s clock) (late := fun _ => false) (I := fun s => s.s.cands = [])
    (fun _ h => by cases h) (fun s s' hs hi => (kIterate_nocands hu _ hi).trans hs) _ _ _ _ h init_cands _ _ _ h' with ⟨e, _⟩ | ⟨e1, e2, hc⟩
  · exact absurd e hne
  · refine ⟨by rw [e2, finish, hc, (ht.none_iff _).2 rfl], ?_⟩
    cases s with
    | none => cases e1
    | some a =>
      obtain ⟨_, rfl⟩ := stamp_some hs
      simp only [clockAbort, decide_eq_true_eq] at e1
      have h2 : ⌊limit * 1000⌋ * 1000000 ≤ clock t.s.expansions - now := by omega
      have h3 : ((⌊limit * 1000⌋ * 1000000 : Int) : K) ≤ ((clock t.s.expansions - now : Int) : K) := Int.cast_le.2 h2
      push_cast at h3 ⊢
      have h4 := Int.lt_floor_add_one (limit * 1000)
      linarith

end PathPlanning.Deadline
