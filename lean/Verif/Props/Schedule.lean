import Verif.Model.Schedule
import Mathlib.Data.Rat.Floor
import Mathlib.Tactic.Positivity
import Mathlib.Tactic.FieldSimp

/-!
# Mark bits (C35), intermission (C36), expansion throttling (C56)
-/

namespace PathPlanning

/-! ### C35: mark bits -/

/-- Setting a mark makes `isMarked` true for it. -/
theorem isMarked_mark (m k : BitVec 8) : isMarkedBits (markBits m k) k = true := by
  unfold isMarkedBits markBits
  rw [decide_eq_true_eq]
  ext i hi
  simp only [BitVec.getElem_and, BitVec.getElem_or]
  cases m[i] <;> cases k[i] <;> rfl

/-- Clearing a (non-zero) mark makes `isMarked` false for it. -/
theorem isMarked_unMark (m k : BitVec 8) (hk : k ≠ 0) :
    isMarkedBits (unMarkBits m k) k = false := by
  unfold isMarkedBits unMarkBits
  rw [decide_eq_false_iff_not]
  intro h
  apply hk
  ext i hi
  have := congrArg (fun b : BitVec 8 => b[i]) h
  simp only [BitVec.getElem_and, BitVec.getElem_not] at this
  rw [← this]
  cases m[i] <;> cases k[i] <;> simp

/-- Setting or clearing one mark does not affect a disjoint one. -/
theorem marks_independent (m k j : BitVec 8) (hd : k &&& j = 0) :
    isMarkedBits (markBits m k) j = isMarkedBits m j ∧
    isMarkedBits (unMarkBits m k) j = isMarkedBits m j := by
  have e1 : markBits m k &&& j = m &&& j := by
    ext i hi
    have := congrArg (fun b : BitVec 8 => b[i]) hd
    simp only [BitVec.getElem_and, BitVec.getElem_zero] at this
    simp only [markBits, BitVec.getElem_and, BitVec.getElem_or]
    revert this
    cases m[i] <;> cases k[i] <;> cases j[i] <;> simp
  have e2 : unMarkBits m k &&& j = m &&& j := by
    ext i hi
    have := congrArg (fun b : BitVec 8 => b[i]) hd
    simp only [BitVec.getElem_and, BitVec.getElem_zero] at this
    simp only [unMarkBits, BitVec.getElem_and, BitVec.getElem_not]
    revert this
    cases m[i] <;> cases k[i] <;> cases j[i] <;> simp
  unfold isMarkedBits
  rw [e1, e2]
  exact ⟨rfl, rfl⟩

/-- The four marks of the library are non-zero and pairwise disjoint, so the model of a label by
four Booleans is faithful; a freshly initialised node has none of them. -/
theorem marks_disjoint :
    (∀ k ∈ [MARK_OPEN, MARK_CLOSED, MARK_WATCHED, MARK_EXPANDED], k ≠ 0 ∧
      isMarkedBits MARK_NONE k = false) ∧
    [MARK_OPEN, MARK_CLOSED, MARK_WATCHED, MARK_EXPANDED].Pairwise (fun a b => a &&& b = 0) := by
  decide

/-! ### C36: intermission -/

/-- `max(1, start_step)`: the number of initial calls that all invoke the callback. -/
def interHead (startStep : Int) : Nat := (max 1 startStep).toNat

theorem interAfter_eq (steps startStep : Int) (hs : 0 < steps) (k : Nat) :
    interAfter steps startStep k =
      if k < interHead startStep then ⟨startStep - k, true⟩
      else ⟨steps - ((k : Int) - interHead startStep) % steps, false⟩ := by
  have hH : (interHead startStep : Int) = max 1 startStep := by
    unfold interHead; exact Int.toNat_of_nonneg (by omega)
  induction k with
  | zero =>
    have : 0 < interHead startStep := by omega
    simp [interAfter, interInit, this]
  | succ k ih =>
    rw [interAfter, ih]
    by_cases h1 : k < interHead startStep
    · rw [if_pos h1]
      unfold interCall
      simp only [Bool.or_true, if_true]
      by_cases h2 : k + 1 < interHead startStep
      · rw [if_pos h2, if_pos (by omega)]
        simp; omega
      · rw [if_neg h2, if_neg (by omega)]
        have : ((k + 1 : Nat) : Int) - interHead startStep = 0 := by omega
        rw [this]; simp
    · rw [if_neg h1, if_neg (by omega)]
      unfold interCall
      simp only [Bool.or_false]
      have hr0 := Int.emod_nonneg ((k : Int) - interHead startStep) (by omega : steps ≠ 0)
      have hr1 := Int.emod_lt_of_pos ((k : Int) - interHead startStep) hs
      have hstep : ((k + 1 : Nat) : Int) - interHead startStep =
          ((k : Int) - interHead startStep) + 1 := by push_cast; ring
      rw [hstep]
      generalize hz : (k : Int) - interHead startStep = z at *
      have hdm := Int.emod_add_mul_ediv z steps
      by_cases h3 : z % steps = steps - 1
      · have : (z + 1) % steps = 0 := by
          rw [Int.add_emod, h3]
          by_cases h4 : steps = 1
          · subst h4; simp
          · rw [Int.emod_eq_of_lt (a := 1) (by omega) (by omega)]; simp
        rw [this, h3]
        simp
      · have : (z + 1) % steps = z % steps + 1 := by
          rw [Int.add_emod, Int.emod_eq_of_lt (a := 1) (by omega) (by omega),
            Int.emod_eq_of_lt (by omega) (by omega)]
        rw [this]
        have h5 : ¬ steps - z % steps - 1 ≤ 0 := by omega
        simp [h5]; omega

/-- **C36.**  The `k`-th call (`k ≥ 1`) invokes the callback iff `k ≤ max(1, start)` or
`k - max(1, start)` is a multiple of `steps`. -/
theorem intermission_schedule (steps startStep : Int) (hs : 0 < steps) (k : Nat) (hk : 1 ≤ k) :
    interFires steps startStep k = true ↔
      ((k : Int) ≤ max 1 startStep ∨ steps ∣ ((k : Int) - max 1 startStep)) := by
  have hH : (interHead startStep : Int) = max 1 startStep := by
    unfold interHead; exact Int.toNat_of_nonneg (by omega)
  unfold interFires
  rw [if_neg (by omega), interAfter_eq steps startStep hs]
  by_cases h1 : k - 1 < interHead startStep
  · rw [if_pos h1]
    unfold interCall
    simp only [Bool.or_true, if_true, true_iff]
    left; omega
  · rw [if_neg h1]
    have hk1 : ((k - 1 : Nat) : Int) = (k : Int) - 1 := by omega
    rw [hk1]
    have e : (k : Int) - 1 - interHead startStep = (k : Int) - max 1 startStep - 1 := by omega
    rw [e]
    have hnle : ¬ (k : Int) ≤ max 1 startStep := by omega
    generalize (k : Int) - max 1 startStep = z at *
    have hr0 := Int.emod_nonneg (z - 1) (by omega : steps ≠ 0)
    have hr1 := Int.emod_lt_of_pos (z - 1) hs
    have key : (steps - (z - 1) % steps - 1 ≤ 0) ↔ steps ∣ z := by
      have hdm := Int.emod_add_mul_ediv (z - 1) steps
      constructor
      · intro h
        refine ⟨(z - 1) / steps + 1, ?_⟩
        have : (z - 1) % steps = steps - 1 := by omega
        rw [mul_add, mul_one]; omega
      · rintro ⟨q, rfl⟩
        have : (steps * q - 1) % steps = steps - 1 := by
          have e2 : steps * q - 1 = (steps - 1) + steps * (q - 1) := by ring
          rw [e2, Int.add_mul_emod_self_left]
          exact Int.emod_eq_of_lt (by omega) (by omega)
        omega
    unfold interCall
    simp only [Bool.or_false]
    by_cases h2 : steps - (z - 1) % steps - 1 ≤ 0
    · simp only [h2, decide_true, if_true, hnle, false_or, true_iff]
      exact key.1 h2
    · simp only [h2, decide_false, hnle, false_or, Bool.false_eq_true, if_false, false_iff]
      exact fun hd => h2 (key.2 hd)

/-- **C36, `steps = 0`.**  The callback is never invoked. -/
theorem intermission_zero (startStep : Int) (k : Nat) : interFires 0 startStep k = false := by
  simp [interFires]

example : (List.range 12).map (fun k => interFires 4 3 (k + 1)) =
    [true, true, true, false, false, false, true, false, false, false, true, false] := by decide

/-! ### C56: throttling -/

section
variable {K : Type} [Field K] [LinearOrder K] [IsStrictOrderedRing K] [FloorRing K]

/-- Invariant of the throttle after its first call. -/
structure ExpInv (N : Int) (s : ExpSt K) : Prop where
  pos : 0 ≤ s.min
  le : s.min ≤ s.initial
  nle : s.n ≤ N
  nnn : 0 ≤ s.n

theorem castI_bound {N : Int} (hN : 0 ≤ N) (hN2 : N < 2147483648) {q : K} (h0 : 0 ≤ q)
    (h1 : q ≤ 1) : ∃ n, castI ((N : K) * q) = .ok n ∧ 0 ≤ n ∧ n ≤ N := by
  have hNK : (0 : K) ≤ N := by exact_mod_cast hN
  have hp : (0 : K) ≤ N * q := mul_nonneg hNK h0
  have hle : (N : K) * q ≤ N := by nlinarith
  have e : truncC ((N : K) * q) = ⌊(N : K) * q⌋ := truncC_nonneg hp
  have f0 : 0 ≤ ⌊(N : K) * q⌋ := Int.floor_nonneg.2 hp
  have f1 : ⌊(N : K) * q⌋ ≤ N := by
    have : ((⌊(N : K) * q⌋ : Int) : K) ≤ N := (Int.floor_le _).trans hle
    exact_mod_cast this
  refine ⟨_, ?_, f0, f1⟩
  unfold castI
  rw [e, if_pos ⟨by omega, by omega⟩]

/-- One step from a state satisfying the invariant: no undefined behaviour, and an attempt is
made exactly when the counter has reached the (never growing, at most `N`) period. -/
theorem expStep_spec {N : Int} (hN : 0 ≤ N) (hN2 : N < 2147483648) {s : ExpSt K}
    (h : ExpInv N s) {c : K} (hc : 0 ≤ c) :
    ∃ b s', expStep N s c = .ok (b, s') ∧ ExpInv N s' ∧
      (c < s.min ∨ s'.n = s.n) ∧
      (b = true ↔ s'.n ≤ s.current + 1) ∧ s'.current = (if b then 0 else s.current + 1) ∧
      s'.initial = s.initial := by
  have hni : ¬ s.initial < 0 := not_lt.2 (h.pos.trans h.le)
  have hrest : ∀ s2 : ExpSt K, s2.current = s.current + 1 → ExpInv N s2 →
      s2.initial = s.initial → (c < s.min ∨ s2.n = s.n) →
      ∃ b s', (if s2.current < s2.n then (.ok (false, s2) : CRes (Bool × ExpSt K))
        else .ok (true, { s2 with current := 0 })) = .ok (b, s') ∧ ExpInv N s' ∧
      (c < s.min ∨ s'.n = s.n) ∧
      (b = true ↔ s'.n ≤ s.current + 1) ∧ s'.current = (if b then 0 else s.current + 1) ∧
      s'.initial = s.initial := by
    intro s2 e1 i2 e2 e3
    by_cases hlt : s2.current < s2.n
    · rw [if_pos hlt]
      refine ⟨false, s2, rfl, i2, e3, ?_, by simpa using e1, e2⟩
      simp; omega
    · rw [if_neg hlt]
      refine ⟨true, _, rfl, ⟨i2.pos, i2.le, i2.nle, i2.nnn⟩, e3, ?_, rfl, e2⟩
      simp only [true_iff]; omega
  unfold expStep
  simp only [hni, if_false]
  by_cases hlt : c < s.min
  · have hi0 : 0 < s.initial := lt_of_le_of_lt hc (lt_of_lt_of_le hlt h.le)
    obtain ⟨n, hn, hn0, hn1⟩ := castI_bound (K := K) hN hN2 (q := c / s.initial)
      (div_nonneg hc hi0.le) ((div_le_one hi0).2 (hlt.le.trans h.le))
    simpa only [hlt, if_true, hn, CRes.ok_bind, CRes.pure_eq] using
      hrest ⟨s.current + 1, n, s.initial, c⟩ rfl ⟨hc, hlt.le.trans h.le, hn1, hn0⟩ rfl (.inl hlt)
  · simpa only [hlt, if_false, CRes.ok_bind, CRes.pure_eq] using
      hrest ⟨s.current + 1, s.n, s.initial, s.min⟩ rfl ⟨h.pos, h.le, h.nle, h.nnn⟩ rfl (.inr rfl)

/-- **C56 (first calls).**  The first call never attempts an expansion, the second always
does. -/
theorem expansion_first_calls {N : Int} (hN : 0 ≤ N) (hN2 : N < 2147483648) (junk c1 c2 : K)
    (h1 : 0 ≤ c1) (h2 : 0 ≤ c2) :
    ∃ s, expRun N (expInit N junk) [c1, c2] = .ok ([false, true], s) ∧ s.current = 0 ∧
      ExpInv N s := by
  have hf : expStep N (expInit N junk) c1 =
      .ok (false, (⟨N + 1, N, c1, c1⟩ : ExpSt K)) := by
    simp [expStep, expInit]
  have hi : ExpInv N (⟨N + 1, N, c1, c1⟩ : ExpSt K) := ⟨h1, le_refl _, le_refl _, hN⟩
  obtain ⟨b, s', g1, g2, _, g4, g5, _⟩ := expStep_spec hN hN2 hi h2
  have hb : b = true := g4.2 (by have := g2.nle; simp only; omega)
  subst hb
  refine ⟨s', ?_, by simpa using g5, g2⟩
  simp [expRun, hf, g1]

/-- **C56 (bounded gaps).**  From any state reached after the first call, among any
`max 1 N - current` further calls at least one attempt is made; in particular after an attempt
the next one follows within `max 1 N` calls, whatever the costs. -/
theorem expansion_gap_le {N : Int} (hN : 0 ≤ N) (hN2 : N < 2147483648) :
    ∀ (cs : List K) (s : ExpSt K), ExpInv N s → 0 ≤ s.current → (∀ c ∈ cs, 0 ≤ c) →
      max 1 N - s.current ≤ cs.length → 1 ≤ cs.length →
      ∃ bs s', expRun N s cs = .ok (bs, s') ∧ true ∈ bs := by
  intro cs
  induction cs with
  | nil => intro s _ _ _ _ h; simp at h
  | cons c cs ih =>
    intro s hinv hcur hpos hlen _
    obtain ⟨b, s1, g1, g2, _, g4, g5, _⟩ :=
      expStep_spec hN hN2 hinv (hpos c (by simp))
    have htail : ∀ (cs : List K) (s : ExpSt K), ExpInv N s → (∀ c ∈ cs, 0 ≤ c) →
        ∃ bs s', expRun N s cs = .ok (bs, s') := by
      intro cs
      induction cs with
      | nil => intro s _ _; exact ⟨[], s, rfl⟩
      | cons a as ih2 =>
        intro s hs ha
        obtain ⟨b', s2, q1, q2, _⟩ := expStep_spec hN hN2 hs (ha a (by simp))
        obtain ⟨bs, s3, q3⟩ := ih2 s2 q2 fun x hx => ha x (List.mem_cons_of_mem _ hx)
        exact ⟨b' :: bs, s3, by simp [expRun, q1, q3]⟩
    cases b with
    | true =>
      obtain ⟨bs, s2, q⟩ := htail cs s1 g2 fun x hx => hpos x (List.mem_cons_of_mem _ hx)
      exact ⟨true :: bs, s2, by simp [expRun, g1, q], by simp⟩
    | false =>
      have hlt : ¬ s1.n ≤ s.current + 1 := fun h => by have := g4.2 h; cases this
      have := g2.nle
      simp only [Bool.false_eq_true, if_false] at g5
      simp only [List.length_cons, Nat.cast_add, Nat.cast_one] at hlen
      obtain ⟨bs, s2, q1, q2⟩ := ih s1 g2 (by omega)
        (fun x hx => hpos x (List.mem_cons_of_mem _ hx)) (by omega) (by omega)
      exact ⟨false :: bs, s2, by simp [expRun, g1, q1], by simp [q2]⟩

/-- **C56 (exact period).**  As long as the best heuristic cost does not improve, the attempts
after an attempt come exactly every `max 1 n` calls: the `j`-th of the following calls
(`j = 1, ...`) is the first attempt iff `j = max 1 n`. -/
theorem expansion_period {N : Int} (hN : 0 ≤ N) (hN2 : N < 2147483648) :
    ∀ (cs : List K) (s : ExpSt K), ExpInv N s → 0 ≤ s.current → s.current < max 1 s.n →
      (∀ c ∈ cs, s.min ≤ c) → (cs.length : Int) = max 1 s.n - s.current →
      ∃ s', expRun N s cs = .ok (List.replicate (cs.length - 1) false ++ [true], s') ∧
        s'.current = 0 ∧ s'.n = s.n ∧ s'.min = s.min := by
  intro cs
  induction cs with
  | nil =>
    intro s _ h0 h1 _ h3
    simp only [List.length_nil] at h3; omega
  | cons c cs ih =>
    intro s hinv h0 h1 hc hlen
    have hcm := hc c (by simp)
    obtain ⟨b, s1, g1, g2, g3, g4, g5, g6⟩ := expStep_spec hN hN2 hinv (hinv.pos.trans hcm)
    have hn : s1.n = s.n := by
      rcases g3 with h | h
      · exact absurd h (not_lt.2 hcm)
      · exact h
    have hmin : s1.min = s.min := by
      have hni : ¬ s.initial < 0 := not_lt.2 (hinv.pos.trans hinv.le)
      have := g1
      unfold expStep at this
      simp only [hni, if_false, not_lt.2 hcm, CRes.ok_bind, CRes.pure_eq] at this
      split at this <;> cases this <;> rfl
    simp only [List.length_cons, Nat.cast_add, Nat.cast_one] at hlen
    have hnn := hinv.nnn
    cases cs with
    | nil =>
      have hb : b = true := g4.2 (by simp only [List.length_nil, Nat.cast_zero] at hlen; omega)
      subst hb
      exact ⟨s1, by simp [expRun, g1], by simpa using g5, hn, hmin⟩
    | cons a as =>
      simp only [List.length_cons, Nat.cast_add, Nat.cast_one] at hlen
      have hb : b = false := by
        cases b with
        | false => rfl
        | true => have := g4.1 rfl; omega
      subst hb
      simp only [Bool.false_eq_true, if_false] at g5
      obtain ⟨s2, q1, q2, q3, q4⟩ := ih s1 g2 (by omega) (by omega)
        (fun x hx => by rw [hmin]; exact hc x (List.mem_cons_of_mem _ hx))
        (by simp only [List.length_cons, Nat.cast_add, Nat.cast_one]; omega)
      refine ⟨s2, ?_, q2, q3.trans hn, q4.trans hmin⟩
      rw [expRun, g1]
      simp only [CRes.ok_bind, q1, CRes.pure_eq]
      simp [List.replicate_succ]

/-- Non-vacuity: period 3, costs constant. -/
example : ∃ s : ExpSt ℚ, expRun 3 (expInit 3 0) [5, 5, 5, 5, 5, 5, 5, 5] =
    .ok ([false, true, false, false, true, false, false, true], s) := by
  refine ⟨⟨0, 3, 5, 5⟩, ?_⟩
  decide +kernel

end
end PathPlanning
