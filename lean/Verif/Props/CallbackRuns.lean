import Verif.Model.CallbackRuns
import Verif.Spec.CallbackRuns
import Verif.Props.Schedule
import Verif.Lemmas.SearchTest
import Verif.Lemmas.SearchCount
import Verif.Lemmas.DuringSearch
import Verif.Lemmas.KinCount
import Verif.Props.DuringGrid

/-!
# The callback over the searches of a program (C124)
-/

namespace PathPlanning.CB
open PathPlanning Spec
set_option linter.unusedSectionVars false

/-! ### The schedule -/

theorem interCalls_zero (m : Nat) (i : InterSt) : interCalls 0 m i = (0, i) := by
  cases m <;> simp [interCalls]

theorem interCalls_add (steps : Int) (a b : Nat) (i : InterSt) :
    interCalls steps (a + b) i =
      ((interCalls steps a i).1 + (interCalls steps b (interCalls steps a i).2).1, (interCalls steps b (interCalls steps a i).2).2) := by
  by_cases hs : steps = 0
  · subst hs
    simp only [interCalls_zero]
  induction a generalizing i with
  | zero => simp [interCalls]
  | succ a ih =>
    rw [Nat.succ_add]
    simp only [interCalls, if_neg hs, ih]
    exact Prod.ext (Nat.add_assoc _ _ _).symm rfl

theorem firesAmong_zero (steps start : Int) (k : Nat) : firesAmong steps start k 0 = 0 := by
  simp [firesAmong]

theorem firesAmong_succ (steps start : Int) (k m : Nat) :
    firesAmong steps start k (m + 1) = firesAmong steps start k m + if Fires steps start (k + m + 1) then 1 else 0 := by
  unfold firesAmong
  rw [← Nat.add_assoc, ← Finset.insert_Ioc_right_eq_Ioc_add_one (Nat.le_add_right k m), Finset.filter_insert]
  split
  · rw [Finset.card_insert_of_notMem (by simp)]
  · rfl

/-- **C124 (calls).**  `m` calls after `k` others invoke the callback exactly at the calls of the schedule among the numbers
`k + 1, …, k + m`. -/
theorem calls {steps : Int} (start : Int) (hs : 0 < steps) (k m : Nat) :
    interCalls steps m (interAfter steps start k) = (firesAmong steps start k m, interAfter steps start (k + m)) := by
  induction m with
  | zero => simp [interCalls, firesAmong_zero]
  | succ m ih =>
    rw [interCalls_add, ih]
    have h := intermission_schedule steps start hs (k + m + 1) (by omega)
    have hf : interFires steps start (k + m + 1) = (interCall steps (interAfter steps start (k + m))).1 := by
      unfold interFires
      rw [if_neg (by omega)]
      rfl
    rw [hf] at h
    have h' : (interCall steps (interAfter steps start (k + m))).1 = true ↔ Fires steps start (k + m + 1) := h
    simp only [interCalls, if_neg (show ¬ steps = 0 by omega)]
    refine Prod.ext ?_ rfl
    show _ + ((if _ then 1 else 0) + 0) = _
    rw [firesAmong_succ]
    by_cases hF : Fires steps start (k + m + 1)
    · rw [if_pos hF, if_pos (h'.2 hF)]
    · rw [if_neg hF, if_neg (fun e => hF (h'.1 e))]

/-- **C124 (first calls).**  As long as not more than `max(1, start)` calls have been made, each one invokes the callback. -/
theorem head (steps start : Int) {k m : Nat} (h : ((k + m : Nat) : Int) ≤ max 1 start) : firesAmong steps start k m = m := by
  induction m with
  | zero => exact firesAmong_zero _ _ _
  | succ m ih =>
    rw [firesAmong_succ, ih (by push_cast at *; omega), if_pos (.inl (by push_cast at *; omega))]

/-- **C124 (number of invocations).**  After the first `max(1, start)` calls: `m` further calls after the `k`-th one invoke the callback
as often as there are multiples of `steps` among the numbers of calls since then. -/
theorem later {n : Nat} (hn : 0 < n) (start : Int) {k : Nat} (hk : max 1 start ≤ k) (m : Nat) :
    firesAmong n start k m = (k - (max 1 start).toNat + m) / n - (k - (max 1 start).toNat) / n := by
  have hH : ((max 1 start).toNat : Int) = max 1 start := Int.toNat_of_nonneg (by omega)
  set H := (max 1 start).toNat with hHd
  have hkH : H ≤ k := by omega
  induction m with
  | zero => simp [firesAmong_zero]
  | succ m ih =>
    rw [firesAmong_succ, ih, ← Nat.add_assoc, Nat.succ_div]
    have hmono : (k - H) / n ≤ (k - H + m) / n := Nat.div_le_div_right (by omega)
    have hF : Fires n start (k + m + 1) ↔ n ∣ k - H + m + 1 := by
      unfold Fires
      rw [← hH]
      have e : ((k + m + 1 : Nat) : Int) - H = ((k - H + m + 1 : Nat) : Int) := by omega
      rw [e, Int.natCast_dvd_natCast]
      constructor
      · rintro (h | h)
        · omega
        · exact h
      · exact .inr
    by_cases h : n ∣ k - H + m + 1
    · rw [if_pos h, if_pos (hF.2 h)]; omega
    · rw [if_neg h, if_neg (fun e => h (hF.1 e))]; omega

/-- **C124 (rate).**  After the first calls, `m` calls invoke the callback `⌊m / steps⌋` times or once more; `steps` calls exactly once. -/
theorem rate {n : Nat} (hn : 0 < n) (start : Int) {k : Nat} (hk : max 1 start ≤ k) (m : Nat) :
    m / n ≤ firesAmong n start k m ∧ firesAmong n start k m ≤ m / n + 1 ∧ firesAmong n start k n = 1 := by
  rw [later hn start hk, later hn start hk]
  generalize k - (max 1 start).toNat = a
  refine ⟨?_, ?_, ?_⟩
  · have := Nat.add_div_le_add_div a m n
    omega
  · rw [Nat.add_div hn]
    generalize m / n = x
    generalize a / n = y
    split <;> omega
  · rw [Nat.add_div_right _ hn]; omega

/-- **C124, finding.**  A search that makes fewer calls than are missing until the next multiple of `steps` never invokes its callback. -/
theorem silent {n : Nat} (hn : 0 < n) (start : Int) {k : Nat} (hk : max 1 start ≤ k) {m : Nat}
    (hm : (k - (max 1 start).toNat) % n + m < n) : firesAmong n start k m = 0 := by
  rw [later hn start hk]
  generalize k - (max 1 start).toNat = a at *
  have h1 : (a + m) / n = a / n := by
    have := Nat.div_add_mod a n
    rw [show a + m = n * (a / n) + (a % n + m) by omega, Nat.mul_add_div hn, Nat.div_eq_of_lt hm, Nat.add_zero]
  omega

/-! ### One search -/

section node
variable {N C : Type} [DecidableEq N] [LinearOrder C] [Fintype N] {A : Algo N C} {P : OpenList N C}

/-- The call at the end of an iteration has no influence on the search, and the variables are those after as many calls as there were
iterations which looked up neighbours. -/
theorem loop_calls (steps : Int) {cfg : SCfg N C} {test : SSt N C P → N → CRes (TestOut N C P)} (hq : Quiet test) :
    ∀ (fuel : Nat) (st : SSt N C P) (r : CRes (List N)) (st' : SSt N C P), searchLoop A cfg test fuel st = some (r, st') →
      ∃ m, (∀ n i, searchLoopCB steps A cfg test fuel n i st =
          some ((r, st'), n + (interCalls steps m i).1, (interCalls steps m i).2)) ∧
        (∀ p, r = .ok p → st'.expansions = st.expansions + m + 1 ∨ (st'.expansions = st.expansions + m ∧
          (P.next st'.opn = none ∨ cfg.abort st'.expansions = true))) := by
  intro fuel
  induction fuel with
  | zero => intro st r st' h; simp [searchLoop] at h
  | succ fuel ih =>
    intro st r st' h
    rw [searchLoop] at h
    cases hi : iterate A cfg test st with
    | done r1 st1 =>
      rw [hi] at h
      simp only [Option.some.injEq, Prod.mk.injEq] at h
      obtain ⟨rfl, rfl⟩ := h
      refine ⟨0, ?_, ?_⟩
      · intro n i; rw [searchLoopCB, hi]; rfl
      · rintro p rfl
        rcases iterate_done hi with ⟨h1, rfl, _⟩ | ⟨h1, rfl, _⟩ | ⟨cur, o, _, hh⟩
        · exact .inr ⟨rfl, .inl h1⟩
        · exact .inr ⟨rfl, .inr h1⟩
        · rcases hh with ⟨_, hh⟩ | ⟨e, _, hh⟩ | ⟨t, ht, rfl, _⟩
          · cases hh
          · cases hh
          · left
            obtain ⟨_, _, h3, _⟩ := hq _ _ _ ht
            rw [h3]; rfl
    | more st1 =>
      rw [hi] at h
      obtain ⟨cur, o, t, _, _, ht, _, _, he⟩ := iterate_more hi
      have hx : st1.expansions = st.expansions + 1 := by
        obtain ⟨_, _, h3, _⟩ := hq _ _ _ ht
        rw [he, During.expandNode_expansions, h3]
        rfl
      obtain ⟨m, h1, h2⟩ := ih st1 r st' h
      refine ⟨1 + m, ?_, fun p hp => ?_⟩
      · intro n i
        rw [searchLoopCB, hi]
        simp only []
        rw [h1, interCalls_add]
        simp only [Nat.add_assoc]
      · rcases h2 p hp with h2 | ⟨h2, h3⟩
        · left; omega
        · right; exact ⟨by omega, h3⟩

theorem loop_none (steps : Int) {cfg : SCfg N C} {test : SSt N C P → N → CRes (TestOut N C P)} :
    ∀ (fuel n : Nat) (i : InterSt) (st : SSt N C P), searchLoop A cfg test fuel st = none →
      searchLoopCB steps A cfg test fuel n i st = none := by
  intro fuel
  induction fuel with
  | zero => intros; rfl
  | succ fuel ih =>
    intro n i st h
    rw [searchLoop] at h
    rw [searchLoopCB]
    cases hi : iterate A cfg test st with
    | done r1 st1 => rw [hi] at h; cases h
    | more st1 => rw [hi] at h; exact ih _ _ _ h

theorem addStart_expansions (ss : List N) (st : SSt N C P) : (ss.foldl (addStart A) st).expansions = st.expansions := by
  induction ss generalizing st with
  | nil => rfl
  | cons s ss ih => rw [List.foldl_cons, ih]; rfl

theorem initSearch_expansions (cfg : SCfg N C) (lab : Labels N C) : (initSearch A P cfg lab).expansions = 0 := by
  unfold initSearch
  rw [addStart_expansions]

/-- **C124 (no influence).**  The searches with a callback that does nothing return what the searches without one return. -/
theorem same (steps : Int) (cfg : SCfg N C) (lab : Labels N C) (fuel : Nat) (i : InterSt) :
    (findPathNodesCB steps A P cfg lab fuel i).map (fun x => x.1) = findPathNodes A P cfg lab fuel := by
  unfold findPathNodesCB findPathNodes
  cases h : searchLoop A cfg (poseTest A cfg) fuel (initSearch A P cfg lab) with
  | none => rw [loop_none steps _ _ _ _ h]; rfl
  | some x =>
    obtain ⟨m, h1, _⟩ := loop_calls steps (poseTest_quiet cfg) fuel _ x.1 x.2 h
    rw [h1]; rfl

theorem same_custom (steps : Int) (cfg : SCfg N C) (T : GoalTest N C P) (lab : Labels N C) (fuel : Nat) (i : InterSt) :
    (findPathCustomCB steps A P cfg T lab fuel i).map (fun x => x.1) = findPathCustom A P cfg T lab fuel := by
  unfold findPathCustomCB findPathCustom
  cases h : searchLoop A { cfg with goal := [], heurGoal := T.heurGoal } (customTest A T) fuel
      (initSearch A P { cfg with goal := [], heurGoal := T.heurGoal } lab) with
  | none => rw [loop_none steps _ _ _ _ h]; rfl
  | some x =>
    obtain ⟨m, h1, _⟩ := loop_calls steps (customTest_quiet T) fuel _ x.1 x.2 h
    rw [h1]; rfl

/-- **C124 (one search).**  A search that begins after `k` calls makes `m` calls, where `m` is the number of its expansions or, if it
ended at an expanded node, one less; it invokes its callback at those of the numbers `k + 1, …, k + m` that belong to the schedule. -/
theorem search {steps : Int} (start : Int) (hs : 0 < steps) (cfg : SCfg N C) (lab : Labels N C) (fuel : Nat) (k : Nat)
    {p : List N} {st' : SSt N C P} {n : Nat} {i' : InterSt}
    (hrun : findPathNodesCB steps A P cfg lab fuel (interAfter steps start k) = some ((.ok p, st'), n, i')) :
    ∃ m, n = firesAmong steps start k m ∧ i' = interAfter steps start (k + m) ∧
      (st'.expansions = m + 1 ∨ (st'.expansions = m ∧ (P.next st'.opn = none ∨ cfg.abort m = true))) := by
  have hsame := same (A := A) (P := P) steps cfg lab fuel (interAfter steps start k)
  rw [hrun] at hsame
  obtain ⟨m, h1, h2⟩ := loop_calls steps (poseTest_quiet cfg) fuel _ _ _ hsame.symm
  unfold findPathNodesCB at hrun
  rw [h1, calls start hs] at hrun
  simp only [Option.some.injEq, Prod.mk.injEq, true_and, Nat.zero_add] at hrun
  refine ⟨m, hrun.1.symm, hrun.2.symm, ?_⟩
  have := h2 p rfl
  rw [initSearch_expansions, Nat.zero_add] at this
  rcases this with h | ⟨h, h'⟩
  · exact .inl h
  · exact .inr ⟨h, by rwa [h] at h'⟩

theorem search_custom {steps : Int} (start : Int) (hs : 0 < steps) (cfg : SCfg N C) (T : GoalTest N C P) (lab : Labels N C)
    (fuel : Nat) (k : Nat) {p : List N} {st' : SSt N C P} {n : Nat} {i' : InterSt}
    (hrun : findPathCustomCB steps A P cfg T lab fuel (interAfter steps start k) = some ((.ok p, st'), n, i')) :
    ∃ m, n = firesAmong steps start k m ∧ i' = interAfter steps start (k + m) ∧
      (st'.expansions = m + 1 ∨ (st'.expansions = m ∧ (P.next st'.opn = none ∨ cfg.abort m = true))) := by
  have hsame := same_custom (A := A) (P := P) steps cfg T lab fuel (interAfter steps start k)
  rw [hrun] at hsame
  obtain ⟨m, h1, h2⟩ := loop_calls steps (customTest_quiet T) fuel _ _ _ hsame.symm
  unfold findPathCustomCB at hrun
  rw [h1, calls start hs] at hrun
  simp only [Option.some.injEq, Prod.mk.injEq, true_and, Nat.zero_add] at hrun
  refine ⟨m, hrun.1.symm, hrun.2.symm, ?_⟩
  have := h2 p rfl
  rw [initSearch_expansions, Nat.zero_add] at this
  rcases this with h | ⟨h, h'⟩
  · exact .inl h
  · exact .inr ⟨h, by rwa [h] at h'⟩

end node

section kin
variable {N K C : Type} [DecidableEq N] [LinearOrder C] [Fintype N] {A : KAlgo N K C} {P : OpenList N C} {cfg : SCfg N C}

theorem kLoop_calls (steps : Int) :
    ∀ (fuel : Nat) (st : KSt N K C P) (r : CRes (List N)) (st' : KSt N K C P), kLoop A cfg fuel st = some (r, st') →
      ∃ m, (∀ n i, kLoopCB steps A cfg fuel n i st = some ((r, st'), n + (interCalls steps m i).1, (interCalls steps m i).2)) ∧
        (st'.s.expansions = st.s.expansions + m ∨ st'.s.expansions = st.s.expansions + m + 1) := by
  intro fuel
  induction fuel with
  | zero => intro st r st' h; simp [kLoop] at h
  | succ fuel ih =>
    intro st r st' h
    rw [kLoop] at h
    rcases kIterate_cases (A := A) (cfg := cfg) st with ⟨st1, hi, cur, o, t, _, _, ht, _, hk⟩ | ⟨r1, st1, hi, _, hc⟩
    · rw [hi] at h
      have hx : st1.s.expansions = st.s.expansions + 1 := by
        rw [(kExpand_touched A.moves _ _ hk).1]
        show t.st.expansions = _
        rw [(goalLoop_quiet _ _ _ _ _ ht).2.2.1]
        rfl
      obtain ⟨m, h1, h2⟩ := ih st1 r st' h
      refine ⟨1 + m, ?_, by omega⟩
      intro n i
      rw [kLoopCB, hi]
      simp only []
      rw [h1, interCalls_add]
      simp only [Nat.add_assoc]
    · rw [hi] at h
      simp only [Option.some.injEq, Prod.mk.injEq] at h
      obtain ⟨rfl, rfl⟩ := h
      refine ⟨0, ?_, ?_⟩
      · intro n i; rw [kLoopCB, hi]; rfl
      · rcases hc with hc | ⟨cur, o, _, hc | ⟨t, ht, hc⟩⟩
        · left; rw [hc]; rfl
        · right; rw [hc]; rfl
        · right; rw [hc, (goalLoop_quiet _ _ _ _ _ ht).2.2.1]; rfl

theorem kLoop_none (steps : Int) :
    ∀ (fuel n : Nat) (i : InterSt) (st : KSt N K C P), kLoop A cfg fuel st = none → kLoopCB steps A cfg fuel n i st = none := by
  intro fuel
  induction fuel with
  | zero => intros; rfl
  | succ fuel ih =>
    intro n i st h
    rw [kLoop] at h
    rw [kLoopCB]
    cases hi : kIterate A cfg st with
    | done r1 st1 => rw [hi] at h; cases h
    | more st1 => rw [hi] at h; exact ih _ _ _ h

/-- **C124 (no influence, steering searches).** -/
theorem same_kin (steps : Int) (kin : N → K) (fuel : Nat) (i : InterSt) :
    (kFindPathCB steps A P cfg kin fuel i).map (fun x => x.1) = kLoop A cfg fuel (kInit A P cfg kin) := by
  unfold kFindPathCB
  cases h : kLoop A cfg fuel (kInit A P cfg kin) with
  | none => rw [kLoop_none steps _ _ _ _ h]; rfl
  | some x =>
    obtain ⟨m, h1, _⟩ := kLoop_calls steps fuel _ x.1 x.2 h
    rw [h1]; rfl

/-- **C124 (one steering search).** -/
theorem search_kin {steps : Int} (start : Int) (hs : 0 < steps) (kin : N → K) (fuel : Nat) (k : Nat)
    {r : CRes (List N)} {st' : KSt N K C P} {n : Nat} {i' : InterSt}
    (hrun : kFindPathCB steps A P cfg kin fuel (interAfter steps start k) = some ((r, st'), n, i')) :
    ∃ m, n = firesAmong steps start k m ∧ i' = interAfter steps start (k + m) ∧
      (st'.s.expansions = m ∨ st'.s.expansions = m + 1) := by
  have hsame := same_kin (A := A) (P := P) (cfg := cfg) steps kin fuel (interAfter steps start k)
  rw [hrun] at hsame
  obtain ⟨m, h1, h2⟩ := kLoop_calls steps fuel _ _ _ hsame.symm
  unfold kFindPathCB at hrun
  rw [h1, calls start hs] at hrun
  simp only [Option.some.injEq, Prod.mk.injEq, true_and, Nat.zero_add] at hrun
  refine ⟨m, hrun.1.symm, hrun.2.symm, ?_⟩
  have h0 : (kInit A P cfg kin).s.expansions = 0 := initSearch_expansions _ _
  rw [h0, Nat.zero_add] at h2
  exact h2

end kin

/-! ### All searches of a program -/

/-- A search that makes `m` calls, whatever the state of the variables: it reports the invocations among them. -/
def MakesCalls (steps : Int) (m : Nat) (j : InterSt → Option (Nat × InterSt)) : Prop := ∀ i, j i = some (interCalls steps m i)

/-- A search on given nodes is such a search. -/
theorem node_makes {N C : Type} [DecidableEq N] [LinearOrder C] [Fintype N] {A : Algo N C} {P : OpenList N C} (steps : Int)
    {cfg : SCfg N C} {lab : Labels N C} {fuel : Nat} {p : List N} {st' : SSt N C P}
    (h : findPathNodes A P cfg lab fuel = some (.ok p, st')) :
    ∃ m, MakesCalls steps m (fun i => (findPathNodesCB steps A P cfg lab fuel i).map (fun x => x.2)) ∧
      (st'.expansions = m + 1 ∨ (st'.expansions = m ∧ (P.next st'.opn = none ∨ cfg.abort m = true))) := by
  obtain ⟨m, h1, h2⟩ := loop_calls steps (poseTest_quiet cfg) fuel _ _ _ h
  refine ⟨m, fun i => ?_, ?_⟩
  · unfold findPathNodesCB
    beta_reduce
    rw [h1]
    simp
  · have := h2 p rfl
    rw [initSearch_expansions, Nat.zero_add] at this
    rcases this with h | ⟨h, h'⟩
    · exact .inl h
    · exact .inr ⟨h, by rwa [h] at h'⟩

/-- A search with a goal test is such a search. -/
theorem custom_makes {N C : Type} [DecidableEq N] [LinearOrder C] [Fintype N] {A : Algo N C} {P : OpenList N C} (steps : Int)
    {cfg : SCfg N C} {T : GoalTest N C P} {lab : Labels N C} {fuel : Nat} {p : List N} {st' : SSt N C P}
    (h : findPathCustom A P cfg T lab fuel = some (.ok p, st')) :
    ∃ m, MakesCalls steps m (fun i => (findPathCustomCB steps A P cfg T lab fuel i).map (fun x => x.2)) ∧
      (st'.expansions = m + 1 ∨ (st'.expansions = m ∧ (P.next st'.opn = none ∨ cfg.abort m = true))) := by
  obtain ⟨m, h1, h2⟩ := loop_calls steps (customTest_quiet T) fuel _ _ _ h
  refine ⟨m, fun i => ?_, ?_⟩
  · unfold findPathCustomCB
    beta_reduce
    rw [h1]
    simp
  · have := h2 p rfl
    rw [initSearch_expansions, Nat.zero_add] at this
    rcases this with h | ⟨h, h'⟩
    · exact .inl h
    · exact .inr ⟨h, by rwa [h] at h'⟩

/-- A steering search is such a search. -/
theorem kin_makes {N K C : Type} [DecidableEq N] [LinearOrder C] [Fintype N] {A : KAlgo N K C} {P : OpenList N C} (steps : Int)
    {cfg : SCfg N C} {kin : N → K} {fuel : Nat} {r : CRes (List N)} {st' : KSt N K C P}
    (h : kLoop A cfg fuel (kInit A P cfg kin) = some (r, st')) :
    ∃ m, MakesCalls steps m (fun i => (kFindPathCB steps A P cfg kin fuel i).map (fun x => x.2)) ∧
      (st'.s.expansions = m ∨ st'.s.expansions = m + 1) := by
  obtain ⟨m, h1, h2⟩ := kLoop_calls steps fuel _ _ _ h
  refine ⟨m, fun i => ?_, ?_⟩
  · unfold kFindPathCB
    beta_reduce
    rw [h1]
    simp
  · have h0 : (kInit A P cfg kin).s.expansions = 0 := initSearch_expansions _ _
    rwa [h0, Nat.zero_add] at h2

/-- **C124 (program).**  The searches of a program, on whatever objects and maps, which make `ms` calls one after the other: each
search invokes its callback at those of its calls whose number, *counted from the first call of the program*, belongs to the
schedule. -/
theorem program {steps : Int} (start : Int) (hs : 0 < steps) {js : List (InterSt → Option (Nat × InterSt))} {ms : List Nat}
    (h : List.Forall₂ (MakesCalls steps) ms js) (k : Nat) :
    runSearches js (interAfter steps start k) = some (invocations steps start k ms, interAfter steps start (k + ms.sum)) := by
  induction h generalizing k with
  | nil => rfl
  | @cons m j ms js hj _ ih =>
    rw [runSearches, hj, calls start hs]
    simp only [ih, Option.map_some, invocations, List.sum_cons, Nat.add_assoc]

/-- **C124 (`steps = 0`).**  No search invokes its callback. -/
theorem program_zero {js : List (InterSt → Option (Nat × InterSt))} {ms : List Nat}
    (h : List.Forall₂ (MakesCalls 0) ms js) (i : InterSt) : runSearches js i = some (ms.map fun _ => 0, i) := by
  induction h generalizing i with
  | nil => rfl
  | @cons m j ms js hj _ ih =>
    rw [runSearches, hj, interCalls_zero]
    simp only [ih, Option.map_some, List.map_cons]

/-! ### A concrete program -/

namespace Ex

/-- A search from `(0, 0)` to `(3, 0)` on a free map of four cells. -/
def job (steps : Int) (i : InterSt) : Option (Nat × InterSt) :=
  (findPathNodesCB steps During.Ex.A (PriorityManager : OpenList (GNode 4 1) Int) During.Ex.cfg (freshLabels During.Ex.A) 4 i).map
    fun x => x.2

/-- **C124, finding.**  With `INTERMISSION_N_STEPS = 10` the first search of a program invokes its callback once, the same search on
another new object not at all, nor does a third one. -/
theorem second_silent : (runSearches [job 10, job 10, job 10] (interInit 0)).map (fun x => x.1) = some [1, 0, 0] := by decide +kernel

/-- `program` applies to these searches. -/
example : ∃ m, 0 < m ∧ MakesCalls 10 m (job 10) ∧
    runSearches [job 10, job 10, job 10] (interAfter 10 0 0) =
      some (invocations 10 0 0 [m, m, m], interAfter 10 0 (0 + [m, m, m].sum)) := by
  have h : (findPathNodes During.Ex.A (PriorityManager : OpenList (GNode 4 1) Int) During.Ex.cfg (freshLabels During.Ex.A) 4).map
      (fun x => (x.1, x.2.expansions)) = some (.ok [(0, 0), (1, 0), (2, 0)], 3) := by decide +kernel
  rw [Option.map_eq_some_iff] at h
  obtain ⟨⟨r, st'⟩, h1, h2⟩ := h
  simp only [Prod.mk.injEq] at h2
  obtain ⟨rfl, h2⟩ := h2
  obtain ⟨m, h3, h4⟩ := node_makes 10 h1
  exact ⟨m, by omega, h3, program 0 (by norm_num) (.cons h3 (.cons h3 (.cons h3 .nil))) 0⟩

end Ex

end PathPlanning.CB
