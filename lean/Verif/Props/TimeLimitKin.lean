import Verif.Props.TimeLimit

/-!
# The time limit of steering searches (C128)

`Props/TimeLimit.lean` for the searches between poses with a steering neighbourhood, with and without an analytic expansion, and for those
with a goal test.
-/

namespace PathPlanning.TimeLimit
open Spec
set_option linter.unusedSectionVars false

variable {N K C X : Type} [DecidableEq N] [LinearOrder C] [Fintype N]
variable {A : KAlgo N K C} {E : KExp X K C} {P : OpenList N C}
variable {cfg : SCfg N C} {kin : N → K} {soon late : Nat → Bool}

theorem goalLoop_clock {B : Algo N C} (b : Nat → Bool) (cur : N) : ∀ (gs : List N) (st : SSt N C P),
    goalLoop B { cfg with abort := b } cur gs st = goalLoop B cfg cur gs st := by
  intro gs
  induction gs with
  | nil => intro s; rfl
  | cons g gs ih => intro s; simp only [goalLoop, ih]

theorem kIterate_clock (hsl : Later soon late) (st : KSt N K C P) :
    kIterate A { cfg with abort := soon } st = kIterate A { cfg with abort := late } st ∨
      (soon st.s.expansions = true ∧ kIterate A { cfg with abort := soon } st = .done (finish cfg st.s) st) := by
  cases hn : P.next st.s.opn with
  | none => left; simp only [kIterate, hn]; rfl
  | some co =>
    by_cases hs : soon st.s.expansions = true
    · right
      exact ⟨hs, by simp only [kIterate, hn, hs, if_true]; rfl⟩
    · left
      have hl : ¬ late st.s.expansions = true := fun h => hs (hsl _ h)
      have hg : ∀ (B : Algo N C) (b : Nat → Bool) (k : N → K) gs (s : SSt N C P) (cur : N),
          goalLoop B (A.cfg { cfg with abort := b } k) cur gs s = goalLoop B (A.cfg cfg k) cur gs s :=
        fun B b k gs s cur => goalLoop_clock (cfg := A.cfg cfg k) b cur gs s
      simp only [kIterate, hn, hs, hl, hg]
      rfl

theorem kLoop_clock (hsl : Later soon late) {I : KSt N K C P → Prop}
    (pres : ∀ st st', I st → kIterate A { cfg with abort := late } st = .more st' → I st') :
    ∀ (f : Nat) (st : KSt N K C P) (r t), kLoop A { cfg with abort := soon } f st = some (r, t) → I st →
      ∀ f' r' t', kLoop A { cfg with abort := late } f' st = some (r', t') →
        (r = r' ∧ t = t') ∨ (soon t.s.expansions = true ∧ r = finish cfg t.s ∧ I t) := by
  intro f
  induction f with
  | zero => intro st r t h; simp [kLoop] at h
  | succ f ih =>
    intro st r t h hI f' r' t' h'
    rw [kLoop] at h
    rcases kIterate_clock (cfg := cfg) (A := A) hsl st with e | ⟨hs, e⟩
    · rw [e] at h
      cases f' with
      | zero => simp [kLoop] at h'
      | succ f' =>
        rw [kLoop] at h'
        cases hi : kIterate A { cfg with abort := late } st with
        | done r1 st1 =>
          rw [hi] at h h'
          simp only [Option.some.injEq, Prod.mk.injEq] at h h'
          exact .inl ⟨h.1.symm.trans h'.1, h.2.symm.trans h'.2⟩
        | more st1 =>
          rw [hi] at h h'
          exact ih st1 r t h (pres _ _ hI hi) f' r' t' h'
    · rw [e] at h
      simp only [Option.some.injEq, Prod.mk.injEq] at h
      obtain ⟨rfl, rfl⟩ := h
      exact .inr ⟨hs, rfl, hI⟩

theorem kIterate_nocands (hu : cfg.useCands = false) (b : Nat → Bool) {st st' : KSt N K C P}
    (h : kIterate A { cfg with abort := b } st = .more st') : st'.s.cands = st.s.cands := by
  rcases kIterate_cases (A := A) (cfg := { cfg with abort := b }) st with
    ⟨s1, h1, cur, o, t, _, _, h3, _, h5⟩ | ⟨r, s1, h1, _⟩
  · rw [h] at h1
    cases h1
    rw [(kExpand_cands h5).1]
    have hu' : (A.cfg { cfg with abort := b } st.kin).useCands = false := hu
    have := goalLoop_nocands hu' _ _ _ h3
    exact this
  · rw [h] at h1; cases h1

theorem kInit_cands : (kInit A P cfg kin).s.cands = [] := init_cands

/-- **C128 (steering searches between poses).**  Without goal candidates a time limit can only turn the result into "no path": the run with
the shorter limit returns the empty path, or exactly the poses that the run with the longer limit returns (or throws, or ends in, the same). -/
theorem steer_more_time (ht : TopOk cfg.top) (hu : cfg.useCands = false) (hsl : Later soon late) {f f' : Nat}
    {r r' : CRes (List K)} (h : kFindPath A P { cfg with abort := soon } kin f = some r)
    (h' : kFindPath A P { cfg with abort := late } kin f' = some r') : r = r' ∨ r = .ok [] := by
  unfold kFindPath at h h'
  cases e : kLoop A { cfg with abort := soon } f (kInit A P { cfg with abort := soon } kin) with
  | none => rw [e] at h; cases h
  | some x =>
    cases e' : kLoop A { cfg with abort := late } f' (kInit A P { cfg with abort := late } kin) with
    | none => rw [e'] at h'; cases h'
    | some x' =>
      rw [e] at h
      rw [e'] at h'
      obtain ⟨r1, t1⟩ := x
      obtain ⟨r2, t2⟩ := x'
      simp only [Option.map_some, Option.some.injEq] at h h'
      rcases kLoop_clock (I := fun s => s.s.cands = []) hsl (fun s s' hs hi => (kIterate_nocands hu _ hi).trans hs)
        _ _ _ _ e kInit_cands _ _ _ e' with ⟨rfl, rfl⟩ | ⟨_, hr, hc⟩
      · exact .inl (h.symm.trans h')
      · right
        rw [finish, hc, (ht.none_iff _).2 rfl] at hr
        subst hr
        exact h.symm

/-- A path found under the shorter limit is the path found under the longer one. -/
theorem steer_path_stays (ht : TopOk cfg.top) (hu : cfg.useCands = false) (hsl : Later soon late) {f f' : Nat}
    {p : List K} {r' : CRes (List K)} (h : kFindPath A P { cfg with abort := soon } kin f = some (.ok p))
    (h' : kFindPath A P { cfg with abort := late } kin f' = some r') (hp : p ≠ []) : r' = .ok p := by
  rcases steer_more_time ht hu hsl h h' with e | e
  · exact e.symm
  · cases e; exact absurd rfl hp

/-! ### With an analytic expansion -/

theorem xIterate_clock (hsl : Later soon late) (st : KSt N K C P) (x : X) :
    xIterate A E { cfg with abort := soon } st x = xIterate A E { cfg with abort := late } st x ∨
      (soon st.s.expansions = true ∧
        xIterate A E { cfg with abort := soon } st x = .done (contents st.kin (finish cfg st.s)) x) := by
  by_cases hs : soon st.s.expansions = true ∧ P.next st.s.opn ≠ none
  · right
    refine ⟨hs.1, ?_⟩
    cases hn : P.next st.s.opn with
    | none => exact absurd hn hs.2
    | some co => simp only [xIterate, kIterate, hn, hs.1, if_true]; rfl
  · left
    have hk : kIterate A { cfg with abort := soon } st = kIterate A { cfg with abort := late } st := by
      rcases kIterate_clock (A := A) (cfg := cfg) hsl st with e | ⟨h1, _⟩
      · exact e
      · cases hn : P.next st.s.opn with
        | none => simp only [kIterate, hn]; rfl
        | some co => exact absurd ⟨h1, by rw [hn]; simp⟩ hs
    unfold xIterate
    simp only [hk]
    cases hn : P.next st.s.opn with
    | none => rfl
    | some co =>
      have hs' : ¬ soon st.s.expansions = true := fun h => hs ⟨h, by rw [hn]; simp⟩
      have hl : ¬ late st.s.expansions = true := fun h => hs' (hsl _ h)
      simp only [hs', hl]
      rfl

theorem xIterate_nocands (hu : cfg.useCands = false) (b : Nat → Bool) {st st' : KSt N K C P} {x x' : X}
    (h : xIterate A E { cfg with abort := b } st x = .more st' x') : st'.s.cands = st.s.cands := by
  have hrest : ∀ y, (match kIterate A { cfg with abort := b } st with
      | .more s => XIter.more s y
      | .done r s => .done (contents s.kin r) y) = .more st' x' → st'.s.cands = st.s.cands := by
    intro y hy
    cases hk : kIterate A { cfg with abort := b } st with
    | done r s => rw [hk] at hy; cases hy
    | more s => rw [hk] at hy; cases hy; exact kIterate_nocands hu b hk
  unfold xIterate at h
  cases hn : P.next st.s.opn with
  | none => simp only [hn] at h; exact hrest _ h
  | some co =>
    obtain ⟨cur, o⟩ := co
    simp only [hn] at h
    by_cases hab : b st.s.expansions = true
    · simp only [hab, if_true] at h; exact hrest _ h
    · simp only [hab, if_false, Bool.false_eq_true] at h
      split at h
      · cases h
      · cases h
      · cases h
      · exact hrest _ h

/-- **C128 (hybrid searches).**  The same with an analytic expansion, whose state is then also the same. -/
theorem hybrid_more_time (ht : TopOk cfg.top) (hu : cfg.useCands = false) (hsl : Later soon late) {f f' : Nat} {x : X}
    {r r' : CRes (List K)} {y y' : X} (h : xFindPath A E P { cfg with abort := soon } kin x f = some (r, y))
    (h' : xFindPath A E P { cfg with abort := late } kin x f' = some (r', y')) : (r = r' ∧ y = y') ∨ r = .ok [] := by
  have key : ∀ (f : Nat) (st : KSt N K C P) (x : X), xSearch A E { cfg with abort := soon } f st x = some (r, y) → st.s.cands = [] →
      ∀ f', xSearch A E { cfg with abort := late } f' st x = some (r', y') → (r = r' ∧ y = y') ∨ r = .ok [] := by
    intro f
    induction f with
    | zero => intro st x h; simp [xSearch] at h
    | succ f ih =>
      intro st x h hI f' h'
      rw [xSearch] at h
      rcases xIterate_clock (cfg := cfg) (A := A) (E := E) hsl st x with e | ⟨hs, e⟩
      · rw [e] at h
        cases f' with
        | zero => simp [xSearch] at h'
        | succ f' =>
          rw [xSearch] at h'
          cases hi : xIterate A E { cfg with abort := late } st x with
          | done r1 st1 =>
            rw [hi] at h h'
            simp only [Option.some.injEq, Prod.mk.injEq] at h h'
            exact .inl ⟨h.1.symm.trans h'.1, h.2.symm.trans h'.2⟩
          | more st1 x1 =>
            rw [hi] at h h'
            exact ih st1 x1 h ((xIterate_nocands hu _ hi).trans hI) f' h'
      · rw [e] at h
        simp only [Option.some.injEq, Prod.mk.injEq] at h
        right
        rw [← h.1, finish, hI, (ht.none_iff _).2 rfl]; rfl
  exact key f _ x h kInit_cands f' h'

/-- A path found under the shorter limit is the path found under the longer one. -/
theorem hybrid_path_stays (ht : TopOk cfg.top) (hu : cfg.useCands = false) (hsl : Later soon late) {f f' : Nat} {x : X}
    {p : List K} {r' : CRes (List K)} {y y' : X} (h : xFindPath A E P { cfg with abort := soon } kin x f = some (.ok p, y))
    (h' : xFindPath A E P { cfg with abort := late } kin x f' = some (r', y')) (hp : p ≠ []) : r' = .ok p := by
  rcases hybrid_more_time ht hu hsl h h' with ⟨e, _⟩ | e
  · exact e.symm
  · cases e; exact absurd rfl hp

/-! ### With a goal test -/

theorem kIterateT_clock {T : KGoalTest N K C P} (hsl : Later soon late) (st : KSt N K C P) :
    kIterateT A { cfg with abort := soon } T st = kIterateT A { cfg with abort := late } T st ∨
      (soon st.s.expansions = true ∧ kIterateT A { cfg with abort := soon } T st = .done (finish cfg st.s) st) := by
  cases hn : P.next st.s.opn with
  | none => left; simp only [kIterateT, hn]; rfl
  | some co =>
    by_cases hs : soon st.s.expansions = true
    · right
      exact ⟨hs, by simp only [kIterateT, hn, hs, if_true]; rfl⟩
    · left
      have hl : ¬ late st.s.expansions = true := fun h => hs (hsl _ h)
      simp only [kIterateT, hn, hs, hl]
      rfl

theorem kLoopT_clock {T : KGoalTest N K C P} (hsl : Later soon late) :
    ∀ (f : Nat) (st : KSt N K C P) (r t), kLoopT A { cfg with abort := soon } T f st = some (r, t) →
      ∀ f' r' t', kLoopT A { cfg with abort := late } T f' st = some (r', t') →
        (r = r' ∧ t = t') ∨
        (soon t.s.expansions = true ∧ r = finish cfg t.s ∧
          ∃ n, kLoopT A { cfg with abort := late } T n t = some (r', t')) := by
  intro f
  induction f with
  | zero => intro st r t h; simp [kLoopT] at h
  | succ f ih =>
    intro st r t h f' r' t' h'
    rw [kLoopT] at h
    rcases kIterateT_clock (cfg := cfg) (A := A) (T := T) hsl st with e | ⟨hs, e⟩
    · rw [e] at h
      cases f' with
      | zero => simp [kLoopT] at h'
      | succ f' =>
        rw [kLoopT] at h'
        cases hi : kIterateT A { cfg with abort := late } T st with
        | done r1 st1 =>
          rw [hi] at h h'
          simp only [Option.some.injEq, Prod.mk.injEq] at h h'
          exact .inl ⟨h.1.symm.trans h'.1, h.2.symm.trans h'.2⟩
        | more st1 =>
          rw [hi] at h h'
          exact ih st1 r t h f' r' t' h'
    · rw [e] at h
      simp only [Option.some.injEq, Prod.mk.injEq] at h
      obtain ⟨rfl, rfl⟩ := h
      exact .inr ⟨hs, rfl, f', h'⟩

theorem kTest_keeps {T : KGoalTest N K C P} (st : KSt N K C P) (cur : N) : ∀ x ∈ st.s.cands, x ∈ (kTest A T st cur).s.cands := by
  intro x hx
  rw [(kTest_parts (A := A) (T := T) st cur).2.2.2.2.2]
  exact List.mem_append_left _ hx

theorem kLoopT_keeps {T : KGoalTest N K C P} : ∀ (f : Nat) (st : KSt N K C P) (r t),
    kLoopT A cfg T f st = some (r, t) → ∀ x ∈ st.s.cands, x ∈ t.s.cands := by
  intro f
  induction f with
  | zero => intro st r t h; simp [kLoopT] at h
  | succ f ih =>
    intro st r t h x hx
    rw [kLoopT] at h
    cases hi : kIterateT A cfg T st with
    | more st1 =>
      rw [hi] at h
      refine ih st1 r t h x ?_
      obtain ⟨cur, o, _, _, _, h4, _⟩ := kIterateT_more hi
      rw [h4]
      exact kTest_keeps _ _ x hx
    | done r1 st1 =>
      rw [hi] at h
      simp only [Option.some.injEq, Prod.mk.injEq] at h
      obtain ⟨rfl, rfl⟩ := h
      unfold kIterateT at hi
      cases hn : P.next st.s.opn with
      | none => rw [hn] at hi; cases hi; exact hx
      | some co =>
        obtain ⟨cur, o⟩ := co
        rw [hn] at hi
        have hk := kTest_keeps (A := A) (T := T) (popT A cfg T st cur o) cur x hx
        dsimp only at hi
        split_ifs at hi
        · cases hi; exact hx
        · cases hi; exact hk
        · cases hi; exact hk
        · split at hi
          · cases hi; exact hk
          · cases hi; exact hk
          · cases hi

/-- **C128 (steering searches with a goal test).**  If the run with the shorter limit found a path and the run with the longer limit
ends normally, then that found one as well, for every goal test that does not look at the clock. -/
theorem steer_test_path_found {cs : List C} (L : Lawful P) (ok : KCostOk A cs) (ht : TopOk cfg.top) (T : KGoalTest N K C P)
    (hsl : Later soon late) {f f' : Nat} {p p' : List K} {t t' : KSt N K C P}
    (h : kFindTest A P { cfg with abort := soon } T kin f = some (.ok p, t))
    (h' : kFindTest A P { cfg with abort := late } T kin f' = some (.ok p', t')) (hp : p ≠ []) : p' ≠ [] := by
  have hun : ∀ {b : Nat → Bool} {f : Nat} {p : List K} {t : KSt N K C P},
      kFindTest A P { cfg with abort := b } T kin f = some (.ok p, t) →
      ∃ q, kLoopT A { cfg with abort := b } T f (kInit A P cfg kin) = some (.ok q, t) ∧ p = q.map t.kin := by
    intro b f p t hb
    unfold kFindTest at hb
    cases e : kLoopT A { cfg with abort := b } T f (kInit A P { cfg with abort := b } kin) with
    | none => rw [e] at hb; cases hb
    | some x =>
      obtain ⟨r1, t1⟩ := x
      rw [e] at hb
      simp only [Option.map_some, Option.some.injEq, Prod.mk.injEq] at hb
      obtain ⟨h1, rfl⟩ := hb
      cases r1 with
      | ok q => cases h1; exact ⟨q, e, rfl⟩
      | throw m => cases h1
      | ub => cases h1
  obtain ⟨q, h1, rfl⟩ := hun h
  obtain ⟨q', h2, rfl⟩ := hun h'
  have hq : q ≠ [] := fun e => hp (by rw [e]; rfl)
  intro hm
  have hq' : q' = [] := List.map_eq_nil_iff.1 hm
  subst hq'
  rcases kLoopT_clock (cfg := cfg) hsl _ _ _ _ h1 _ _ _ h2 with ⟨e, _⟩ | ⟨_, e, n, hn⟩
  · cases e; exact hq rfl
  · have hc := finish_nil ht e.symm hq
    obtain ⟨f2, r2, s2, g1, g2⟩ := kLoopT_spec (cs := cs) (L := L) (cfg := { cfg with abort := late }) (T := T) (kin0 := kin) ok ht _ tInit_inv
    have e2 := kLoopT_fuel _ _ _ _ _ h2 g1
    cases e2
    obtain ⟨hend, hfin, _⟩ := g2.ok _ rfl
    refine hc (List.eq_nil_iff_forall_not_mem.2 fun x hx => ?_)
    have hx' := kLoopT_keeps _ _ _ _ hn x hx
    rcases finish_spec (A := A.full cs t'.s.lab t'.kin) (st := t'.s) (cfg := cfg) ht (hend.core t'.s.lab t'.kin) hend.closed with
      ⟨h3, _⟩ | ⟨_, l, d, _, _, hb, h4⟩
    · rw [h3] at hx'; cases hx'
    · have h5 : finish cfg t'.s = .ok [] := hfin
      rw [h4] at h5
      cases h5
      exact hb.ne_nil rfl

end PathPlanning.TimeLimit
