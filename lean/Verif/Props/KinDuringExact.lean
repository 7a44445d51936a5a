import Verif.Lemmas.KinDuringMono
import Verif.Props.KinDuringMap

/-!
# Steering searches without heuristic on a map on which obstacles appear (C120)
-/

namespace PathPlanning.KDur
open PathPlanning Spec
set_option linter.unusedSectionVars false

variable {N K C : Type} [DecidableEq N] [LinearOrder C] [Fintype N]
variable {A : KAlgo N K C} {cs : List C} {P : OpenList N C} {cfg : SCfg N C} {kin0 : N → K} {us : Nat → K → K → CRes Bool}

theorem first_accepts (hblock : ∀ j k k', us (j + 1) k k' = .ok true → us j k k' = .ok true) :
    ∀ (j : Nat) (k k' : K), us j k k' = .ok true → us 0 k k' = .ok true := by
  intro j
  induction j with
  | zero => exact fun _ _ h => h
  | succ j ih => exact fun k k' h => ih k k' (hblock j k k' h)

theorem init_expansions : (kInit A P cfg kin0).s.expansions = 0 := by
  have key : ∀ (B : Algo N C) (l : List N) (st : SSt N C P), (l.foldl (addStart B) st).expansions = st.expansions := by
    intro B l
    induction l with
    | nil => exact fun _ => rfl
    | cons a l ih => intro st; rw [List.foldl_cons, ih]; rfl
  exact key _ _ _

/-- **C120 (obstacles appear).**  Without heuristic (and with a priority queue as open list), if the callback only ever adds
obstacles: a returned path is a drive from a start pose whose last pose passes the goal test.  No step begins at another pose than
the one the path shows, and the map of the beginning accepts all of them. -/
theorem exact_blocking (ok : KCostOk A cs) (L : Lawful P) (M : MinFirst P) (ht : TopOk cfg.top)
    (hheur : ∀ k g, A.heur k g = A.zero) (hhg : cfg.heurGoal = none) (hadd : ∀ x, A.add x A.zero = x)
    (hblock : ∀ j k k', us (j + 1) k k' = .ok true → us j k k' = .ok true) {fuel : Nat} {q : List K} {E : Nat}
    (h : kFindPathDuring A us P cfg kin0 fuel = some (.ok q, E)) (hne : q ≠ []) :
    (∃ d, Drive (A.withUsable (us 0)) q d) ∧ (∃ s ∈ cfg.start, q.head? = some (kin0 s)) ∧
      ∃ kl w, q.getLast? = some kl ∧ GoalMet (A.withUsable (us 0)) cfg.start cfg.goal kin0 kl w := by
  have okU : KCostOk (A.withUsable (us 0)) cs := costOk_wu ok _
  have hup := first_accepts hblock
  have hlo : ∀ (j : Nat) (k k' : K), (fun _ _ => CRes.ok false : K → K → CRes Bool) k k' = .ok true → us j k k' = .ok true :=
    fun _ _ _ e => by cases e
  obtain ⟨h1, h2⟩ := vkInit_inv (A := A.withUsable (us 0)) (i := fun _ _ => .ok false) (cs := cs) (L := L)
    (cfg := cfg) (kin0 := kin0)
  have h3 : VKMono (A.withUsable (us 0)) (us 0) M cfg kin0 nopend (kInit (A.withUsable (us 0)) P cfg kin0) :=
    vkInit_mono L hadd
  unfold kFindPathDuring at h
  cases hk : kLoopDuring A us cfg fuel (kInit A P cfg kin0) with
  | none => rw [hk] at h; simp at h
  | some x =>
    obtain ⟨r0, st'⟩ := x
    rw [hk] at h
    simp only [Option.map_some, Option.some.injEq, Prod.mk.injEq] at h
    obtain ⟨hq, rfl⟩ := h
    obtain ⟨st1, ⟨g1, g2, g3⟩, h4⟩ := run_last (A := A) (us := us) (cfg := cfg)
      (Inv := fun st => VKInv (A.withUsable (us 0)) (fun _ _ => .ok false) cs L cfg kin0 nopend st ∧
        (cfg.useCands = false → st.s.cands = []) ∧
        VKMono (A.withUsable (us 0)) (us st.s.expansions) M cfg kin0 nopend st) (E := st'.s.expansions)
      (fun st st2 _ h hi => by
        have hs := vkIterate_spec (a := us st.s.expansions) okU (hup _) (hlo _) ht h.1 h.2.1
        have hm := vkIterate_mono (a := us st.s.expansions) okU (hup _) (hlo _) ht hheur hhg hadd h.1 h.2.2
        rw [wu_wu, hi] at hs hm
        refine ⟨hs.1, hs.2.1, ?_⟩
        rw [more_expansions hi]
        exact hm.weaken (hblock _)) fuel _ st' r0 hk (le_refl _) ⟨h1, fun _ => h2, by rw [init_expansions]; exact h3⟩
    have hs := vkIterate_spec (a := us st1.s.expansions) okU (hup _) (hlo _) ht g1 g2
    have hm := vkIterate_mono (a := us st1.s.expansions) okU (hup _) (hlo _) ht hheur hhg hadd g1 g3
    rw [wu_wu, h4] at hs hm
    cases r0 with
    | throw e => cases hq
    | ub => cases hq
    | ok p =>
      cases hq
      obtain ⟨hc, hsk, _, _⟩ := hs.ok p rfl
      obtain ⟨hedge, n, B, d, w, hnd, hb, hg⟩ := hm.ok p rfl (by intro e; rw [e] at hne; exact hne rfl)
      obtain ⟨l', d', e1, e2, _, s, hs', e4⟩ := hb.drive (hc st'.s.lab st'.kin).sp hedge hnd
      rw [e1] at e4 ⊢
      exact ⟨⟨d', e2⟩, ⟨s, hs', by rw [e4, hsk s hs']⟩, st'.kin n, w, by simp, hg⟩

end PathPlanning.KDur
