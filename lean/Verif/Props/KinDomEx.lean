import Verif.Props.SteerDom
import Verif.Props.KinSearchEx

/-!
# Overlooked drives: an example, and the hypotheses of the theorems (C98)
-/

namespace PathPlanning
open Spec

namespace KinDomEx

/-- The vehicle of `KinEx` without heuristic. -/
def A : KAlgo (Fin 5) (Fin 9) Nat := { KinEx.A with heur := fun _ _ => 0 }

theorem costOk : KCostOk A [2, 4, 5] := ⟨KinEx.costOk.costs, KinEx.costOk.infl, KinEx.costOk.mono⟩

def found (r : Option (CRes (List (Fin 9)))) : Bool :=
  match r with
  | some (.ok []) => true
  | _ => false

theorem run0 : found (kFindPath A KinEx.P KinEx.cfg KinEx.kin0 5) = true := by decide +kernel

theorem run : kFindPath A KinEx.P KinEx.cfg KinEx.kin0 5 = some (.ok []) := by
  have h := run0
  unfold found at h
  split at h
  · assumption
  · cases h

/-- The drive `s p1 n` to the goal. -/
theorem drive : DriveFrom A [0] KinEx.kin0 [0, 4, 7] 9 := by
  refine ⟨?_, ⟨0, by simp, rfl⟩, ?_⟩
  · have h0 : Drive A ([] ++ [0]) 0 := .start _
    have h1 : Drive A ([] ++ [0] ++ [4]) (A.add 0 5) :=
      .step h0 (mv := fun k _ => if k = 0 then some (5, 4) else none) (by simp [A, KinEx.A]) rfl rfl
    have h2 : Drive A ([0] ++ [4] ++ [7]) (A.add (A.add 0 5) 4) :=
      .step (l := [0]) h1 (mv := fun k _ => if k = 0 then some (2, 2) else if k = 2 then some (2, 5) else
      if k = 4 then some (4, 7) else none) (by simp [A, KinEx.A]) rfl rfl
    exact h2
  · intro k hk
    exact ⟨_, rfl⟩

end KinDomEx

/-- **C98, finding.**  A drive to the goal can be overlooked altogether, although the search has no heuristic and no time limit: it gives up,
because the cell through which the drive leads was reached more cheaply at a pose from which there is no way on. -/
theorem kin_overlooks_happens : ∃ (A : KAlgo (Fin 5) (Fin 9) Nat) (P : OpenList (Fin 5) Nat) (cfg : SCfg (Fin 5) Nat)
    (kin0 : Fin 5 → Fin 9) (cs : List Nat) (fuel : Nat) (q : List (Fin 9)) (D : Nat),
    KCostOk A cs ∧ Nonempty (Lawful P) ∧ Nonempty (MinFirst P) ∧ TopOk cfg.top ∧ MapOk A cfg.start kin0 ∧
    (∀ k g, A.heur k g = A.zero) ∧ cfg.heurGoal = none ∧ (∀ a, A.add a A.zero = a) ∧ cfg.useCands = false ∧
    (∀ i, cfg.abort i = false) ∧ A.predDepth = 0 ∧ (∀ g k pv pv', A.isGoal g k pv = A.isGoal g k pv') ∧
    kFindPath A P cfg kin0 fuel = some (.ok []) ∧ DriveFrom A cfg.start kin0 q D ∧ (∃ g ∈ cfg.goal, EndsInGoal A kin0 g q) :=
  ⟨KinDomEx.A, KinEx.P, KinEx.cfg, KinEx.kin0, _, 5, _, _, KinDomEx.costOk, ⟨prioLawful⟩, ⟨prioMin⟩, KinEx.minTop_ok,
    ⟨fun _ _ _ => ⟨true, rfl⟩, fun _ _ _ _ => ⟨_, rfl⟩⟩, fun _ _ => rfl, rfl, fun a => Nat.add_zero a, rfl, fun _ => rfl, rfl,
    fun _ _ _ _ => rfl, KinDomEx.run, KinDomEx.drive, 4, by simp [KinEx.cfg], [0, 4], 7, rfl, by decide⟩

/-- The rival the theorem speaks of, in this example. -/
example : ∃ l k D1, (l ++ [k]) <+: ([0, 4, 7] : List (Fin 9)) ∧ DriveFrom KinDomEx.A [0] KinEx.kin0 (l ++ [k]) D1 ∧ D1 ≤ 9 ∧
    Rival KinDomEx.A [0] KinEx.kin0 0 l k D1 := by
  obtain ⟨d, h1, _, h3⟩ := kin_overlooks (cfg := KinEx.cfg) (H := 0) KinDomEx.costOk prioLawful prioMin KinEx.minTop_ok (fun _ _ => rfl)
    rfl (fun a => Nat.add_zero a) rfl (fun _ => rfl) (le_refl 0) (.inr fun _ _ _ _ => rfl) KinDomEx.run
  have hd : d = ⊤ := h1.1 rfl
  rcases h3 _ _ KinDomEx.drive 4 (by simp [KinEx.cfg]) ⟨[0, 4], 7, rfl, by decide⟩ (by rw [hd]; exact WithTop.coe_lt_top _) with h | ⟨kg, _, _, _, l, k, e, h⟩
  · exact h
  · exfalso
    have : k = 7 := by
      have := congrArg List.getLast? e
      simpa using this.symm
    subst this
    revert h
    simp [KinDomEx.A, KinEx.A]

namespace KinDomEx

/-- A lattice: three poses in a row, one per cell. -/
def B : KAlgo (Fin 3) (Fin 3) Nat where
  zero := 0
  add := (· + ·)
  moves := [fun k _ => if k = 0 then some (3, 2) else none, fun k _ => if k = 2 then none else some (1, k + 1)]
  predDepth := 0
  usable _ _ := .ok true
  lookup k := .ok (some k)
  heur _ _ := 0
  isGoal g k _ := g = k
  distTo _ _ := 0
  accept := none

def cfgB : SCfg (Fin 3) Nat where
  start := [0]
  goal := [2]
  useCands := false
  oversearch := 0
  accept := none
  abort _ := false
  canExpand _ _ _ := none
  top := KinEx.minTop

theorem costOkB : KCostOk B [1, 3] where
  costs := by
    intro mv hmv k ps c k' h
    simp only [B, List.mem_cons, List.not_mem_nil, or_false] at hmv
    rcases hmv with rfl | rfl
    · simp only at h; split_ifs at h; cases h; simp
    · simp only at h; split_ifs at h; cases h; simp
  infl c _ a := Nat.le_add_right a c
  mono a b c h := Nat.add_le_add_right h c

/-- The hypotheses of `kin_cheapest_lattice` are met: the path is the cheaper one of the two drives to the goal. -/
example : ∃ fuel r d, kFindPath B PriorityManager cfgB id fuel = some (.ok r) ∧ r ≠ [] ∧ DriveFrom B [0] id r d ∧ d ≤ 2 := by
  have hm : MapOk B cfgB.start id := ⟨fun _ _ _ => ⟨true, rfl⟩, fun _ _ _ _ => ⟨_, rfl⟩⟩
  obtain ⟨fuel, r, hr⟩ := kin_search_total (P := PriorityManager) (cfg := cfgB) costOkB prioLawful KinEx.minTop_ok hm
  obtain ⟨h1, h2⟩ := kin_cheapest_lattice (cfg := cfgB) costOkB prioLawful prioMin KinEx.minTop_ok (fun _ _ => rfl) rfl
    (fun a => Nat.add_zero a) rfl (fun _ => rfl) rfl (fun _ _ _ _ => rfl)
    (fun k k' n e1 e2 => by
      simp only [B, CRes.ok.injEq, Option.some.injEq] at e1 e2
      rw [e1, e2])
    (fun s _ k e => by simpa [B] using e) (fun s _ k e => by simpa [B] using e) hr
  have hdrive : DriveFrom B [0] id ([0, 1, 2] : List (Fin 3)) 2 := by
    refine ⟨?_, ⟨0, by simp, rfl⟩, fun k hk => ⟨_, rfl⟩⟩
    have h0 : Drive B ([] ++ [0]) 0 := .start _
    have h1 : Drive B ([] ++ [0] ++ [1]) (B.add 0 1) :=
      .step h0 (mv := fun k _ => if k = 2 then none else some (1, k + 1)) (by simp [B]) rfl rfl
    have h2 : Drive B ([0] ++ [1] ++ [2]) (B.add (B.add 0 1) 1) :=
      .step (l := [0]) h1 (mv := fun k _ => if k = 2 then none else some (1, k + 1)) (by simp [B]) rfl rfl
    exact h2
  have hend : EndsInGoal B id 2 ([0, 1, 2] : List (Fin 3)) := ⟨[0, 1], 2, rfl, by decide⟩
  have hne : r ≠ [] := fun e => h1 e _ _ hdrive 2 (by simp [cfgB]) hend
  obtain ⟨d, h3, h4⟩ := h2 hne
  exact ⟨fuel, r, d, hr, hne, h3, h4 _ _ hdrive 2 (by simp [cfgB]) hend⟩

end KinDomEx
end PathPlanning
