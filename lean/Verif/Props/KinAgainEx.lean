import Verif.Props.KinAgain
import Verif.Props.KinHistEx

/-!
# Planning again from the same pose: a concrete history
-/

namespace PathPlanning.KinEx
open Spec Again

/-- The search in between: from node 2 with the pose 4, towards node 3. -/
def between : SCfg (Fin 5) Nat := { cfg with start := [2], goal := [3] }

/-- **C130, example.**  The search of `KinEx` finds the path 0, 2, 5, 7; the start node has been expanded.  Afterwards, also after searches
from other nodes, no search from the start pose finds a path to any node, although the vehicle can reach three of them. -/
theorem start_used (g : Fin 5) (kin2 : Fin 5 → Fin 9) (h0 : kin2 0 = 0) {lab : Labels (Fin 5) Nat}
    (hb : Since A [2, 4, 5] P after.lab lab) :
    ∃ f2 st2, kFindOn A P { cfg with goal := [g] } lab kin2 f2 = some (.ok [], st2) := by
  refine nothing_again (cfg := cfg) (kin0 := kin0) costOk prioLawful rfl first (by decide) (fun s hs => ?_) hb minTop_ok
    (fun s hs => hs) (fun s hs => ?_) (fun g' _ s hs => ?_)
  · simp only [cfg, List.mem_singleton] at hs
    subst hs
    show (after.lab 0).opn = false
    decide +kernel
  · have hs : s ∈ [0] := hs
    simp only [List.mem_singleton] at hs
    subst hs; exact h0
  · have hs : s ∈ [0] := hs
    simp only [List.mem_singleton] at hs
    subst hs; rfl

/-- There are searches in between that return. -/
theorem between_returns : ∃ lab, Since A [2, 4, 5] P after.lab lab ∧ lab ≠ after.lab := by
  have h : (match kFindOn A P between after.lab fin.kin 9 with
    | some (_, st) => decide ((st.s.lab 2).dist = 0)
    | none => false) = true := by decide +kernel
  match e : kFindOn A P between after.lab fin.kin 9, h with
  | some (r, st), h =>
    refine ⟨st.s.lab, .search .refl rfl costOk e, fun he => ?_⟩
    simp only [decide_eq_true_eq] at h
    rw [he] at h
    exact absurd h (by decide +kernel)

end PathPlanning.KinEx
