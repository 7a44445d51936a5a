import Verif.Props.TimeLimitKin
import Verif.Props.SearchExamples
import Verif.Props.KinSearchEx
import Verif.Props.SearchCustomEx

/-!
# The hypotheses of the theorems about the time limit are met (C128)
-/

namespace PathPlanning.TimeLimit.Ex
open SearchEx

/-- A limit that has passed before the search begins, and no limit. -/
theorem zero_later : Later (fun _ => true) (fun _ => false) := fun _ h => by cases h

/-- With a limit of zero there is no path, without a limit there is one: the difference that `more_time` allows does occur. -/
theorem limit_matters : ∃ f t f' p t', findPathNodes A P { cfg with abort := fun _ => true } (freshLabels A) f = some (.ok [], t) ∧
    findPathNodes A P { cfg with abort := fun _ => false } (freshLabels A) f' = some (.ok p, t') ∧ p ≠ [] := by
  obtain ⟨f', p, t', h', hp⟩ := finds_path
  exact ⟨1, _, f', p, t', no_time (cfg := cfg) topRef_ok 0, h', hp⟩

/-- The same search with goal candidates. -/
noncomputable def cfgC : SCfg W ℝ := { cfg with useCands := true, oversearch := 3 }

/-- A limit that strikes, but only after the search has ended: `in_time`, `path_found`, `nearer_end` apply, with a path. -/
theorem candidates : ∃ (n f : Nat) (p : List W) (t : SSt W ℝ P), p ≠ [] ∧
    Later (fun k => decide (n < k)) (fun _ => false) ∧
    findPathNodes A P { cfgC with abort := fun k => decide (n < k) } (freshLabels A) f = some (.ok p, t) ∧
    findPathNodes A P { cfgC with abort := fun _ => false } (freshLabels A) f = some (.ok p, t) ∧
    ∃ p' e', (CRes.ok p : CRes (List W)) = .ok p' ∧ p'.getLast? = some e' ∧ ∃ g' ∈ cfgC.goal, A.isGoal g' e' = true ∧
      ∀ e, p.getLast? = some e → ∀ g ∈ cfgC.goal, A.isGoal g e = true → A.distTo g' e' ≤ A.distTo g e := by
  obtain ⟨f, p, t, h1, h2⟩ := search_empty_iff costOk prioLawful cfgC topRef_ok (fun _ _ _ => rfl) (fun _ => rfl)
  have hp : p ≠ [] := fun e => (h2.1 e) reachable
  have hl : Later (fun k => decide (t.expansions < k)) (fun _ => false) := fun _ h => by cases h
  have h3 := in_time (cfg := cfgC) (soon := fun k => decide (t.expansions < k)) (late := fun _ => false) hl h1
    (fun k hk => by simpa using hk)
  obtain ⟨e, he⟩ : ∃ e, p.getLast? = some e := by
    cases hq : p.getLast? with
    | none => exact absurd (List.getLast?_eq_none_iff.1 hq) hp
    | some e => exact ⟨e, rfl⟩
  obtain ⟨p', e', k1, k2, g', k3, k4, k5⟩ :=
    nearer_end (cfg := cfgC) costOk prioLawful Used.setMap topRef_ok rfl rfl (fun _ _ _ => rfl) hl h3 h1 he
  exact ⟨t.expansions, f, p, t, hp, hl, h3, h1, p', e', k1, k2, g', k3, k4, fun e2 he2 => by
    rw [he] at he2; cases he2; exact k5⟩

/-- `custom_path_found` applies. -/
example {f f' : Nat} {p r' t t'} (h : findPathCustom A P { cfg with abort := fun k => decide (100 < k) } rowTest (freshLabels A) f = some (.ok p, t))
    (h' : findPathCustom A P { cfg with abort := fun k => decide (200 < k) } rowTest (freshLabels A) f' = some (r', t')) (hp : p ≠ []) :
    ∃ p', r' = .ok p' ∧ p' ≠ [] :=
  custom_path_found costOk prioLawful Used.setMap topRef_ok rowTest (fun k h => by simp at h ⊢; omega) h h' hp

/-- A steering search: without a limit the path is found, every run with a limit returns it or nothing, and a limit of zero nothing. -/
theorem steering (b : Nat → Bool) {f r} (h : kFindPath KinEx.A KinEx.P { KinEx.cfg with abort := b } KinEx.kin0 f = some r) :
    r = .ok [0, 2, 5, 7] ∨ r = .ok [] :=
  steer_more_time KinEx.minTop_ok rfl (fun _ h => by cases h) h KinEx.run

example : kFindPath KinEx.A KinEx.P { KinEx.cfg with abort := fun _ => true } KinEx.kin0 1 = some (.ok []) := by rfl

end PathPlanning.TimeLimit.Ex
