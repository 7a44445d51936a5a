import Verif.Props.SteerDuringExact
import Verif.Props.SteerSearch3

/-!
# Steering searches on a grid map that changes: the hypotheses of C120 are met
-/

namespace PathPlanning
open Spec

/-- A search as in `dyn_path` that returns a path. -/
theorem KDur.example_path {clamp : ℝ → ℝ} (hc : ClampSpec clamp) :
    ∃ fuel q E, padFindPathDuring clamp (dynSteerAlgo clamp SteerEx.P (1 / 10) (1 / 10) SteerEx.map 0 SteerEx.bres SteerEx.S) 0
      SteerEx.bres (fun _ => SteerEx.map.data) PriorityManager SteerEx.cfg ⟨0, 0, 0⟩ ⟨3, 0, Real.pi⟩ fuel = some (.ok q, E) ∧
      q ≠ [] := by
  obtain ⟨fuel, q, h, hq, _⟩ := SteerEx.example_path hc
  have hu := KDur.pad_unchanged (clamp := clamp) (m := SteerEx.map) (datas := fun _ => SteerEx.map.data) (fun _ => rfl)
    (skips := 0) (b := SteerEx.bres) (S := SteerEx.S) (mvs := dynMoves clamp SteerEx.P SteerEx.S.so SteerEx.map.res) (pd := 0)
    (isg := fun g k _ => dynIsGoal SteerEx.P.resolution (1 / 10) (1 / 10) g k) (O := PriorityManager) (cfg := SteerEx.cfg)
    (start := ⟨0, 0, 0⟩) (goal := ⟨3, 0, Real.pi⟩) (fuel := fuel)
  replace hu := hu.trans h
  rw [Option.map_eq_some_iff] at hu
  obtain ⟨⟨r, E⟩, h1, h2⟩ := hu
  cases h2
  exact ⟨fuel, q, E, h1, hq⟩

/-- All hypotheses of `KDur.dyn_path` hold for it. -/
example {clamp : ℝ → ℝ} (hc : ClampSpec clamp) : True := by
  obtain ⟨fuel, q, E, h, hq⟩ := KDur.example_path hc
  have := KDur.dyn_path hc (by norm_num [SteerEx.P]) (by norm_num [SteerEx.P]) SteerEx.map_ok
    (fun _ => by simp [SteerEx.map]) ⟨by norm_num [SteerEx.P], by norm_num [SteerEx.P]⟩ (by norm_num [SteerEx.P]) prioLawful
    SearchEx.topRef_ok (by norm_num [IntPose]) (by norm_num [IntPose]) h hq
  trivial

/-- All hypotheses of `KDur.dyn_exact_blocking` hold for it. -/
example {clamp : ℝ → ℝ} (hc : ClampSpec clamp) : True := by
  obtain ⟨fuel, q, E, h, hq⟩ := KDur.example_path hc
  have := KDur.dyn_exact_blocking (datas := fun _ => SteerEx.map.data) hc (by norm_num [SteerEx.P]) (by norm_num [SteerEx.P]) SteerEx.map_ok
    (fun _ => by simp [SteerEx.map]) ⟨by norm_num [SteerEx.P], by norm_num [SteerEx.P]⟩ (by norm_num [SteerEx.P]) prioLawful
    prioMin SearchEx.topRef_ok (fun _ _ => rfl) rfl rfl (fun _ _ _ _ _ h => h) (by norm_num [IntPose]) (by norm_num [IntPose]) h
  trivial

end PathPlanning
