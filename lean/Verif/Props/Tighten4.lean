import Verif.Model.Ownership
import Verif.Props.ChunkManager
import Verif.Props.Statics

/-!
# More theorems tightened after surviving mutations (C89, C93)
-/

namespace PathPlanning
namespace Own

/-- After `setMap(w, h)` the chunk table of the ownership model has the size the lookup (modelled in `Model/Managers.lean`)
computes its indices for. -/
theorem chunkCount_table (w h : Nat) : chunkCount w h = (DMgr.setMap w h).chunks.length := by
  simp [chunkCount, DMgr.setMap]

/-- After `setMap(w, h)` a lookup of any cell of the map, or of its margin up to 31 cells, finds a place in the table and
succeeds: no `std::out_of_range`. -/
theorem setMapDyn_slot {w h : Nat} (hs : w + 64 < 2 ^ 31 ∧ h + 64 < 2 ^ 31) {s s' : St} {i : Nat}
    (hrun : step s (.setMapDyn i w h) = .ok s') {chunks : List (Option (Nat × Nat))} (hd : ∃ cs, s.obj i = some (.dyn cs))
    (ho : s'.obj i = some (.dyn chunks))
    {x y : Int} (hx : -31 ≤ x) (hx2 : x < w + 32) (hy : -31 ≤ y) (hy2 : y < h + 32) (H : Heap) {k : Nat}
    (hk : k < 2 * (32 * 32 * 32)) : ∃ r, dynLookup H chunks ((DMgr.setMap w h).slot x y) k = .ok r := by
  have hl := (DMgr.slot_eq hs (DMgr.inv_setMap w h) hx hx2 hy hy2).2.2
  rw [← chunkCount_table] at hl
  obtain ⟨cs, hcs⟩ := hd
  have : chunks = List.replicate (chunkCount w h) none := by
    simp only [step, hcs] at hrun
    cases hc : clearChunks s.heap cs with
    | throw e => rw [hc] at hrun; cases hrun
    | ub => rw [hc] at hrun; cases hrun
    | ok H' =>
      rw [hc] at hrun
      cases hrun
      simpa [St.set] using ho.symm
  rw [this]
  unfold dynLookup
  rw [List.getElem?_replicate, if_pos hl]
  simp [chunkNew, Heap.alloc, Heap.deref, Heap.elem, hk]

end Own

open Spec

theorem dynAdvance_forward {clamp : ℝ → ℝ} {P : DynP} {so : SOpts} {k k' : SNode} {i step : Nat} {c : ℝ}
    (h : dynAdvance clamp P so k i step = some (c, k')) (hi : i < 3) : k'.forward = true := by
  unfold dynAdvance at h
  simp only at h
  split_ifs at h <;> first | omega | skip
  all_goals
    split at h
    · cases h
    · try split_ifs at h
      all_goals
        first
          | (cases h; done)
          | (simp only [Option.some.injEq, Prod.mk.injEq] at h
             obtain ⟨_, rfl⟩ := h
             simp [hi])

/-- The vehicle of a program that only calls `setMap`: wheel base 1.2 m, at most 60 degrees in steps of 15, forward only, 0.4 m
per step. -/
noncomputable def defaultVehicle (res : ℝ) : DynP := ⟨4 / 10, res, 12 / 10, 60, 15, 2, false, true, false⟩

/-- **C93.**  A program that changes no parameter: all steps of a path are 0.4 m of a vehicle with wheel base 1.2 m, forward,
with at most 60 degrees; the end is within 5 cm and 22.5 degrees of the pose the goal test compares with. -/
theorem default_path {clamp : ℝ → ℝ} (hc : ClampSpec clamp) {i : Nat} {m : GridMap ℝ} (hr : 0 < m.res)
    (hm : SteerMapOk m (defaultVehicle m.res).stepLen) {skips : Nat} {b : Bres ℝ} {S : SteerCfg}
    {O : OpenList (PadCell m.width m.height) ℝ} {cfg : SCfg (PadCell m.width m.height) ℝ} (L : Lawful O) (ht : TopOk cfg.top)
    {start goal : Pose} (h1 : IntPose start) (h2 : IntPose goal) {fuel : Nat} {q : List SNode}
    (h : padFindPath clamp (dynAlgoS clamp (StatSt.run [.setMap i m]).stat m skips b S) O cfg start goal fuel = some (.ok q))
    (hne : q ≠ []) :
    (∃ k0, q.head? = some k0 ∧ StartPose start goal k0) ∧ (∀ k ∈ q, abs k.steer ≤ 60) ∧
    (∀ x y, [x, y] <:+: q → ∃ x', SameState clamp x' x ∧ ([x, y] <+: q → x' = x) ∧ y.forward = true ∧
      DrivesTo (12 / 10) m.res ((y.steer : ℝ) / 180 * Real.pi) 1 (4 / 10) x' y) ∧
    ∃ kl, q.getLast? = some kl ∧ ∃ k kg, SameState clamp k kl ∧ (cfg.useCands = false → k = kl) ∧
      GoalPose clamp (DynAdv clamp (defaultVehicle m.res) S.so) m skips start goal kg ∧
      (∃ z : Int, abs (kg.theta - k.theta + z * (2 * Real.pi)) ≤ Real.pi / 8) ∧ nodeDist kg k * m.res < 5 / 100 := by
  have e : dynAlgoS clamp (StatSt.run [.setMap i m]).stat m skips b S =
      dynSteerAlgo clamp (defaultVehicle m.res) (5 / 100) (Real.pi / 8) m skips b S := by
    have := undisturbed (clamp := clamp) [] [] i i m m (fun _ _ h => by simp at h) (by simp [mapOf]) rfl
      (by simp [stepNow]) skips b S
    rw [List.nil_append] at this
    rw [this]
    have e2 : Real.pi / 8 = (paramsNow [StatOp.setMap i m]).angThr := by
      simp [paramsNow, DynStat.initial]
    rw [e2]
    congr 1 <;> simp [ownP, stepNow, paramsNow, DynStat.initial, defaultVehicle]
  rw [e] at h
  obtain ⟨t1, t2, t3, t4, kl, t5, k, kg, t6, t7, t8, t9, t10⟩ := dyn_path hc (by norm_num [defaultVehicle]) hr hm
    (by norm_num [defaultVehicle]) (by norm_num [defaultVehicle]) L ht h1 h2 h hne
  refine ⟨t1, fun k hk => (t2 k hk).2, fun x y hxy => ?_, kl, t5, k, kg, t6, t7, t9, t10⟩
  obtain ⟨_, _, x', u1, u2, u3, u4, u5⟩ := t3 x y hxy
  have hf : y.forward = true := by
    obtain ⟨_, _, g3, _⟩ := pad_path hc hm (dynMoves_stepBound (by norm_num [defaultVehicle]) hr) dyn_offers
      (dyn_costOk hm.res) L ht h1 h2 h hne
    obtain ⟨_, c, _, _, ⟨⟨j, step, _, _, h3, _, ea, _⟩, _⟩⟩ := g3 x y hxy
    exact dynAdvance_forward ea (h3 rfl)
  refine ⟨x', u1, u2, hf, ?_⟩
  rw [hf] at u5
  simpa [defaultVehicle, driveSign] using u5

end PathPlanning
