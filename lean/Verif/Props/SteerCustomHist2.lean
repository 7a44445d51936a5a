import Verif.Props.SteerCustomHist

/-!
# C97: later searches with a goal test and the two steering neighbourhoods
-/

noncomputable section
namespace PathPlanning
open Spec

section
variable {clamp : ℝ → ℝ} {m : GridMap ℝ} {skips : Nat} {b : Bres ℝ} {S : SteerCfg}
  {O : OpenList (PadCell m.width m.height) ℝ} {cfg : SCfg (PadCell m.width m.height) ℝ} {start : Pose} {node : SNode}
  {T : KGoalTest (PadCell m.width m.height) SNode ℝ O}
  {lab : Labels (PadCell m.width m.height) ℝ} {old : PadCell m.width m.height → SNode}

theorem laterConfig_steer {B : Int} (h : ∀ n, abs (old n).steer ≤ B) (k : SNode) (hk : LaterConfig old node k) :
    abs k.steer ≤ B := by
  obtain ⟨n, _, _, _, _, _, e, _⟩ := hk
  rw [e]; exact h n

/-! ### `DynamicSteeringNeighborhood` -/

section
variable {P : DynP} {distThr angThr : ℝ}

/-- One step of a path. -/
theorem dyn_step_facts (hc : ClampSpec clamp) (hd : 0 ≤ P.distStep) (hr : 0 < P.resolution)
    (hst : 0 ≤ P.maxSteer ∧ P.maxSteer < 90) (hla : P.la ≠ 0) {x x' y : SNode} {c : ℝ} (hs : SameState clamp x' x)
    (h : RoadStep (DynAdv clamp P S.so) m skips x' c y) :
    abs (x.x - y.x) < P.stepLen + 1 ∧ abs (x.y - y.y) < P.stepLen + 1 ∧ LineOk m skips x' y ∧
      DrivesTo P.la P.resolution ((y.steer : ℝ) / 180 * Real.pi) (driveSign P.reversed y.forward)
        (if P.reversed = false ∧ x'.depth < 1 ∧ y.forward = false then P.la else P.distStep) x' y := by
  obtain ⟨f1, f2, f3⟩ := dynAdv_facts hc hst hla hd hr h
  obtain ⟨n1, n2⟩ := SameState.near hs
  obtain ⟨d1, d2⟩ := abs_le_nodeDist x' y
  refine ⟨?_, ?_, f3, f1⟩
  · have := abs_sub_le x.x x'.x y.x
    rw [abs_sub_comm x.x x'.x] at this
    linarith
  · have := abs_sub_le x.y x'.y y.y
    rw [abs_sub_comm x.y x'.y] at this
    linarith

theorem dyn_later_custom_ends (hc : ClampSpec clamp) (hd : 0 ≤ P.distStep) (hr : 0 < P.resolution) (hm : SteerMapOk m P.stepLen)
    (L : Lawful O) (ht : TopOk cfg.top) (h1 : IntPose start)
    (hu : PadUsed (dynSteerAlgo clamp P distThr angThr m skips b S) O lab old) :
    ∃ fuel r st, padFindTestOn clamp (dynSteerAlgo clamp P distThr angThr m skips b S) O cfg T P.reversed lab old start fuel =
        some (r, st) ∧ r ≠ .ub ∧ ∀ e, r = .throw e → (e = "OutsideMapException" ∨ e = "std::out_of_range") ∧
        (¬ InsidePad m.width m.height ⟨start.x, start.y, 0, true, 0, 0, 0⟩ ∨
          ∃ k c k', RoadFrom (DynAdv clamp P S.so) m skips (LaterStart old start start) k ∧
            RoadStep (DynAdv clamp P S.so) m skips k c k' ∧ OnEdge m.width m.height k') :=
  later_pad_custom_ends hc hm (dynMoves_stepBound hd hr) dyn_offers (dyn_costOk hm.res) L ht h1 hu

/-- **C97 (`DynamicSteeringNeighborhood`).**  What a path is that `findPath(from, goal_test)` returns after any history (for a reversed
neighbourhood: turned round). -/
theorem dyn_later_custom_path (hc : ClampSpec clamp) (hd : 0 ≤ P.distStep) (hr : 0 < P.resolution) (hm : SteerMapOk m P.stepLen)
    (hst : 0 ≤ P.maxSteer ∧ P.maxSteer < 90) (hla : P.la ≠ 0)
    (L : Lawful O) (ht : TopOk cfg.top) (h1 : IntPose start)
    (hu : PadUsed (dynSteerAlgo clamp P distThr angThr m skips b S) O lab old) {fuel : Nat} {q : List SNode} {st}
    (h : padFindTestOn clamp (dynSteerAlgo clamp P distThr angThr m skips b S) O cfg T P.reversed lab old start fuel =
      some (.ok q, st)) (hne : q ≠ []) :
    ∃ q0, q = (if P.reversed then q0.reverse else q0) ∧
    (∃ k0, q0.head? = some k0 ∧ LaterStart old start start k0 ∧ ⌊k0.x⌋ = ⌊start.x⌋ ∧ ⌊k0.y⌋ = ⌊start.y⌋) ∧
    (∀ k ∈ q0, RoadFrom (DynAdv clamp P S.so) m skips (LaterStart old start start) k ∧ abs k.steer ≤ P.maxSteer) ∧
    (∀ x y, [x, y] <:+: q0 → abs (x.x - y.x) < P.stepLen + 1 ∧ abs (x.y - y.y) < P.stepLen + 1 ∧
      ∃ x', SameState clamp x' x ∧ ([x, y] <+: q0 → x' = x) ∧
        RoadFrom (DynAdv clamp P S.so) m skips (LaterStart old start start) x' ∧ LineOk m skips x' y ∧
        DrivesTo P.la P.resolution ((y.steer : ℝ) / 180 * Real.pi) (driveSign P.reversed y.forward)
          (if P.reversed = false ∧ x'.depth < 1 ∧ y.forward = false then P.la else P.distStep) x' y) ∧
    q0.length ≤ (m.width + 63) * (m.height + 63) * 64 ∧
    (0 ≤ ⌊start.x⌋ ∧ 0 ≤ ⌊start.y⌋ → ptOccupied m ⌊start.x⌋ ⌊start.y⌋ = .ok false) ∧
    ∃ kl, q0.getLast? = some kl ∧ ∃ k w, SameState clamp k kl ∧
      RoadFrom (DynAdv clamp P S.so) m skips (LaterStart old start start) k ∧ PoseAccepted T k w := by
  have hsb := padUsed_steer hc hm (dynMoves_stepBound hd hr) dyn_offers (dyn_costOk hm.res) L hst.1 (dyn_adv_steer hst.1) hu
  obtain ⟨q0, hq, t1, t2, t3, t5, t6, t7⟩ :=
    later_pad_custom_path hc hm (dynMoves_stepBound hd hr) dyn_offers (dyn_costOk hm.res) L ht h1 hu h hne
  refine ⟨q0, hq, t1, fun k hk => ⟨t2 k hk, roadFrom_steer (dyn_adv_steer hst.1) (laterStart_steer hsb) (t2 k hk)⟩, ?_, t5, t6, t7⟩
  intro x y hxy
  obtain ⟨x', c, hs, hre, hst', hpre⟩ := t3 x y hxy
  obtain ⟨a1, a2, a3, a4⟩ := dyn_step_facts hc hd hr hst hla hs hst'
  exact ⟨a1, a2, x', hs, hpre, hre, a3, a4⟩

/-- **C97 (`DynamicSteeringNeighborhood`).**  The same for `findPathWithStartConfiguration`. -/
theorem dyn_later_config_path (hc : ClampSpec clamp) (hd : 0 ≤ P.distStep) (hr : 0 < P.resolution) (hm : SteerMapOk m P.stepLen)
    (hst : 0 ≤ P.maxSteer ∧ P.maxSteer < 90) (hla : P.la ≠ 0)
    (L : Lawful O) (ht : TopOk cfg.top) (h1 : IntPose ⟨node.x, node.y, node.theta⟩)
    (hu : PadUsed (dynSteerAlgo clamp P distThr angThr m skips b S) O lab old) {fuel : Nat} {q : List SNode} {st}
    (h : padFindConfigOn clamp (dynSteerAlgo clamp P distThr angThr m skips b S) O cfg T P.reversed lab old node fuel =
      some (.ok q, st)) (hne : q ≠ []) :
    ∃ q0, q = (if P.reversed then q0.reverse else q0) ∧
    (∃ k0, q0.head? = some k0 ∧ LaterConfig old node k0 ∧ ⌊k0.x⌋ = ⌊node.x⌋ ∧ ⌊k0.y⌋ = ⌊node.y⌋) ∧
    (∀ k ∈ q0, RoadFrom (DynAdv clamp P S.so) m skips (LaterConfig old node) k ∧ abs k.steer ≤ P.maxSteer) ∧
    (∀ x y, [x, y] <:+: q0 → abs (x.x - y.x) < P.stepLen + 1 ∧ abs (x.y - y.y) < P.stepLen + 1 ∧
      ∃ x', SameState clamp x' x ∧ ([x, y] <+: q0 → x' = x) ∧
        RoadFrom (DynAdv clamp P S.so) m skips (LaterConfig old node) x' ∧ LineOk m skips x' y ∧
        DrivesTo P.la P.resolution ((y.steer : ℝ) / 180 * Real.pi) (driveSign P.reversed y.forward)
          (if P.reversed = false ∧ x'.depth < 1 ∧ y.forward = false then P.la else P.distStep) x' y) ∧
    q0.length ≤ (m.width + 63) * (m.height + 63) * 64 ∧
    (0 ≤ ⌊node.x⌋ ∧ 0 ≤ ⌊node.y⌋ → ptOccupied m ⌊node.x⌋ ⌊node.y⌋ = .ok false) ∧
    ∃ kl, q0.getLast? = some kl ∧ ∃ k w, SameState clamp k kl ∧
      RoadFrom (DynAdv clamp P S.so) m skips (LaterConfig old node) k ∧ PoseAccepted T k w := by
  have hsb := padUsed_steer hc hm (dynMoves_stepBound hd hr) dyn_offers (dyn_costOk hm.res) L hst.1 (dyn_adv_steer hst.1) hu
  obtain ⟨q0, hq, t1, t2, t3, t5, t6, t7⟩ :=
    later_pad_config_path hc hm (dynMoves_stepBound hd hr) dyn_offers (dyn_costOk hm.res) L ht h1 hu h hne
  refine ⟨q0, hq, t1, fun k hk => ⟨t2 k hk, roadFrom_steer (dyn_adv_steer hst.1) (laterConfig_steer hsb) (t2 k hk)⟩, ?_, t5, t6, t7⟩
  intro x y hxy
  obtain ⟨x', c, hs, hre, hst', hpre⟩ := t3 x y hxy
  obtain ⟨a1, a2, a3, a4⟩ := dyn_step_facts hc hd hr hst hla hs hst'
  exact ⟨a1, a2, x', hs, hpre, hre, a3, a4⟩

end

/-! ### `SteeringNeighborhood` -/

section
variable {P : SteerP} {distance : Int} {garbage : Nat × Nat → Int}

theorem steer_step_facts (hc : ClampSpec clamp) (hd : 0 ≤ P.distStep) (hr : 0 < P.resolution)
    (hst : 0 ≤ P.maxSteer ∧ P.maxSteer < 90) (hla : P.la ≠ 0) {x x' y : SNode} {c : ℝ} (hs : SameState clamp x' x)
    (h : RoadStep (SteerAdv clamp P S.so) m skips x' c y) :
    abs (x.x - y.x) < P.distPx + 1 ∧ abs (x.y - y.y) < P.distPx + 1 ∧ (P.size = 3 → y.forward = true) ∧ LineOk m skips x' y ∧
      DrivesTo P.la P.resolution ((y.steer : ℝ) / 180 * Real.pi) (driveSign P.reversed y.forward) P.distStep x' y := by
  obtain ⟨f1, f2, f3, f4⟩ := steerAdv_facts hc hst hla hd hr h
  obtain ⟨n1, n2⟩ := SameState.near hs
  obtain ⟨d1, d2⟩ := abs_le_nodeDist x' y
  refine ⟨?_, ?_, f4, f3, f1⟩
  · have := abs_sub_le x.x x'.x y.x
    rw [abs_sub_comm x.x x'.x] at this
    linarith
  · have := abs_sub_le x.y x'.y y.y
    rw [abs_sub_comm x.y x'.y] at this
    linarith

theorem steer_later_custom_ends (hc : ClampSpec clamp) (hd : 0 ≤ P.distStep) (hr : 0 < P.resolution) (hm : SteerMapOk m P.distPx)
    (L : Lawful O) (ht : TopOk cfg.top) (h1 : IntPose start)
    (hu : PadUsed (steerAlgo clamp P distance garbage m skips b S) O lab old) :
    ∃ fuel r st, padFindTestOn clamp (steerAlgo clamp P distance garbage m skips b S) O cfg T P.reversed lab old start fuel =
        some (r, st) ∧ r ≠ .ub ∧ ∀ e, r = .throw e → (e = "OutsideMapException" ∨ e = "std::out_of_range") ∧
        (¬ InsidePad m.width m.height ⟨start.x, start.y, 0, true, 0, 0, 0⟩ ∨
          ∃ k c k', RoadFrom (SteerAdv clamp P S.so) m skips (LaterStart old start start) k ∧
            RoadStep (SteerAdv clamp P S.so) m skips k c k' ∧ OnEdge m.width m.height k') :=
  later_pad_custom_ends hc hm (steerMoves_stepBound hd hr) steer_offers (steer_costOk hm.res) L ht h1 hu

/-- **C97 (`SteeringNeighborhood`).** -/
theorem steer_later_custom_path (hc : ClampSpec clamp) (hd : 0 ≤ P.distStep) (hr : 0 < P.resolution) (hm : SteerMapOk m P.distPx)
    (hst : 0 ≤ P.maxSteer ∧ P.maxSteer < 90) (hla : P.la ≠ 0)
    (L : Lawful O) (ht : TopOk cfg.top) (h1 : IntPose start)
    (hu : PadUsed (steerAlgo clamp P distance garbage m skips b S) O lab old) {fuel : Nat} {q : List SNode} {st}
    (h : padFindTestOn clamp (steerAlgo clamp P distance garbage m skips b S) O cfg T P.reversed lab old start fuel =
      some (.ok q, st)) (hne : q ≠ []) :
    ∃ q0, q = (if P.reversed then q0.reverse else q0) ∧
    (∃ k0, q0.head? = some k0 ∧ LaterStart old start start k0 ∧ ⌊k0.x⌋ = ⌊start.x⌋ ∧ ⌊k0.y⌋ = ⌊start.y⌋) ∧
    (∀ k ∈ q0, RoadFrom (SteerAdv clamp P S.so) m skips (LaterStart old start start) k ∧ abs k.steer ≤ P.maxSteer) ∧
    (∀ x y, [x, y] <:+: q0 → abs (x.x - y.x) < P.distPx + 1 ∧ abs (x.y - y.y) < P.distPx + 1 ∧
      (P.size = 3 → y.forward = true) ∧
      ∃ x', SameState clamp x' x ∧ ([x, y] <+: q0 → x' = x) ∧
        RoadFrom (SteerAdv clamp P S.so) m skips (LaterStart old start start) x' ∧ LineOk m skips x' y ∧
        DrivesTo P.la P.resolution ((y.steer : ℝ) / 180 * Real.pi) (driveSign P.reversed y.forward) P.distStep x' y) ∧
    q0.length ≤ (m.width + 63) * (m.height + 63) * 64 ∧
    (0 ≤ ⌊start.x⌋ ∧ 0 ≤ ⌊start.y⌋ → ptOccupied m ⌊start.x⌋ ⌊start.y⌋ = .ok false) ∧
    ∃ kl, q0.getLast? = some kl ∧ ∃ k w, SameState clamp k kl ∧
      RoadFrom (SteerAdv clamp P S.so) m skips (LaterStart old start start) k ∧ PoseAccepted T k w := by
  have hsb := padUsed_steer hc hm (steerMoves_stepBound hd hr) steer_offers (steer_costOk hm.res) L hst.1 (steer_adv_steer hst.1) hu
  obtain ⟨q0, hq, t1, t2, t3, t5, t6, t7⟩ :=
    later_pad_custom_path hc hm (steerMoves_stepBound hd hr) steer_offers (steer_costOk hm.res) L ht h1 hu h hne
  refine ⟨q0, hq, t1, fun k hk => ⟨t2 k hk, roadFrom_steer (steer_adv_steer hst.1) (laterStart_steer hsb) (t2 k hk)⟩, ?_, t5, t6, t7⟩
  intro x y hxy
  obtain ⟨x', c, hs, hre, hst', hpre⟩ := t3 x y hxy
  obtain ⟨a1, a2, a5, a3, a4⟩ := steer_step_facts hc hd hr hst hla hs hst'
  exact ⟨a1, a2, a5, x', hs, hpre, hre, a3, a4⟩

/-- **C97 (`SteeringNeighborhood`).**  The same for `findPathWithStartConfiguration`. -/
theorem steer_later_config_path (hc : ClampSpec clamp) (hd : 0 ≤ P.distStep) (hr : 0 < P.resolution) (hm : SteerMapOk m P.distPx)
    (hst : 0 ≤ P.maxSteer ∧ P.maxSteer < 90) (hla : P.la ≠ 0)
    (L : Lawful O) (ht : TopOk cfg.top) (h1 : IntPose ⟨node.x, node.y, node.theta⟩)
    (hu : PadUsed (steerAlgo clamp P distance garbage m skips b S) O lab old) {fuel : Nat} {q : List SNode} {st}
    (h : padFindConfigOn clamp (steerAlgo clamp P distance garbage m skips b S) O cfg T P.reversed lab old node fuel =
      some (.ok q, st)) (hne : q ≠ []) :
    ∃ q0, q = (if P.reversed then q0.reverse else q0) ∧
    (∃ k0, q0.head? = some k0 ∧ LaterConfig old node k0 ∧ ⌊k0.x⌋ = ⌊node.x⌋ ∧ ⌊k0.y⌋ = ⌊node.y⌋) ∧
    (∀ k ∈ q0, RoadFrom (SteerAdv clamp P S.so) m skips (LaterConfig old node) k ∧ abs k.steer ≤ P.maxSteer) ∧
    (∀ x y, [x, y] <:+: q0 → abs (x.x - y.x) < P.distPx + 1 ∧ abs (x.y - y.y) < P.distPx + 1 ∧
      (P.size = 3 → y.forward = true) ∧
      ∃ x', SameState clamp x' x ∧ ([x, y] <+: q0 → x' = x) ∧
        RoadFrom (SteerAdv clamp P S.so) m skips (LaterConfig old node) x' ∧ LineOk m skips x' y ∧
        DrivesTo P.la P.resolution ((y.steer : ℝ) / 180 * Real.pi) (driveSign P.reversed y.forward) P.distStep x' y) ∧
    q0.length ≤ (m.width + 63) * (m.height + 63) * 64 ∧
    (0 ≤ ⌊node.x⌋ ∧ 0 ≤ ⌊node.y⌋ → ptOccupied m ⌊node.x⌋ ⌊node.y⌋ = .ok false) ∧
    ∃ kl, q0.getLast? = some kl ∧ ∃ k w, SameState clamp k kl ∧
      RoadFrom (SteerAdv clamp P S.so) m skips (LaterConfig old node) k ∧ PoseAccepted T k w := by
  have hsb := padUsed_steer hc hm (steerMoves_stepBound hd hr) steer_offers (steer_costOk hm.res) L hst.1 (steer_adv_steer hst.1) hu
  obtain ⟨q0, hq, t1, t2, t3, t5, t6, t7⟩ :=
    later_pad_config_path hc hm (steerMoves_stepBound hd hr) steer_offers (steer_costOk hm.res) L ht h1 hu h hne
  refine ⟨q0, hq, t1, fun k hk => ⟨t2 k hk, roadFrom_steer (steer_adv_steer hst.1) (laterConfig_steer hsb) (t2 k hk)⟩, ?_, t5, t6, t7⟩
  intro x y hxy
  obtain ⟨x', c, hs, hre, hst', hpre⟩ := t3 x y hxy
  obtain ⟨a1, a2, a5, a3, a4⟩ := steer_step_facts hc hd hr hst hla hs hst'
  exact ⟨a1, a2, a5, x', hs, hpre, hre, a3, a4⟩

end
end

/-! ### A concrete case -/

namespace SteerEx

/-- A goal test that accepts everything. -/
def anywhere {m : GridMap ℝ} (O : OpenList (PadCell m.width m.height) ℝ) : KGoalTest (PadCell m.width m.height) SNode ℝ O where
  terminate _ _ := (some 0, true)
  heurGoal := none

/-- After the search of `example_used` a search from a configuration with a goal test returns a path, whose first pose has depth 0
and heading 0. -/
theorem example_later_custom {clamp : ℝ → ℝ} (hc : ClampSpec clamp) :
    ∃ lab old, PadUsed (dynSteerAlgo clamp P (1 / 10) (1 / 10) map 0 bres S) PriorityManager lab old ∧
      ∃ q st, padFindConfigOn clamp (dynSteerAlgo clamp P (1 / 10) (1 / 10) map 0 bres S) PriorityManager cfg
        (anywhere PriorityManager) P.reversed lab old ⟨1, 0, 0, false, 7, 8, 9⟩ 1 = some (.ok q, st) ∧
        ∃ k0, q.head? = some k0 ∧ k0.depth = 0 ∧ k0.theta = 0 ∧ ⌊k0.x⌋ = 1 ∧ ⌊k0.y⌋ = 0 := by
  obtain ⟨_, _, st, _, _, hu⟩ := example_used hc
  refine ⟨_, _, hu, ?_⟩
  have hd : 0 ≤ P.distStep := by norm_num [P]
  have hr : 0 < P.resolution := by norm_num [P]
  have i1 : IntPose ⟨1, 0, 0⟩ := by norm_num [IntPose]
  obtain ⟨⟨Ss, hku⟩, hi⟩ := padUsed_spec hc map_ok (dyn_costOk map_ok.res) prioLawful hu
  rcases padStartOn_cases (old := st.kin) hc map_ok i1 with ⟨sp, s, e1, hp, hmem⟩ | ⟨e, he, h3, h4⟩
  swap
  · exact absurd (by norm_num [InsidePad, map]) h4
  obtain ⟨n, hn, c1, c2, c3, _⟩ := mem_poseCells hp true
  have hns : n ∈ s := by
    refine (hmem n).2 ⟨hn, free _ _⟩
  obtain ⟨p, st', h5, h6⟩ := later_custom_now (A := dynSteerAlgo clamp P (1 / 10) (1 / 10) map 0 bres S)
    (T := anywhere PriorityManager) (cfg := { cfg with start := s })
    (kin0 := padNodeOn st.kin sp s ⟨1, 0, 0, false, 7, 8, 9⟩)
    prioLawful SearchEx.topRef_ok hku (fun _ => rfl) (List.ne_nil_of_mem hns) fun st n => ⟨0, rfl⟩
  have hrun : padFindConfigOn clamp (dynSteerAlgo clamp P (1 / 10) (1 / 10) map 0 bres S) PriorityManager cfg
      (anywhere PriorityManager) P.reversed st.s.lab st.kin ⟨1, 0, 0, false, 7, 8, 9⟩ 1 =
        some (.ok (p.map st'.kin), some st') := by
    unfold padFindConfigOn
    rw [e1]
    simp only [padRunTestOn]
    rw [h5]
    rfl
  refine ⟨_, _, hrun, ?_⟩
  obtain ⟨q0, hq, ⟨k0, hk, hk2, hk3, hk4⟩, _⟩ := dyn_later_config_path hc hd hr map_ok (by norm_num [P]) (by norm_num [P])
    prioLawful SearchEx.topRef_ok i1 hu hrun (by simpa using h6)
  have hq : p.map st'.kin = q0 := hq
  obtain ⟨_, _, _, _, _, _, _, _, g1, _, g2⟩ := hk2
  refine ⟨k0, by rw [hq]; exact hk, g1, g2, by rw [hk3]; norm_num, by rw [hk4]; norm_num⟩

end SteerEx
end PathPlanning
