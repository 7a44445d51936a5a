import Verif.Props.SteerHistory
import Verif.Props.SteerSearch3

/-!
# Later searches with the two steering neighbourhoods (C92)
-/

noncomputable section
namespace PathPlanning
open Spec

section
variable {clamp : ℝ → ℝ} {m : GridMap ℝ} {skips : Nat} {b : Bres ℝ} {S : SteerCfg}
  {O : OpenList (PadCell m.width m.height) ℝ} {cfg : SCfg (PadCell m.width m.height) ℝ}
  {start goal : Pose} {lab : Labels (PadCell m.width m.height) ℝ} {old : PadCell m.width m.height → SNode}

theorem notOccupiedOn_init : ∀ ns : List (PadCell m.width m.height),
    notOccupiedOn m initContent ns = notOccupied m ns := by
  intro ns
  induction ns with
  | nil => rfl
  | cons n ns ih =>
    rw [notOccupiedOn, notOccupied, ih]
    have e : ∀ z : Int, truncC ((z : ℝ)) = z := by intro z; unfold truncC; split <;> simp
    simp only [initContent, e]

/-- After `setMap` this is the search of `Model/SteerSearch.lean`. -/
theorem padFindOn_fresh (A : KAlgo (PadCell m.width m.height) SNode ℝ) (fuel : Nat) :
    (padFindOn clamp A O cfg (fun _ => Label.fresh A.zero) initContent start goal fuel).map Prod.fst =
      padFindPath clamp A O cfg start goal fuel := by
  have e : padInitOn clamp m initContent start goal = padInit clamp m start goal := by
    unfold padInitOn padInit
    simp only [notOccupiedOn_init]
  unfold padFindOn padFindPath
  rw [e]
  cases padInit clamp m start goal with
  | throw e => rfl
  | ub => rfl
  | ok x =>
    obtain ⟨sp, s, gp, g⟩ := x
    simp only
    have hcon : padContentOn initContent sp s gp g start goal = padContent sp s gp g start goal := by
      funext n
      simp [padContentOn, padContent, initContent]
    rw [hcon, kFindOn_fresh]
    simp only [Option.map_map]
    congr 1
    funext x
    obtain ⟨r, st⟩ := x
    cases r <;> rfl

/-- Bounded steering angles in stored poses. -/
theorem roadFrom_steer {adv : SNode → ℝ → SNode → Prop} {Start : SNode → Prop} {B : Int}
    (ha : ∀ k c k', adv k c k' → abs k'.steer ≤ B) (h0 : ∀ k, Start k → abs k.steer ≤ B) {k : SNode}
    (h : RoadFrom adv m skips Start k) : abs k.steer ≤ B := by
  cases h with
  | start h => exact h0 k h
  | step _ hs _ => exact ha _ _ _ hs.1

/-- The steering angles stored after any history are those of the neighbourhood. -/
theorem padUsed_steer {pd : Nat} {mvs : List (SNode → List SNode → Option (ℝ × SNode))}
    {isg : SNode → SNode → Option SNode → Bool} {D : ℝ} {adv : SNode → ℝ → SNode → Prop} {cs : List ℝ} {B : Int}
    (hc : ClampSpec clamp) (hm : SteerMapOk m D) (hs : StepBound mvs D) (ho : Offers mvs adv m.res)
    (ok : KCostOk (padAlgo clamp m skips b S mvs pd isg) cs) (L : Lawful O) (hB : 0 ≤ B)
    (ha : ∀ k c k', adv k c k' → abs k'.steer ≤ B)
    (h : PadUsed (padAlgo clamp m skips b S mvs pd isg) O lab old) : ∀ n, abs (old n).steer ≤ B := by
  induction h with
  | setMap => intro n; simpa [initContent] using hB
  | @left lab old kin cfg pc st A' hprev hw h0 hadd hmv hl hd ih =>
    obtain ⟨⟨Ss, hu⟩, hi⟩ := padUsed_spec hc hm ok L hprev
    have ok' : KCostOk A' cs := ok.other hadd hmv
    have hh : KHist A' cs (cfg.start ++ Ss) lab := fun l k =>
      (KHist.other h0 hadd (KUsed_hist L hu) l k).mono fun s hs => List.mem_append_right _ hs
    have hmid := (during_mid ok' L hh (fun s hs => List.mem_append_left _ hs) hd).1
    have hk : ∀ n, abs (kin n).steer ≤ B := fun n => by rw [(hw n).2.2]; exact ih n
    intro n
    by_cases hns : n ∈ cfg.start
    · rw [hmid.startKin n hns]; exact hk n
    · by_cases hT : Touched cfg.start lab st.s.lab n
      · have hr := (hmid.stored n hns hT).2
        generalize st.kin n = kn at hr
        cases hr with
        | start hs' => exact hk _
        | @step k c _ _ _ hstep _ =>
          obtain ⟨mv, hmv', ps, e1, e2⟩ := hstep
          rw [hmv] at hmv'
          obtain ⟨c0, h1, _⟩ := ho _ _ _ ⟨mv, hmv', ps, e1⟩
          exact ha _ _ _ h1
      · rw [hmid.newKin n hT]; exact hk n

theorem laterStart_steer {B : Int} (h : ∀ n, abs (old n).steer ≤ B) (k : SNode) (hk : LaterStart old start goal k) :
    abs k.steer ≤ B := by
  obtain ⟨n, _, _, _, _, _, e, _⟩ := hk
  rw [e]; exact h n

/-! ### `DynamicSteeringNeighborhood` -/

section
variable {P : DynP} {distThr angThr : ℝ}

theorem dyn_adv_steer (hst : 0 ≤ P.maxSteer) (k : SNode) (c : ℝ) (k' : SNode) (h : DynAdv clamp P S.so k c k') :
    abs k'.steer ≤ P.maxSteer := by
  obtain ⟨i, step, _, _, _, _, e, _⟩ := h
  exact dynAdvance_steer_bounded hst e

/-- **C92 (`DynamicSteeringNeighborhood`).**  Every later search ends without undefined behaviour. -/
theorem dyn_later_ends (hc : ClampSpec clamp) (hd : 0 ≤ P.distStep) (hr : 0 < P.resolution) (hm : SteerMapOk m P.stepLen)
    (L : Lawful O) (ht : TopOk cfg.top) (h1 : IntPose start) (h2 : IntPose goal)
    (hu : PadUsed (dynSteerAlgo clamp P distThr angThr m skips b S) O lab old) :
    ∃ fuel r st, padFindOn clamp (dynSteerAlgo clamp P distThr angThr m skips b S) O cfg lab old start goal fuel = some (r, st) ∧
      r ≠ .ub ∧ ∀ e, r = .throw e → (e = "OutsideMapException" ∨ e = "std::out_of_range") ∧
        (¬ InsidePad m.width m.height ⟨start.x, start.y, 0, true, 0, 0, 0⟩ ∨
          ¬ InsidePad m.width m.height ⟨goal.x, goal.y, 0, true, 0, 0, 0⟩ ∨
          ∃ k c k', RoadFrom (DynAdv clamp P S.so) m skips (LaterStart old start goal) k ∧
            RoadStep (DynAdv clamp P S.so) m skips k c k' ∧ OnEdge m.width m.height k') :=
  later_pad_ends hc hm (dynMoves_stepBound hd hr) dyn_offers (dyn_costOk hm.res) L ht h1 h2 hu

/-- **C92 (`DynamicSteeringNeighborhood`).**  What a path is that is found after any history of searches. -/
theorem dyn_later_path (hc : ClampSpec clamp) (hd : 0 ≤ P.distStep) (hr : 0 < P.resolution) (hm : SteerMapOk m P.stepLen)
    (hst : 0 ≤ P.maxSteer ∧ P.maxSteer < 90) (hla : P.la ≠ 0)
    (L : Lawful O) (ht : TopOk cfg.top) (h1 : IntPose start) (h2 : IntPose goal)
    (hu : PadUsed (dynSteerAlgo clamp P distThr angThr m skips b S) O lab old) {fuel : Nat} {q : List SNode} {st}
    (h : padFindOn clamp (dynSteerAlgo clamp P distThr angThr m skips b S) O cfg lab old start goal fuel = some (.ok q, st))
    (hne : q ≠ []) :
    (∃ k0, q.head? = some k0 ∧ LaterStart old start goal k0 ∧ ⌊k0.x⌋ = ⌊start.x⌋ ∧ ⌊k0.y⌋ = ⌊start.y⌋) ∧
    (∀ k ∈ q, RoadFrom (DynAdv clamp P S.so) m skips (LaterStart old start goal) k ∧ abs k.steer ≤ P.maxSteer) ∧
    (∀ x y, [x, y] <:+: q → abs (x.x - y.x) < P.stepLen + 1 ∧ abs (x.y - y.y) < P.stepLen + 1 ∧
      ∃ x', SameState clamp x' x ∧ ([x, y] <+: q → x' = x) ∧
        RoadFrom (DynAdv clamp P S.so) m skips (LaterStart old start goal) x' ∧ LineOk m skips x' y ∧
        DrivesTo P.la P.resolution ((y.steer : ℝ) / 180 * Real.pi) (driveSign P.reversed y.forward)
          (if P.reversed = false ∧ x'.depth < 1 ∧ y.forward = false then P.la else P.distStep) x' y) ∧
    q.length ≤ (m.width + 63) * (m.height + 63) * 64 ∧
    ∃ kl, q.getLast? = some kl ∧ ∃ k kg, SameState clamp k kl ∧ (cfg.useCands = false → k = kl) ∧
      RoadFrom (DynAdv clamp P S.so) m skips (LaterStart old start goal) k ∧
      LaterGoal clamp (DynAdv clamp P S.so) m skips (LaterStart old start goal) goal kg ∧
      (∃ z : Int, abs (kg.theta - k.theta + z * (2 * Real.pi)) ≤ angThr) ∧ nodeDist kg k * P.resolution < distThr := by
  have hsb := padUsed_steer hc hm (dynMoves_stepBound hd hr) dyn_offers (dyn_costOk hm.res) L hst.1 (dyn_adv_steer hst.1) hu
  obtain ⟨t1, t2, t3, t4, t5, kl, t6, k, kg, pv, t7, t8, t9, t10, t11⟩ :=
    later_pad_path hc hm (dynMoves_stepBound hd hr) dyn_offers (dyn_costOk hm.res) L ht h1 h2 hu h hne
  refine ⟨t1, fun k hk => ⟨t2 k hk, roadFrom_steer (dyn_adv_steer hst.1) (laterStart_steer hsb) (t2 k hk)⟩, ?_, t5, kl, t6, k, kg,
    t7, t8, t9, t11, (dynIsGoal_iff _ _ _ _ _).1 t10⟩
  intro x y hxy
  obtain ⟨x', c, hs, hre, hst'⟩ : ∃ x' c, SameState clamp x' x ∧
      RoadFrom (DynAdv clamp P S.so) m skips (LaterStart old start goal) x' ∧
      RoadStep (DynAdv clamp P S.so) m skips x' c y ∧ ([x, y] <+: q → x' = x) := by
    by_cases hp : [x, y] <+: q
    · obtain ⟨c, hc'⟩ := t4 x y hp
      exact ⟨x, c, ⟨rfl, rfl, rfl, rfl⟩, t2 x (hxy.subset (by simp)), hc', fun _ => rfl⟩
    · obtain ⟨x', c, e1, e2, e3⟩ := t3 x y hxy
      exact ⟨x', c, e1, e2, e3, fun e => absurd e hp⟩
  obtain ⟨f1, f2, f3⟩ := dynAdv_facts hc hst hla hd hr hst'.1
  obtain ⟨n1, n2⟩ := SameState.near hs
  obtain ⟨d1, d2⟩ := abs_le_nodeDist x' y
  refine ⟨?_, ?_, x', hs, hst'.2, hre, f3, f1⟩
  · have := abs_sub_le x.x x'.x y.x
    rw [abs_sub_comm x.x x'.x] at this
    linarith
  · have := abs_sub_le x.y x'.y y.y
    rw [abs_sub_comm x.y x'.y] at this
    linarith

end

/-! ### `SteeringNeighborhood` -/

section
variable {P : SteerP} {distance : Int} {garbage : Nat × Nat → Int}

theorem steer_adv_steer (hst : 0 ≤ P.maxSteer) (k : SNode) (c : ℝ) (k' : SNode) (h : SteerAdv clamp P S.so k c k') :
    abs k'.steer ≤ P.maxSteer := by
  obtain ⟨i, step, g, ps, _, _, e, _⟩ := h
  exact advance_steer_bounded hst e

/-- **C92 (`SteeringNeighborhood`).**  Every later search ends without undefined behaviour. -/
theorem steer_later_ends (hc : ClampSpec clamp) (hd : 0 ≤ P.distStep) (hr : 0 < P.resolution) (hm : SteerMapOk m P.distPx)
    (L : Lawful O) (ht : TopOk cfg.top) (h1 : IntPose start) (h2 : IntPose goal)
    (hu : PadUsed (steerAlgo clamp P distance garbage m skips b S) O lab old) :
    ∃ fuel r st, padFindOn clamp (steerAlgo clamp P distance garbage m skips b S) O cfg lab old start goal fuel = some (r, st) ∧
      r ≠ .ub ∧ ∀ e, r = .throw e → (e = "OutsideMapException" ∨ e = "std::out_of_range") ∧
        (¬ InsidePad m.width m.height ⟨start.x, start.y, 0, true, 0, 0, 0⟩ ∨
          ¬ InsidePad m.width m.height ⟨goal.x, goal.y, 0, true, 0, 0, 0⟩ ∨
          ∃ k c k', RoadFrom (SteerAdv clamp P S.so) m skips (LaterStart old start goal) k ∧
            RoadStep (SteerAdv clamp P S.so) m skips k c k' ∧ OnEdge m.width m.height k') :=
  later_pad_ends hc hm (steerMoves_stepBound hd hr) steer_offers (steer_costOk hm.res) L ht h1 h2 hu

/-- **C92 (`SteeringNeighborhood`).**  What a path is that is found after any history of searches. -/
theorem steer_later_path (hc : ClampSpec clamp) (hd : 0 ≤ P.distStep) (hr : 0 < P.resolution) (hm : SteerMapOk m P.distPx)
    (hst : 0 ≤ P.maxSteer ∧ P.maxSteer < 90) (hla : P.la ≠ 0)
    (L : Lawful O) (ht : TopOk cfg.top) (h1 : IntPose start) (h2 : IntPose goal)
    (hu : PadUsed (steerAlgo clamp P distance garbage m skips b S) O lab old) {fuel : Nat} {q : List SNode} {st}
    (h : padFindOn clamp (steerAlgo clamp P distance garbage m skips b S) O cfg lab old start goal fuel = some (.ok q, st))
    (hne : q ≠ []) :
    (∃ k0, q.head? = some k0 ∧ LaterStart old start goal k0 ∧ ⌊k0.x⌋ = ⌊start.x⌋ ∧ ⌊k0.y⌋ = ⌊start.y⌋) ∧
    (∀ k ∈ q, RoadFrom (SteerAdv clamp P S.so) m skips (LaterStart old start goal) k ∧ abs k.steer ≤ P.maxSteer) ∧
    (∀ x y, [x, y] <:+: q → abs (x.x - y.x) < P.distPx + 1 ∧ abs (x.y - y.y) < P.distPx + 1 ∧
      (P.size = 3 → y.forward = true) ∧
      ∃ x', SameState clamp x' x ∧ ([x, y] <+: q → x' = x) ∧
        RoadFrom (SteerAdv clamp P S.so) m skips (LaterStart old start goal) x' ∧ LineOk m skips x' y ∧
        DrivesTo P.la P.resolution ((y.steer : ℝ) / 180 * Real.pi) (driveSign P.reversed y.forward) P.distStep x' y) ∧
    q.length ≤ (m.width + 63) * (m.height + 63) * 64 ∧
    ∃ kl, q.getLast? = some kl ∧ ∃ k kg pv, SameState clamp k kl ∧ (cfg.useCands = false → k = kl) ∧
      RoadFrom (SteerAdv clamp P S.so) m skips (LaterStart old start goal) k ∧
      LaterGoal clamp (SteerAdv clamp P S.so) m skips (LaterStart old start goal) goal kg ∧
      steerIsGoal P distance kg k pv = true := by
  have hsb := padUsed_steer hc hm (steerMoves_stepBound hd hr) steer_offers (steer_costOk hm.res) L hst.1 (steer_adv_steer hst.1) hu
  obtain ⟨t1, t2, t3, t4, t5, kl, t6, k, kg, pv, t7, t8, t9, t10, t11⟩ :=
    later_pad_path hc hm (steerMoves_stepBound hd hr) steer_offers (steer_costOk hm.res) L ht h1 h2 hu h hne
  refine ⟨t1, fun k hk => ⟨t2 k hk, roadFrom_steer (steer_adv_steer hst.1) (laterStart_steer hsb) (t2 k hk)⟩, ?_, t5, kl, t6, k, kg,
    pv, t7, t8, t9, t11, t10⟩
  intro x y hxy
  obtain ⟨x', c, hs, hre, hst'⟩ : ∃ x' c, SameState clamp x' x ∧
      RoadFrom (SteerAdv clamp P S.so) m skips (LaterStart old start goal) x' ∧
      RoadStep (SteerAdv clamp P S.so) m skips x' c y ∧ ([x, y] <+: q → x' = x) := by
    by_cases hp : [x, y] <+: q
    · obtain ⟨c, hc'⟩ := t4 x y hp
      exact ⟨x, c, ⟨rfl, rfl, rfl, rfl⟩, t2 x (hxy.subset (by simp)), hc', fun _ => rfl⟩
    · obtain ⟨x', c, e1, e2, e3⟩ := t3 x y hxy
      exact ⟨x', c, e1, e2, e3, fun e => absurd e hp⟩
  obtain ⟨f1, f2, f3, f4⟩ := steerAdv_facts hc hst hla hd hr hst'.1
  obtain ⟨n1, n2⟩ := SameState.near hs
  obtain ⟨d1, d2⟩ := abs_le_nodeDist x' y
  refine ⟨?_, ?_, f4, x', hs, hst'.2, hre, f3, f1⟩
  · have := abs_sub_le x.x x'.x y.x
    rw [abs_sub_comm x.x x'.x] at this
    linarith
  · have := abs_sub_le x.y x'.y y.y
    rw [abs_sub_comm x.y x'.y] at this
    linarith

end
end

/-! ### A concrete case -/

namespace SteerEx

/-- A history with a successful search: the map of `example_path`, the path from `(0, 0)` to `(3, 0)`. -/
theorem example_used {clamp : ℝ → ℝ} (hc : ClampSpec clamp) :
    ∃ fuel q st, padFindOn clamp (dynSteerAlgo clamp P (1 / 10) (1 / 10) map 0 bres S) PriorityManager cfg
        (fun _ => Label.fresh 0) initContent ⟨0, 0, 0⟩ ⟨3, 0, Real.pi⟩ fuel = some (.ok q, some st) ∧ q ≠ [] ∧
      PadUsed (dynSteerAlgo clamp P (1 / 10) (1 / 10) map 0 bres S) PriorityManager st.s.lab st.kin := by
  obtain ⟨fuel, q, h1, h2, h3⟩ := example_path hc
  rw [← padFindOn_fresh] at h1
  simp only [Option.map_eq_some_iff] at h1
  obtain ⟨⟨r, st⟩, h4, h5⟩ := h1
  simp only at h5
  subst h5
  have i1 : IntPose ⟨0, 0, 0⟩ := by norm_num [IntPose]
  have i2 : IntPose ⟨3, 0, Real.pi⟩ := by norm_num [IntPose]
  obtain ⟨sp, s, gp, g, p, st', hst, hk, e1, e2⟩ := padFindOn_ok hc map_ok i1 i2 h4
  subst e1
  exact ⟨fuel, q, st', h4, h2, padUsed_find .setMap h4⟩

end SteerEx
end PathPlanning
