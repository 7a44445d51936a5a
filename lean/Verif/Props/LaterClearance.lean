import Verif.Spec.LaterClearance
import Verif.Props.HybridClearance
import Verif.Props.HybridHistRS

/-!
# C107: paths of later searches keep away from obstacles
-/

noncomputable section
namespace PathPlanning
open Spec RSExp

section
variable {clamp : ℝ → ℝ} {m : GridMap ℝ} {skips : Nat} {start goal : Pose} {adv : SNode → ℝ → SNode → Prop} {D : ℝ}
  {Start : SNode → Prop} {safe : SNode → SNode → Prop} {obstacle : Int × Int → Prop}

theorem _root_.PathPlanning.Spec.SameState.far {x' x : SNode} (hs : SameState clamp x' x) (hx : FarFromEdge m x) : FarFromEdge m x' := by
  unfold FarFromEdge
  rw [hs.1, hs.2.1]; exact hx

/-- A way found from the pose `k` to the cell of the goal is clear of obstacles if there is a cell near `k` that is not occupied. -/
theorem way_safe (wf : m.WellFormed) (hth : m.lower < m.upper) (hres : 2 ≤ 13 / 10 / m.res)
    (hi : Inflated m (expMargin m skips) obstacle) {k kg : SNode} {ps : List Pose}
    (hk : ∃ c, CellsWithin ((skips : Int) + 1) (⌊k.x⌋, ⌊k.y⌋) c ∧ NotOccupied m c)
    (hg : ⌊kg.x⌋ = ⌊goal.x⌋ ∧ ⌊kg.y⌋ = ⌊goal.y⌋) (f2 : ptOccupied m ⌊goal.x⌋ ⌊goal.y⌋ = .ok false)
    (h : ForwardWay m (poseOf k) (poseOf kg) ps) : SafeWay m obstacle k kg ps := by
  obtain ⟨o, o', a1, L, a3, w1, w2, w3, w4, w5, w6, w7⟩ := h
  refine ⟨o, o', a1, L, a3, w1, w2, w3, w4, w5, w7, fun p c hp hcell => ?_⟩
  have hg' : ∃ c, CellsWithin ((skips : Int) + 1) (⌊(poseOf kg).x⌋, ⌊(poseOf kg).y⌋) c ∧ NotOccupied m c := by
    refine ⟨(⌊goal.x⌋, ⌊goal.y⌋), ?_, notOccupied_of_pt wf f2⟩
    simp only [poseOf, hg.1, hg.2]
    constructor <;> simp <;> omega
  obtain ⟨c', b1, b2⟩ := RS.csc_near (map := Sampling.mapIf m) (Ok := NotOccupied m) (D := (skips : Int) + 1)
    (fun x y h => by
      have := (GridMap.isInMap_iff m wf.w wf.h x y).1 h
      omega) hres (fun c h => notOccupied_of_mapIf hth h) (by omega) w6 w5 hk hg' hp hcell
  exact inflated_clear hi b1 b2

theorem later_hybrid_safe {q : List SNode}
    (wf : m.WellFormed) (hth : m.lower < m.upper) (hres : 2 ≤ 13 / 10 / m.res)
    (h : LaterHybridPath clamp adv m skips Start start goal q) (hi : Inflated m (expMargin m skips) obstacle)
    (hin : ∀ k ∈ q, (∃ k', RoadFrom adv m skips Start k' ∧ k'.x = k.x ∧ k'.y = k.y) → FarFromEdge m k)
    (hstep : ∀ x c y, RoadStep adv m skips x c y → FarFromEdge m x → FarFromEdge m y → safe x y) :
    SafeLaterHybridPath clamp adv m skips Start goal safe obstacle q := by
  obtain ⟨l, k, e, es, kg, hq, hl, hstart, hre, t1, t2, _, f1, f2, _, hg, he, hw⟩ := h
  have hfar : ∀ y ∈ l ++ [k], FarFromEdge m y := by
    intro y hy
    rcases List.mem_append.1 hy with hy | hy
    · exact hin y (by rw [hq]; simp [hy]) ⟨y, hre y (by simp [hy]), rfl, rfl⟩
    · rw [List.mem_singleton.1 hy]
      exact hin { k with theta := e.theta } (by rw [hq]; simp) ⟨k, hre k (by simp), rfl, rfl⟩
  refine ⟨l, k, e, es, kg, hq, hl, he, ⟨?_, ?_, ?_⟩, hg, way_safe wf hth hres hi ?_ ⟨hg.1, hg.2.1⟩ f2 hw⟩
  · obtain ⟨k0, h1, h2⟩ := hstart
    exact ⟨k0, by rw [List.head?_append, h1]; rfl, h2⟩
  · intro x y hxy
    obtain ⟨x', c, s1, _, s3⟩ := t1 x y hxy
    exact ⟨x', s1, hstep x' c y s3 (s1.far (hfar x (hxy.subset (by simp)))) (hfar y (hxy.subset (by simp)))⟩
  · intro x y hxy
    obtain ⟨c, hc⟩ := t2 x y hxy
    exact hstep x c y hc (hfar x (hxy.subset (by simp))) (hfar y (hxy.subset (by simp)))
  · obtain ⟨l', z, rfl⟩ : ∃ l' z, l = l' ++ [z] := ⟨l.dropLast, l.getLast hl, (List.dropLast_append_getLast hl).symm⟩
    have hzk : [z, k] <:+: l' ++ [z] ++ [k] := ⟨l', [], by simp⟩
    obtain ⟨z', c0, s1, _, s3⟩ := t1 z k hzk
    exact lineOk_end wf s3.2.2 (s1.far (hfar z (hzk.subset (by simp)))) (hfar k (by simp))

theorem later_start_safe {q : List SNode}
    (wf : m.WellFormed) (hth : m.lower < m.upper) (hres : 2 ≤ 13 / 10 / m.res)
    (h : LaterStartWay clamp adv m skips Start start goal (.ok q)) (hi : Inflated m (expMargin m skips) obstacle) :
    SafeLaterStartWay clamp adv m skips Start goal obstacle q := by
  obtain ⟨k, kg, e, es, h1, h2, h3, f1, f2, _, hg, he, hw, hr⟩ := h
  refine ⟨k, e, es, kg, h1, he, hg, way_safe wf hth hres hi ⟨(⌊k.x⌋, ⌊k.y⌋), ?_, ?_⟩ ⟨hg.1, hg.2.1⟩ f2 hw, ?_⟩
  · constructor <;> simp <;> omega
  · rw [h2, h3]; exact notOccupied_of_pt wf f1
  · rcases hr with hr | hr | ⟨l, hr, _⟩
    · cases hr
    · exact .inl (CRes.ok.inj hr)
    · exact .inr ⟨l, CRes.ok.inj hr⟩

end

section
variable {clamp : ℝ → ℝ} {m : GridMap ℝ} {skips : Nat} {b : Bres ℝ} {S : SteerCfg}
  {O : OpenList (PadCell m.width m.height) ℝ} {cfg : SCfg (PadCell m.width m.height) ℝ} {start goal : Pose}
  {lab : Labels (PadCell m.width m.height) ℝ} {old : PadCell m.width m.height → SNode} {n : Int} {ef eb : Bool}
  {obstacle : Int × Int → Prop}

section
variable {P : DynP} {distThr angThr : ℝ}

/-- A safe stretch of `DynamicSteeringNeighborhood`: one or the other step length, a steering angle within the limits. -/
def DynSafe (P : DynP) (obstacle : Int × Int → Prop) (x y : SNode) : Prop :=
  ∃ ds, (ds = P.la ∨ ds = P.distStep) ∧ abs y.steer ≤ P.maxSteer ∧
    SafeDrive P.la P.resolution ((y.steer : ℝ) / 180 * Real.pi) (driveSign P.reversed y.forward) ds obstacle x y

/-- **C107** for `DynamicSteeringNeighborhood`, searches without expansion on a used object. -/
theorem dyn_later_safe (hc : ClampSpec clamp) (hd : 0 ≤ P.distStep) (hr : 0 < P.resolution) (hm : SteerMapOk m P.stepLen)
    (hst : 0 ≤ P.maxSteer ∧ P.maxSteer < 90) (hla : 0 < P.la) (L : Lawful O) (ht : TopOk cfg.top)
    (h1 : IntPose start) (h2 : IntPose goal) (hu : PadUsed (dynSteerAlgo clamp P distThr angThr m skips b S) O lab old)
    {fuel : Nat} {q : List SNode} {st}
    (h : padFindOn clamp (dynSteerAlgo clamp P distThr angThr m skips b S) O cfg lab old start goal fuel = some (.ok q, st))
    (hne : q ≠ []) (hi : Inflated m (dynMargin P skips) obstacle) (hin : ∀ k ∈ q, FarFromEdge m k) :
    SafeLaterPath clamp (LaterStart old start goal) (DynSafe P obstacle) q := by
  obtain ⟨⟨k0, t1, t1', _⟩, t2, t3, _⟩ := dyn_later_path hc hd hr hm hst hla.ne' L ht h1 h2 hu h hne
  have hds : ∀ Q : Prop, ∀ [Decidable Q], (if Q then P.la else P.distStep) = P.la ∨ (if Q then P.la else P.distStep) = P.distStep := by
    intro Q _; split <;> simp
  have key : ∀ x y, [x, y] <:+: q → ∃ x', SameState clamp x' x ∧ ([x, y] <+: q → x' = x) ∧ DynSafe P obstacle x' y := by
    intro x y hxy
    obtain ⟨_, _, x', s1, s2, _, s4, s5⟩ := t3 x y hxy
    have hsy := (t2 y (hxy.subset (by simp))).2
    refine ⟨x', s1, s2, _, hds _, hsy, s5, fun p c hp hcell => ?_⟩
    obtain ⟨c', b1, b2⟩ := dyn_step_near hm.wf hd hr hst.2 hla s4 (s1.far (hin x (hxy.subset (by simp))))
      (hin y (hxy.subset (by simp))) hsy (hds _) s5 hp hcell
    exact inflated_clear hi b1 b2
  refine ⟨⟨k0, t1, t1'⟩, fun x y hxy => ?_, fun x y hxy => ?_⟩
  · obtain ⟨x', a, _, c⟩ := key x y hxy
    exact ⟨x', a, c⟩
  · obtain ⟨x', _, b, c⟩ := key x y hxy.isInfix
    rw [b hxy] at c; exact c

/-- **C107** for `DynamicSteeringNeighborhood`, searches with Reeds-Shepp expansion on a used object: the search ends as the one
without expansion, or the path can be driven safely, or the expansion leads safely from the start pose itself to the goal. -/
theorem dyn_later_hybrid_safe (hc : ClampSpec clamp) (hopen : ∀ t, -Real.pi < clamp t)
    (hd : 0 ≤ P.distStep) (hr : 0 < P.resolution) (hm : SteerMapOk m P.stepLen)
    (hst : 0 ≤ P.maxSteer ∧ P.maxSteer < 90) (hla : 0 < P.la)
    (L : Lawful O) (ht : TopOk cfg.top) (hN : 0 ≤ n) (hN2 : n < 2147483648) (h0 : 0 < m.res) (h2r : 2 ≤ 13 / 10 / m.res)
    (hth : m.lower < m.upper) (hheur : ∀ a b, 0 ≤ S.heur a b) (h1 : IntPose start) (h2 : IntPose goal)
    (hu : PadUsed (dynSteerAlgo clamp P distThr angThr m skips b S) O lab old) {x : St} (hx : ExpReach clamp n ef eb x)
    {fuel : Nat} {q : List SNode} {st} {x' : St}
    (h : padFindXOn clamp (dynSteerAlgo clamp P distThr angThr m skips b S) (rsExp clamp n ef eb m) O cfg lab old start goal x fuel =
      some (.ok q, st, x'))
    (hi : Inflated m (max (dynMargin P skips) (expMargin m skips)) obstacle)
    (hin : ∀ k ∈ q, (∃ k', RoadFrom (DynAdv clamp P S.so) m skips (LaterStart old start goal) k' ∧ k'.x = k.x ∧ k'.y = k.y) →
      FarFromEdge m k) :
    (∃ f', padFindOn clamp (dynSteerAlgo clamp P distThr angThr m skips b S) O cfg lab old start goal f' = some (.ok q, st) ∧
      (q ≠ [] → SafeLaterPath clamp (LaterStart old start goal) (DynSafe P obstacle) q)) ∨
    SafeLaterHybridPath clamp (DynAdv clamp P S.so) m skips (LaterStart old start goal) goal (DynSafe P obstacle) obstacle q ∨
    SafeLaterStartWay clamp (DynAdv clamp P S.so) m skips (LaterStart old start goal) goal obstacle q := by
  have h13 : m.res ≤ 13 / 10 := by
    rw [le_div_iff₀ h0] at h2r; linarith
  have hiE : Inflated m (expMargin m skips) obstacle := fun o c ho hw => hi o c ho (hw.mono (le_max_right _ _))
  have hiD : Inflated m (dynMargin P skips) obstacle := fun o c ho hw => hi o c ho (hw.mono (le_max_left _ _))
  rcases ((dyn_later_hybrid hc hopen hd hr hm L ht hN hN2 h0 h13 hheur h1 h2 hu hx).2 _ _ _ _ h).2 with
    ⟨_, f', p⟩ | ⟨_, _, q', e, p⟩ | ⟨_, _, p, _⟩
  · refine .inl ⟨f', p, fun hne => ?_⟩
    obtain ⟨_, t2, _⟩ := dyn_later_path hc hd hr hm hst hla.ne' L ht h1 h2 hu p hne
    exact dyn_later_safe hc hd hr hm hst hla L ht h1 h2 hu p hne hiD (fun k hk => hin k hk ⟨k, (t2 k hk).1, rfl, rfl⟩)
  · obtain rfl := CRes.ok.inj e
    refine .inr (.inl (later_hybrid_safe hm.wf hth h2r p hiE hin ?_))
    intro x c y hs hx hy
    obtain ⟨d1, d2, _, d4⟩ := dyn_hybrid_steps hc hd hr hst hla.ne' hs
    have hds : ∀ Q : Prop, ∀ [Decidable Q], (if Q then P.la else P.distStep) = P.la ∨ (if Q then P.la else P.distStep) = P.distStep := by
      intro Q _; split <;> simp
    refine ⟨_, hds _, d1, d4, fun p c hp hcell => ?_⟩
    obtain ⟨c', b1, b2⟩ := dyn_step_near hm.wf hd hr hst.2 hla d2 hx hy d1 (hds _) d4 hp hcell
    exact inflated_clear hiD b1 b2
  · exact .inr (.inr (later_start_safe hm.wf hth h2r p hiE))

end

section
variable {P : SteerP} {distance : Int} {garbage : Nat × Nat → Int}

/-- A safe stretch of `SteeringNeighborhood`. -/
def SteerSafe (P : SteerP) (obstacle : Int × Int → Prop) (x y : SNode) : Prop :=
  abs y.steer ≤ P.maxSteer ∧
    SafeDrive P.la P.resolution ((y.steer : ℝ) / 180 * Real.pi) (driveSign P.reversed y.forward) P.distStep obstacle x y

/-- **C107** for `SteeringNeighborhood`, searches without expansion on a used object. -/
theorem steer_later_safe (hc : ClampSpec clamp) (hd : 0 ≤ P.distStep) (hr : 0 < P.resolution) (hm : SteerMapOk m P.distPx)
    (hst : 0 ≤ P.maxSteer ∧ P.maxSteer < 90) (hla : 0 < P.la) (L : Lawful O) (ht : TopOk cfg.top)
    (h1 : IntPose start) (h2 : IntPose goal) (hu : PadUsed (steerAlgo clamp P distance garbage m skips b S) O lab old)
    {fuel : Nat} {q : List SNode} {st}
    (h : padFindOn clamp (steerAlgo clamp P distance garbage m skips b S) O cfg lab old start goal fuel = some (.ok q, st))
    (hne : q ≠ []) (hi : Inflated m (steerMargin P skips) obstacle) (hin : ∀ k ∈ q, FarFromEdge m k) :
    SafeLaterPath clamp (LaterStart old start goal) (SteerSafe P obstacle) q := by
  obtain ⟨⟨k0, t1, t1', _⟩, t2, t3, _⟩ := steer_later_path hc hd hr hm hst hla.ne' L ht h1 h2 hu h hne
  have key : ∀ x y, [x, y] <:+: q → ∃ x', SameState clamp x' x ∧ ([x, y] <+: q → x' = x) ∧ SteerSafe P obstacle x' y := by
    intro x y hxy
    obtain ⟨_, _, _, x', s1, s2, _, s4, s5⟩ := t3 x y hxy
    have hsy := (t2 y (hxy.subset (by simp))).2
    refine ⟨x', s1, s2, hsy, s5, fun p c hp hcell => ?_⟩
    obtain ⟨c', b1, b2⟩ := steer_step_near hm.wf hd hr hst.2 hla s4 (s1.far (hin x (hxy.subset (by simp))))
      (hin y (hxy.subset (by simp))) hsy s5 hp hcell
    exact inflated_clear hi b1 b2
  refine ⟨⟨k0, t1, t1'⟩, fun x y hxy => ?_, fun x y hxy => ?_⟩
  · obtain ⟨x', a, _, c⟩ := key x y hxy
    exact ⟨x', a, c⟩
  · obtain ⟨x', _, b, c⟩ := key x y hxy.isInfix
    rw [b hxy] at c; exact c

/-- **C107** for `SteeringNeighborhood`, searches with Reeds-Shepp expansion on a used object. -/
theorem steer_later_hybrid_safe (hc : ClampSpec clamp) (hopen : ∀ t, -Real.pi < clamp t)
    (hd : 0 ≤ P.distStep) (hr : 0 < P.resolution) (hm : SteerMapOk m P.distPx)
    (hst : 0 ≤ P.maxSteer ∧ P.maxSteer < 90) (hla : 0 < P.la)
    (L : Lawful O) (ht : TopOk cfg.top) (hN : 0 ≤ n) (hN2 : n < 2147483648) (h0 : 0 < m.res) (h2r : 2 ≤ 13 / 10 / m.res)
    (hth : m.lower < m.upper) (hheur : ∀ a b, 0 ≤ S.heur a b) (h1 : IntPose start) (h2 : IntPose goal)
    (hu : PadUsed (steerAlgo clamp P distance garbage m skips b S) O lab old) {x : St} (hx : ExpReach clamp n ef eb x)
    {fuel : Nat} {q : List SNode} {st} {x' : St}
    (h : padFindXOn clamp (steerAlgo clamp P distance garbage m skips b S) (rsExp clamp n ef eb m) O cfg lab old start goal x fuel =
      some (.ok q, st, x'))
    (hi : Inflated m (max (steerMargin P skips) (expMargin m skips)) obstacle)
    (hin : ∀ k ∈ q, (∃ k', RoadFrom (SteerAdv clamp P S.so) m skips (LaterStart old start goal) k' ∧ k'.x = k.x ∧ k'.y = k.y) →
      FarFromEdge m k) :
    (∃ f', padFindOn clamp (steerAlgo clamp P distance garbage m skips b S) O cfg lab old start goal f' = some (.ok q, st) ∧
      (q ≠ [] → SafeLaterPath clamp (LaterStart old start goal) (SteerSafe P obstacle) q)) ∨
    SafeLaterHybridPath clamp (SteerAdv clamp P S.so) m skips (LaterStart old start goal) goal (SteerSafe P obstacle) obstacle q ∨
    SafeLaterStartWay clamp (SteerAdv clamp P S.so) m skips (LaterStart old start goal) goal obstacle q := by
  have h13 : m.res ≤ 13 / 10 := by
    rw [le_div_iff₀ h0] at h2r; linarith
  have hiE : Inflated m (expMargin m skips) obstacle := fun o c ho hw => hi o c ho (hw.mono (le_max_right _ _))
  have hiD : Inflated m (steerMargin P skips) obstacle := fun o c ho hw => hi o c ho (hw.mono (le_max_left _ _))
  rcases ((steer_later_hybrid hc hopen hd hr hm L ht hN hN2 h0 h13 hheur h1 h2 hu hx).2 _ _ _ _ h).2 with
    ⟨_, f', p⟩ | ⟨_, _, q', e, p⟩ | ⟨_, _, p, _⟩
  · refine .inl ⟨f', p, fun hne => ?_⟩
    obtain ⟨_, t2, _⟩ := steer_later_path hc hd hr hm hst hla.ne' L ht h1 h2 hu p hne
    exact steer_later_safe hc hd hr hm hst hla L ht h1 h2 hu p hne hiD (fun k hk => hin k hk ⟨k, (t2 k hk).1, rfl, rfl⟩)
  · obtain rfl := CRes.ok.inj e
    refine .inr (.inl (later_hybrid_safe hm.wf hth h2r p hiE hin ?_))
    intro x c y hs hx hy
    obtain ⟨d1, d2, d3, _⟩ := steerAdv_facts hc hst hla.ne' hd hr hs
    obtain ⟨⟨i, step, g, ps, _, _, e, _⟩, _⟩ := hs
    have hsy := advance_steer_bounded hst.1 e
    refine ⟨hsy, d1, fun p c hp hcell => ?_⟩
    obtain ⟨c', b1, b2⟩ := steer_step_near hm.wf hd hr hst.2 hla d3 hx hy hsy d1 hp hcell
    exact inflated_clear hiD b1 b2
  · exact .inr (.inr (later_start_safe hm.wf hth h2r p hiE))

end
end
end PathPlanning
