import Verif.Props.SteerSearch
import Verif.Props.Steering3

/-!
# Searches with the two steering neighbourhoods (C70 - C73)
-/

noncomputable section
namespace PathPlanning
open Spec

/-! ### Giving up -/

section
variable {clamp : ℝ → ℝ} {m : GridMap ℝ} {skips : Nat} {b : Bres ℝ} {S : SteerCfg} {pd : Nat}
  {mvs : List (SNode → List SNode → Option (ℝ × SNode))} {isg : SNode → SNode → Option SNode → Bool} {D : ℝ}
  {adv : SNode → ℝ → SNode → Prop} {cs : List ℝ}
  {O : OpenList (PadCell m.width m.height) ℝ} {cfg : SCfg (PadCell m.width m.height) ℝ} {start goal : Pose}

theorem mem_poseCells {w h : Nat} {p : Pose} {ns : List (PadCell w h)} (hp : poseCells p ns) (f : Bool) :
    ∃ n ∈ ns, n.x = ⌊p.x⌋ ∧ n.y = ⌊p.y⌋ ∧ n.t = 15 ∧ n.fwd = f := by
  obtain ⟨a, c, rfl, ha, hc⟩ := hp
  cases f
  · exact ⟨c, by simp, hc⟩
  · exact ⟨a, by simp, ha⟩

theorem Started.deadEnd (hc : ClampSpec clamp) (hm : SteerMapOk m D) (hs : StepBound mvs D) (ho : Offers mvs adv m.res)
    {next : SNode → ℝ → SNode → Prop}
    (hnext : ∀ k c k', next k c k' → ∃ mv ∈ mvs, ∀ ps, mv k ps = some (c * m.res, k'))
    {sp s gp g : List (PadCell m.width m.height)} (hst : Started clamp m start goal sp s gp g)
    {κ : PadCell m.width m.height → Option SNode}
    (hsat : Saturated (padAlgo clamp m skips b S mvs pd isg) s (padContent sp s gp g start goal) κ)
    (hgn : ∀ v ∈ g, κ v = none)
    (hgt : ∀ n k, κ n = some k → ∀ v ∈ g, ∃ pv, isg (padContent sp s gp g start goal v) k pv = false) :
    DeadEnd clamp adv m skips next isg start goal (fun k => ∃ n, κ n = some k) := by
  refine ⟨?_, ?_, ?_, ?_⟩
  · intro hocc f
    obtain ⟨n, hn, e1, e2, e3, e4⟩ := mem_poseCells hst.hsp f
    have hns : n ∈ s := (hst.hs n).2 ⟨hn, by rw [e1, e2]; exact hocc⟩
    refine ⟨_, ⟨n, hsat.init n hns⟩, hst.startPose hns, ?_⟩
    simp [padContent, hn, e4]
  · rintro k ⟨n, hn⟩
    exact hst.reach hc hm hs ho (hsat.reach n k hn)
  · rintro k c k' ⟨n, hn⟩ hnx hrs hin
    obtain ⟨mv, hmv, hmv2⟩ := hnext k c k' hnx
    obtain ⟨ps, hps⟩ := hsat.moves n k hn mv hmv
    obtain ⟨v, hv⟩ := lookup_of_inside hc hm.sizes.1 hm.sizes.2 hin
    have hik : InsidePad m.width m.height k :=
      reachable_inside hc hm (fun _ _ => padContent_inside _) (hsat.reach n k hn)
    have hus : steerUsable m skips b k k' = .ok true := by
      obtain ⟨u, hu, hui⟩ := steerUsable_iff hm skips b hik
        (intNode_of_step hm hik (hs mv hmv k [] _ _ (hmv2 [])))
      rw [hu]
      congr 1
      rw [hui]
      refine ⟨?_, hrs.2.2⟩
      unfold InsidePad at hin
      omega
    obtain ⟨k'', hk''⟩ := Option.ne_none_iff_exists'.1 (hps _ _ v (hmv2 ps) hus hv)
    refine ⟨k'', ⟨v, hk''⟩, ?_⟩
    obtain ⟨a1, a2, a3, a4⟩ := (steerLookup_iff hc hm.sizes.1 hm.sizes.2).1 hv
    rcases hsat.cell v k'' hk'' with hvs | hvl
    · right
      have e := hsat.init v hvs
      rw [hk''] at e
      injection e with e
      have hvs' : v ∈ s := hvs
      have hsp := ((hst.hs v).1 hvs').1
      obtain ⟨c1, c2, c3⟩ := (poseCells_mem hst.hsp v).1 hsp
      refine ⟨by rw [e]; exact hst.startPose hvs', ?_, ?_, ?_, ?_⟩
      · rw [e]; simp [padContent, initContent]; omega
      · rw [e]; simp [padContent, initContent]; omega
      · rw [e]; simp only [padContent, hsp, true_or, if_true]; exact a4
      · rw [a3, c3]
    · left
      exact sameState_of_sameCell (S := S) (b := b) (skips := skips) (mvs := mvs) (pd := pd) (isg := isg) hc hm
        ⟨v, hvl, hv⟩
  · rintro hocc k ⟨n, hn⟩ f
    obtain ⟨v, hv, e1, e2, e3, e4⟩ := mem_poseCells hst.hgp f
    have hvg : v ∈ g := (hst.hg v).2 ⟨hv, by rw [e1, e2]; exact hocc⟩
    constructor
    · obtain ⟨pv, hpv⟩ := hgt n k hn v hvg
      refine ⟨pv, ?_⟩
      have : padContent sp s gp g start goal v = goalNode goal f := by
        unfold padContent goalNode
        simp only [hvg, hv, or_true, if_true, e4, initContent, e1, e2]
      rw [← this]; exact hpv
    · rintro ⟨q1, q2, q3, q4⟩
      rcases hsat.cell n k hn with hns | hnl
      · have e := hsat.init n hns
        rw [hn] at e
        injection e with e
        apply q4
        rw [e]
        exact hst.startPose hns
      · have hnl' : steerLookup clamp m.width m.height k = .ok (some n) := hnl
        obtain ⟨a1, a2, a3, a4⟩ := (steerLookup_iff hc hm.sizes.1 hm.sizes.2).1 hnl'
        rw [a3] at q3
        injection q3 with q3
        have hng : n ∈ g := by
          refine (hst.hg n).2 ⟨(poseCells_mem hst.hgp n).2 ⟨by omega, by omega, q3⟩, ?_⟩
          rw [show n.x = ⌊goal.x⌋ by omega, show n.y = ⌊goal.y⌋ by omega]; exact hocc
        have := hgn n hng
        rw [hn] at this
        cases this

/-- If a search gives up although its time was not limited, there is a dead end. -/
theorem pad_complete (hc : ClampSpec clamp) (hm : SteerMapOk m D) (hs : StepBound mvs D) (ho : Offers mvs adv m.res)
    (ok : KCostOk (padAlgo clamp m skips b S mvs pd isg) cs) (L : Lawful O) (ht : TopOk cfg.top)
    (hab : ∀ i, cfg.abort i = false) (hrefl : ∀ k pv, isg k k pv = true)
    {next : SNode → ℝ → SNode → Prop}
    (hnext : ∀ k c k', next k c k' → ∃ mv ∈ mvs, ∀ ps, mv k ps = some (c * m.res, k'))
    (h1 : IntPose start) (h2 : IntPose goal) {fuel : Nat}
    (h : padFindPath clamp (padAlgo clamp m skips b S mvs pd isg) O cfg start goal fuel = some (.ok [])) :
    ∃ T, DeadEnd clamp adv m skips next isg start goal T := by
  obtain ⟨sp, s, gp, g, hst, hk⟩ := padFindPath_ok hc hm h1 h2 h
  obtain ⟨κ, hsat, hgn, hgt⟩ := kin_complete (cfg := { cfg with start := s, goal := g }) ok L ht hab hrefl hk
  exact ⟨_, hst.deadEnd hc hm hs ho hnext hsat hgn hgt⟩

/-- A search that finds no path does not find one for a blocked start or goal. -/
theorem pad_blocked (hc : ClampSpec clamp) (hm : SteerMapOk m D) (hs : StepBound mvs D)
    (ok : KCostOk (padAlgo clamp m skips b S mvs pd isg) cs) (L : Lawful O) (ht : TopOk cfg.top)
    (h1 : IntPose start) (h2 : IntPose goal) {fuel : Nat} {q : List SNode}
    (h : padFindPath clamp (padAlgo clamp m skips b S mvs pd isg) O cfg start goal fuel = some (.ok q)) (hne : q ≠ []) :
    ptOccupied m ⌊start.x⌋ ⌊start.y⌋ = .ok false ∧ ptOccupied m ⌊goal.x⌋ ⌊goal.y⌋ = .ok false := by
  obtain ⟨sp, s, gp, g, hst, hk⟩ := padFindPath_ok hc hm h1 h2 h
  obtain ⟨_, ⟨n, hn, _⟩, _, _, kl, _, ⟨k, w, hg, _⟩, _⟩ :=
    kin_path (cfg := { cfg with start := s, goal := g }) ok L ht hk hne
  obtain ⟨_, n', hn', _⟩ := hg
  constructor
  · obtain ⟨a1, a2⟩ := (hst.hs n).1 hn
    obtain ⟨e1, e2, _⟩ := (poseCells_mem hst.hsp n).1 a1
    rw [← e1, ← e2]; exact a2
  · obtain ⟨a1, a2⟩ := (hst.hg n').1 hn'
    obtain ⟨e1, e2, _⟩ := (poseCells_mem hst.hgp n').1 a1
    rw [← e1, ← e2]; exact a2

end

/-! ### `DynamicSteeringNeighborhood` -/

section
variable {clamp : ℝ → ℝ} {P : DynP} {distThr angThr : ℝ} {m : GridMap ℝ} {skips : Nat} {b : Bres ℝ} {S : SteerCfg}
  {O : OpenList (PadCell m.width m.height) ℝ} {cfg : SCfg (PadCell m.width m.height) ℝ} {start goal : Pose}

theorem dyn_offers {res : ℝ} : Offers (dynMoves clamp P S.so res) (DynAdv clamp P S.so) res :=
  fun _ _ _ h => dynMoves_spec.1 h

/-- C70. -/
theorem dyn_search_ends (hc : ClampSpec clamp) (hd : 0 ≤ P.distStep) (hr : 0 < P.resolution) (hm : SteerMapOk m P.stepLen)
    (L : Lawful O) (ht : TopOk cfg.top) (h1 : IntPose start) (h2 : IntPose goal) :
    ∃ fuel r, padFindPath clamp (dynSteerAlgo clamp P distThr angThr m skips b S) O cfg start goal fuel = some r ∧ r ≠ .ub ∧
      ∀ e, r = .throw e → (e = "OutsideMapException" ∨ e = "std::out_of_range") ∧
        (¬ InsidePad m.width m.height ⟨start.x, start.y, 0, true, 0, 0, 0⟩ ∨
          ¬ InsidePad m.width m.height ⟨goal.x, goal.y, 0, true, 0, 0, 0⟩ ∨
          ∃ k c k', RoadReach (DynAdv clamp P S.so) m skips start goal k ∧
            RoadStep (DynAdv clamp P S.so) m skips k c k' ∧ OnEdge m.width m.height k') :=
  pad_search_ends hc hm (dynMoves_stepBound hd hr) dyn_offers (dyn_costOk hm.res) L ht h1 h2

theorem RoadReach.inside {adv : SNode → ℝ → SNode → Prop} {k : SNode}
    (hs : InsidePad m.width m.height ⟨start.x, start.y, 0, true, 0, 0, 0⟩) (h : RoadReach adv m skips start goal k) :
    InsidePad m.width m.height k := by
  cases h with
  | start h => unfold InsidePad at *; rw [h.1, h.2.1, Int.floor_intCast, Int.floor_intCast]; exact hs
  | step _ _ h => exact h

/-- Poses of the same state are less than a cell apart. -/
theorem SameState.near {a c : SNode} (h : SameState clamp a c) : abs (a.x - c.x) < 1 ∧ abs (a.y - c.y) < 1 := by
  obtain ⟨h1, h2, _⟩ := h
  exact ⟨Int.abs_sub_lt_one_of_floor_eq_floor h1, Int.abs_sub_lt_one_of_floor_eq_floor h2⟩

theorem dynAdv_steer (hst : 0 ≤ P.maxSteer) {k : SNode}
    (h : RoadReach (DynAdv clamp P S.so) m skips start goal k) : abs k.steer ≤ P.maxSteer := by
  cases h with
  | start h => rw [h.2.2.1]; simpa using hst
  | step _ hs _ =>
    obtain ⟨⟨i, step, _, _, _, _, e, _⟩, _⟩ := hs
    exact dynAdvance_steer_bounded hst e

theorem dynAdv_facts (hc : ClampSpec clamp) (hst : 0 ≤ P.maxSteer ∧ P.maxSteer < 90) (hla : P.la ≠ 0) (hd : 0 ≤ P.distStep)
    (hr : 0 < P.resolution) {k k' : SNode} {c : ℝ} (h : RoadStep (DynAdv clamp P S.so) m skips k c k') :
    DrivesTo P.la P.resolution ((k'.steer : ℝ) / 180 * Real.pi) (driveSign P.reversed k'.forward)
        (if P.reversed = false ∧ k.depth < 1 ∧ k'.forward = false then P.la else P.distStep) k k' ∧
      nodeDist k k' ≤ P.stepLen ∧ LineOk m skips k k' := by
  obtain ⟨⟨i, step, h1, h2, h3, h4, e, h5⟩, _, hl⟩ := h
  refine ⟨dynAdvance_drives hc hst hla e, ?_, hl⟩
  obtain ⟨mv, hmv, ps, hmv2⟩ := (dynMoves_spec (res := m.res)).2 ⟨c, ⟨i, step, h1, h2, h3, h4, e, h5⟩, rfl⟩
  exact dynMoves_stepBound hd hr mv hmv _ _ _ _ hmv2

/-- C71: what a path found with `DynamicSteeringNeighborhood` is. -/
theorem dyn_path (hc : ClampSpec clamp) (hd : 0 ≤ P.distStep) (hr : 0 < P.resolution) (hm : SteerMapOk m P.stepLen)
    (hst : 0 ≤ P.maxSteer ∧ P.maxSteer < 90) (hla : P.la ≠ 0)
    (L : Lawful O) (ht : TopOk cfg.top) (h1 : IntPose start) (h2 : IntPose goal) {fuel : Nat} {q : List SNode}
    (h : padFindPath clamp (dynSteerAlgo clamp P distThr angThr m skips b S) O cfg start goal fuel = some (.ok q))
    (hne : q ≠ []) :
    (∃ k0, q.head? = some k0 ∧ StartPose start goal k0) ∧
    (∀ k ∈ q, RoadReach (DynAdv clamp P S.so) m skips start goal k ∧ abs k.steer ≤ P.maxSteer) ∧
    (∀ x y, [x, y] <:+: q → abs (x.x - y.x) < P.stepLen + 1 ∧ abs (x.y - y.y) < P.stepLen + 1 ∧
      ∃ x', SameState clamp x' x ∧ ([x, y] <+: q → x' = x) ∧ RoadReach (DynAdv clamp P S.so) m skips start goal x' ∧
        LineOk m skips x' y ∧
        DrivesTo P.la P.resolution ((y.steer : ℝ) / 180 * Real.pi) (driveSign P.reversed y.forward)
          (if P.reversed = false ∧ x'.depth < 1 ∧ y.forward = false then P.la else P.distStep) x' y) ∧
    q.length ≤ (m.width + 63) * (m.height + 63) * 64 ∧
    ∃ kl, q.getLast? = some kl ∧ ∃ k kg, SameState clamp k kl ∧ (cfg.useCands = false → k = kl) ∧
      RoadReach (DynAdv clamp P S.so) m skips start goal k ∧ GoalPose clamp (DynAdv clamp P S.so) m skips start goal kg ∧
      (∃ z : Int, abs (kg.theta - k.theta + z * (2 * Real.pi)) ≤ angThr) ∧ nodeDist kg k * P.resolution < distThr := by
  obtain ⟨t1, t2, t3, t4, t5, kl, t6, k, kg, pv, t7, t8, t9, t10, t11⟩ :=
    pad_path hc hm (dynMoves_stepBound hd hr) dyn_offers (dyn_costOk hm.res) L ht h1 h2 h hne
  refine ⟨t1, fun k hk => ⟨t2 k hk, dynAdv_steer hst.1 (t2 k hk)⟩, ?_, t5, kl, t6, k, kg, t7, t8, t9, t11,
    (dynIsGoal_iff _ _ _ _ _).1 t10⟩
  intro x y hxy
  obtain ⟨x', c, hs, hre, hst'⟩ : ∃ x' c, SameState clamp x' x ∧ RoadReach (DynAdv clamp P S.so) m skips start goal x' ∧
      RoadStep (DynAdv clamp P S.so) m skips x' c y ∧ ([x, y] <+: q → x' = x) := by
    by_cases hp : [x, y] <+: q
    · obtain ⟨c, hc'⟩ := t4 x y hp
      exact ⟨x, c, ⟨rfl, rfl, rfl, rfl⟩, t2 x (hxy.subset (by simp)), hc', fun _ => rfl⟩
    · obtain ⟨x', c, e1, e2, e3⟩ := t3 x y hxy
      exact ⟨x', c, e1, e2, e3, fun e => absurd e hp⟩
  obtain ⟨f1, f2, f3⟩ := dynAdv_facts hc hst hla hd hr hst'.1
  obtain ⟨n1, n2⟩ := SameState.near hs
  obtain ⟨d1, d2⟩ := abs_le_nodeDist x' y
  refine ⟨?_, ?_, x', hs, hst'.2, hre, f3, f1⟩
  · have := abs_sub_le x.x x'.x y.x
    rw [abs_sub_comm x.x x'.x] at this
    linarith
  · have := abs_sub_le x.y x'.y y.y
    rw [abs_sub_comm x.y x'.y] at this
    linarith

/-- C71, second part: without heuristic the path can be driven as it is. -/
theorem dyn_exact (hc : ClampSpec clamp) (hd : 0 ≤ P.distStep) (hr : 0 < P.resolution) (hm : SteerMapOk m P.stepLen)
    (hst : 0 ≤ P.maxSteer ∧ P.maxSteer < 90) (hla : P.la ≠ 0)
    (L : Lawful O) (M : MinFirst O) (ht : TopOk cfg.top) (hheur : ∀ k g, S.heur k g = 0) (hhg : cfg.heurGoal = none)
    (h1 : IntPose start) (h2 : IntPose goal) {fuel : Nat} {q : List SNode}
    (h : padFindPath clamp (dynSteerAlgo clamp P distThr angThr m skips b S) O cfg start goal fuel = some (.ok q)) :
    (∀ x y, [x, y] <:+: q → LineOk m skips x y ∧ nodeDist x y ≤ P.stepLen ∧
      DrivesTo P.la P.resolution ((y.steer : ℝ) / 180 * Real.pi) (driveSign P.reversed y.forward)
        (if P.reversed = false ∧ x.depth < 1 ∧ y.forward = false then P.la else P.distStep) x y) ∧
    ∀ kl, q.getLast? = some kl → ∃ kg, GoalPose clamp (DynAdv clamp P S.so) m skips start goal kg ∧
      (∃ z : Int, abs (kg.theta - kl.theta + z * (2 * Real.pi)) ≤ angThr) ∧ nodeDist kg kl * P.resolution < distThr := by
  obtain ⟨t1, t2⟩ := pad_exact hc hm (dynMoves_stepBound hd hr) dyn_offers (dyn_costOk hm.res) L M ht hheur hhg h1 h2 h
  constructor
  · intro x y hxy
    obtain ⟨c, hs⟩ := t1 x y hxy
    obtain ⟨f1, f2, f3⟩ := dynAdv_facts hc hst hla hd hr hs
    exact ⟨f3, f2, f1⟩
  · intro kl hkl
    obtain ⟨kg, pv, e1, e2⟩ := t2 kl hkl
    exact ⟨kg, e2, (dynIsGoal_iff _ _ _ _ _).1 e1⟩

theorem dynIsGoal_refl {res : ℝ} (hdt : 0 < distThr) (hat : 0 ≤ angThr) (k : SNode) :
    dynIsGoal res distThr angThr k k = true := by
  rw [dynIsGoal_iff]
  refine ⟨⟨0, by simpa using hat⟩, ?_⟩
  unfold nodeDist
  simpa using hdt

theorem dynAdv_next {k k' : SNode} {c : ℝ} (h : DynAdv clamp P S.so k c k') :
    ∃ mv ∈ dynMoves clamp P S.so m.res, ∀ ps, mv k ps = some (c * m.res, k') := by
  obtain ⟨mv, hmv, ps, e⟩ := (dynMoves_spec (res := m.res)).2 ⟨c, h, rfl⟩
  refine ⟨mv, hmv, fun ps' => ?_⟩
  unfold dynMoves at hmv
  obtain ⟨x, _, rfl⟩ := List.mem_map.1 hmv
  exact e

/-- C72: if the search gives up, it is in a dead end. -/
theorem dyn_complete (hc : ClampSpec clamp) (hd : 0 ≤ P.distStep) (hr : 0 < P.resolution) (hm : SteerMapOk m P.stepLen)
    (L : Lawful O) (ht : TopOk cfg.top) (hab : ∀ i, cfg.abort i = false) (hdt : 0 < distThr) (hat : 0 ≤ angThr)
    (h1 : IntPose start) (h2 : IntPose goal) {fuel : Nat}
    (h : padFindPath clamp (dynSteerAlgo clamp P distThr angThr m skips b S) O cfg start goal fuel = some (.ok [])) :
    ∃ T, DeadEnd clamp (DynAdv clamp P S.so) m skips (DynAdv clamp P S.so)
      (fun g k _ => dynIsGoal P.resolution distThr angThr g k) start goal T :=
  pad_complete hc hm (dynMoves_stepBound hd hr) dyn_offers (dyn_costOk hm.res) L ht hab
    (fun k _ => dynIsGoal_refl hdt hat k) (fun _ _ _ h => dynAdv_next h) h1 h2 h

/-- A path is found only between cells that are not occupied. -/
theorem dyn_blocked (hc : ClampSpec clamp) (hd : 0 ≤ P.distStep) (hr : 0 < P.resolution) (hm : SteerMapOk m P.stepLen)
    (L : Lawful O) (ht : TopOk cfg.top) (h1 : IntPose start) (h2 : IntPose goal) {fuel : Nat} {q : List SNode}
    (h : padFindPath clamp (dynSteerAlgo clamp P distThr angThr m skips b S) O cfg start goal fuel = some (.ok q))
    (hne : q ≠ []) :
    ptOccupied m ⌊start.x⌋ ⌊start.y⌋ = .ok false ∧ ptOccupied m ⌊goal.x⌋ ⌊goal.y⌋ = .ok false :=
  pad_blocked hc hm (dynMoves_stepBound hd hr) (dyn_costOk hm.res) L ht h1 h2 h hne

end

/-! ### `SteeringNeighborhood` -/

section
variable {clamp : ℝ → ℝ} {P : SteerP} {distance : Int} {garbage : Nat × Nat → Int} {m : GridMap ℝ} {skips : Nat}
  {b : Bres ℝ} {S : SteerCfg}
  {O : OpenList (PadCell m.width m.height) ℝ} {cfg : SCfg (PadCell m.width m.height) ℝ} {start goal : Pose}

theorem steer_offers {res : ℝ} : Offers (steerMoves clamp P S.so garbage res) (SteerAdv clamp P S.so) res :=
  fun _ _ _ h => steerMoves_spec h

/-- C70. -/
theorem steer_search_ends (hc : ClampSpec clamp) (hd : 0 ≤ P.distStep) (hr : 0 < P.resolution) (hm : SteerMapOk m P.distPx)
    (L : Lawful O) (ht : TopOk cfg.top) (h1 : IntPose start) (h2 : IntPose goal) :
    ∃ fuel r, padFindPath clamp (steerAlgo clamp P distance garbage m skips b S) O cfg start goal fuel = some r ∧ r ≠ .ub ∧
      ∀ e, r = .throw e → (e = "OutsideMapException" ∨ e = "std::out_of_range") ∧
        (¬ InsidePad m.width m.height ⟨start.x, start.y, 0, true, 0, 0, 0⟩ ∨
          ¬ InsidePad m.width m.height ⟨goal.x, goal.y, 0, true, 0, 0, 0⟩ ∨
          ∃ k c k', RoadReach (SteerAdv clamp P S.so) m skips start goal k ∧
            RoadStep (SteerAdv clamp P S.so) m skips k c k' ∧ OnEdge m.width m.height k') :=
  pad_search_ends hc hm (steerMoves_stepBound hd hr) steer_offers (steer_costOk hm.res) L ht h1 h2

theorem steerAdv_steer (hst : 0 ≤ P.maxSteer) {k : SNode}
    (h : RoadReach (SteerAdv clamp P S.so) m skips start goal k) : abs k.steer ≤ P.maxSteer := by
  cases h with
  | start h => rw [h.2.2.1]; simpa using hst
  | step _ hs _ =>
    obtain ⟨⟨i, step, g, ps, _, _, e, _⟩, _⟩ := hs
    exact advance_steer_bounded hst e

theorem steerAdv_facts (hc : ClampSpec clamp) (hst : 0 ≤ P.maxSteer ∧ P.maxSteer < 90) (hla : P.la ≠ 0) (hd : 0 ≤ P.distStep)
    (hr : 0 < P.resolution) {k k' : SNode} {c : ℝ} (h : RoadStep (SteerAdv clamp P S.so) m skips k c k') :
    DrivesTo P.la P.resolution ((k'.steer : ℝ) / 180 * Real.pi) (driveSign P.reversed k'.forward) P.distStep k k' ∧
      nodeDist k k' ≤ P.distPx ∧ LineOk m skips k k' ∧ (P.size = 3 → k'.forward = true) := by
  obtain ⟨⟨i, step, g, ps, h1, h2, e, h5⟩, _, hl⟩ := h
  obtain ⟨hf, _, _, _, hmv, _⟩ := advance_inv e
  refine ⟨advance_drives hc hst hla e, steerMove_chord clamp _ _ _ hd hr _ _ _ _ _ hmv, hl, fun h3 => ?_⟩
  rw [hf]; simp; omega

/-- C71: what a path found with `SteeringNeighborhood` is. -/
theorem steer_path (hc : ClampSpec clamp) (hd : 0 ≤ P.distStep) (hr : 0 < P.resolution) (hm : SteerMapOk m P.distPx)
    (hst : 0 ≤ P.maxSteer ∧ P.maxSteer < 90) (hla : P.la ≠ 0)
    (L : Lawful O) (ht : TopOk cfg.top) (h1 : IntPose start) (h2 : IntPose goal) {fuel : Nat} {q : List SNode}
    (h : padFindPath clamp (steerAlgo clamp P distance garbage m skips b S) O cfg start goal fuel = some (.ok q))
    (hne : q ≠ []) :
    (∃ k0, q.head? = some k0 ∧ StartPose start goal k0) ∧
    (∀ k ∈ q, RoadReach (SteerAdv clamp P S.so) m skips start goal k ∧ abs k.steer ≤ P.maxSteer) ∧
    (∀ x y, [x, y] <:+: q → abs (x.x - y.x) < P.distPx + 1 ∧ abs (x.y - y.y) < P.distPx + 1 ∧
      (P.size = 3 → y.forward = true) ∧
      ∃ x', SameState clamp x' x ∧ ([x, y] <+: q → x' = x) ∧ RoadReach (SteerAdv clamp P S.so) m skips start goal x' ∧
        LineOk m skips x' y ∧
        DrivesTo P.la P.resolution ((y.steer : ℝ) / 180 * Real.pi) (driveSign P.reversed y.forward) P.distStep x' y) ∧
    q.length ≤ (m.width + 63) * (m.height + 63) * 64 ∧
    ∃ kl, q.getLast? = some kl ∧ ∃ k kg pv, SameState clamp k kl ∧ (cfg.useCands = false → k = kl) ∧
      RoadReach (SteerAdv clamp P S.so) m skips start goal k ∧
      GoalPose clamp (SteerAdv clamp P S.so) m skips start goal kg ∧ steerIsGoal P distance kg k pv = true := by
  obtain ⟨t1, t2, t3, t4, t5, kl, t6, k, kg, pv, t7, t8, t9, t10, t11⟩ :=
    pad_path hc hm (steerMoves_stepBound hd hr) steer_offers (steer_costOk hm.res) L ht h1 h2 h hne
  refine ⟨t1, fun k hk => ⟨t2 k hk, steerAdv_steer hst.1 (t2 k hk)⟩, ?_, t5, kl, t6, k, kg, pv, t7, t8, t9, t11, t10⟩
  intro x y hxy
  obtain ⟨x', c, hs, hre, hst'⟩ : ∃ x' c, SameState clamp x' x ∧ RoadReach (SteerAdv clamp P S.so) m skips start goal x' ∧
      RoadStep (SteerAdv clamp P S.so) m skips x' c y ∧ ([x, y] <+: q → x' = x) := by
    by_cases hp : [x, y] <+: q
    · obtain ⟨c, hc'⟩ := t4 x y hp
      exact ⟨x, c, ⟨rfl, rfl, rfl, rfl⟩, t2 x (hxy.subset (by simp)), hc', fun _ => rfl⟩
    · obtain ⟨x', c, e1, e2, e3⟩ := t3 x y hxy
      exact ⟨x', c, e1, e2, e3, fun e => absurd e hp⟩
  obtain ⟨f1, f2, f3, f4⟩ := steerAdv_facts hc hst hla hd hr hst'.1
  obtain ⟨n1, n2⟩ := SameState.near hs
  obtain ⟨d1, d2⟩ := abs_le_nodeDist x' y
  refine ⟨?_, ?_, f4, x', hs, hst'.2, hre, f3, f1⟩
  · have := abs_sub_le x.x x'.x y.x
    rw [abs_sub_comm x.x x'.x] at this
    linarith
  · have := abs_sub_le x.y x'.y y.y
    rw [abs_sub_comm x.y x'.y] at this
    linarith

/-- C71, second part. -/
theorem steer_exact (hc : ClampSpec clamp) (hd : 0 ≤ P.distStep) (hr : 0 < P.resolution) (hm : SteerMapOk m P.distPx)
    (hst : 0 ≤ P.maxSteer ∧ P.maxSteer < 90) (hla : P.la ≠ 0)
    (L : Lawful O) (M : MinFirst O) (ht : TopOk cfg.top) (hheur : ∀ k g, S.heur k g = 0) (hhg : cfg.heurGoal = none)
    (h1 : IntPose start) (h2 : IntPose goal) {fuel : Nat} {q : List SNode}
    (h : padFindPath clamp (steerAlgo clamp P distance garbage m skips b S) O cfg start goal fuel = some (.ok q)) :
    (∀ x y, [x, y] <:+: q → LineOk m skips x y ∧ nodeDist x y ≤ P.distPx ∧ (P.size = 3 → y.forward = true) ∧
      DrivesTo P.la P.resolution ((y.steer : ℝ) / 180 * Real.pi) (driveSign P.reversed y.forward) P.distStep x y) ∧
    ∀ kl, q.getLast? = some kl → ∃ kg pv, GoalPose clamp (SteerAdv clamp P S.so) m skips start goal kg ∧
      steerIsGoal P distance kg kl pv = true := by
  obtain ⟨t1, t2⟩ := pad_exact hc hm (steerMoves_stepBound hd hr) steer_offers (steer_costOk hm.res) L M ht hheur hhg h1 h2 h
  constructor
  · intro x y hxy
    obtain ⟨c, hs⟩ := t1 x y hxy
    obtain ⟨f1, f2, f3, f4⟩ := steerAdv_facts hc hst hla hd hr hs
    exact ⟨f3, f2, f4, f1⟩
  · intro kl hkl
    obtain ⟨kg, pv, e1, e2⟩ := t2 kl hkl
    exact ⟨kg, pv, e2, e1⟩

theorem steerIsGoal_refl (hr : P.reversed = false) (hdist : 0 ≤ distance) (k : SNode) (pv : Option SNode) :
    steerIsGoal P distance k k pv = true := by
  have hpi := Real.pi_pos
  have h0 : ¬ abs (atan2 (Real.sin (k.theta - k.theta)) (Real.cos (k.theta - k.theta))) > Real.pi / 8 := by
    rw [not_lt, wrapAngle_spec]
    exact ⟨0, by simp; positivity⟩
  have h1 : ¬ ((4 * distance : Int) : ℝ) < 0 := by
    rw [not_lt]; exact_mod_cast (by omega : 0 ≤ 4 * distance)
  unfold steerIsGoal
  simp only [hr]
  rw [if_neg h0]
  simp only [Bool.false_eq_true, false_and, if_false, sub_self, abs_zero, gt_iff_lt, h1, or_self]
  norm_num

/-- C72. -/
theorem steer_complete (hc : ClampSpec clamp) (hd : 0 ≤ P.distStep) (hr : 0 < P.resolution) (hm : SteerMapOk m P.distPx)
    (L : Lawful O) (ht : TopOk cfg.top) (hab : ∀ i, cfg.abort i = false) (hrev : P.reversed = false) (hdist : 0 ≤ distance)
    (h1 : IntPose start) (h2 : IntPose goal) {fuel : Nat}
    (h : padFindPath clamp (steerAlgo clamp P distance garbage m skips b S) O cfg start goal fuel = some (.ok [])) :
    ∃ T, DeadEnd clamp (SteerAdv clamp P S.so) m skips
      (fun k c k' => 0 ≤ c ∧ ∃ i step, i < P.size ∧ step ≤ P.steerSteps ∧
        ∀ ps, advance clamp P S.so (garbage (i, step)) k ps i step = some (c, k'))
      (fun g k pv => steerIsGoal P distance g k pv) start goal T := by
  refine pad_complete hc hm (steerMoves_stepBound hd hr) steer_offers (steer_costOk hm.res) L ht hab
    (fun k pv => steerIsGoal_refl hrev hdist k pv) ?_ h1 h2 h
  rintro k c k' ⟨hc0, i, step, hi, hs, hadv⟩
  refine ⟨_, List.mem_map.2 ⟨(i, step), moveList_complete (by omega) hi hs, rfl⟩, fun ps => ?_⟩
  exact scaled_some.2 ⟨c, hadv ps, hc0, rfl⟩

end
end PathPlanning
