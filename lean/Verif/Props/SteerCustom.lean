import Verif.Props.KinCustom
import Verif.Props.SteerSearch3

/-!
# C94: searches with a goal test and a steering neighbourhood

`findPath(from, goal_test)` and `findPathWithStartConfiguration(from, goal_test)` on
`DynamicDirectionalStateSpaceManager`.  There is no goal pose; `RoadReach adv m skips start start` are the poses that can
be reached from the start pose.
-/

noncomputable section
namespace PathPlanning
open Spec

section
variable {clamp : ℝ → ℝ} {m : GridMap ℝ} {skips : Nat} {b : Bres ℝ} {S : SteerCfg} {pd : Nat}
  {mvs : List (SNode → List SNode → Option (ℝ × SNode))} {isg : SNode → SNode → Option SNode → Bool} {D : ℝ}
  {adv : SNode → ℝ → SNode → Prop} {cs : List ℝ}
  {O : OpenList (PadCell m.width m.height) ℝ} {cfg : SCfg (PadCell m.width m.height) ℝ} {start : Pose}
  {T : KGoalTest (PadCell m.width m.height) SNode ℝ O} {rev : Bool}

/-- The contents at the beginning are those of a search from the start pose to itself. -/
theorem padStart_eq {w h : Nat} (sp s : List (PadCell w h)) (p : Pose) :
    padStart sp s p.theta = padContent sp s sp s p p := by
  funext n
  unfold padStart padContent
  by_cases h1 : n ∈ s <;> simp [h1]

theorem padStartNode_eq {w h : Nat} (sp s : List (PadCell w h)) (node : SNode) :
    padStartNode sp s node = padStart sp s node.theta := by
  funext n
  unfold padStart padStartNode initContent
  simp

/-- **A search from a configuration** is the search from its pose: driving direction, steering angle, depth and custom value
of the configuration have no influence. -/
theorem config_eq_pose (A : KAlgo (PadCell m.width m.height) SNode ℝ) (node : SNode) (fuel : Nat) :
    padFindConfig clamp A O cfg T rev node fuel = padFindTest clamp A O cfg T rev ⟨node.x, node.y, node.theta⟩ fuel := by
  unfold padFindConfig padFindTest
  simp only [padStartNode_eq]

/-- Two configurations with the same pose lead to the same search, whatever their driving directions. -/
theorem config_direction_ignored (A : KAlgo (PadCell m.width m.height) SNode ℝ) (n n' : SNode) (fuel : Nat)
    (hx : n.x = n'.x) (hy : n.y = n'.y) (ht : n.theta = n'.theta) :
    padFindConfig clamp A O cfg T rev n fuel = padFindConfig clamp A O cfg T rev n' fuel := by
  rw [config_eq_pose, config_eq_pose, hx, hy, ht]

/-- What the initialisation does. -/
theorem padStartNodes_cases (hc : ClampSpec clamp) (hm : SteerMapOk m D) (h1 : IntPose start) :
    (∃ sp s, padStartNodes clamp m start.x start.y = .ok (sp, s) ∧ Started clamp m start start sp s sp s) ∨
    (∃ e, padStartNodes clamp m start.x start.y = .throw e ∧ (e = "OutsideMapException" ∨ e = "std::out_of_range") ∧
      ¬ InsidePad m.width m.height ⟨start.x, start.y, 0, true, 0, 0, 0⟩) := by
  have hg : getPoses clamp m.width m.height ⟨start.x, start.y, 0⟩ = getPoses clamp m.width m.height start := rfl
  rcases getPoses_cases (w := m.width) (h := m.height) hc h1 with ⟨sp, e1, p1⟩ | ⟨e, e1, e2, e3⟩
  · obtain ⟨s, e3, hs⟩ := notOccupied_spec hm.wf sp
    left
    refine ⟨sp, s, ?_, ?_, p1, p1, hs, hs⟩
    · unfold padStartNodes; rw [hg, e1]; simp only [CRes.ok_bind, e3]; rfl
    · unfold padInit; rw [e1]; simp only [CRes.ok_bind, e3]; rfl
  · right
    refine ⟨e, ?_, e2, e3⟩
    unfold padStartNodes; rw [hg, e1]; rfl

/-- **Every such search ends**, without undefined behaviour, whatever the goal test does; it throws only if the start does
not lie on the padded map (or lies on its outermost left or bottom line), or if a legal step leads onto these lines. -/
theorem pad_custom_ends (hc : ClampSpec clamp) (hm : SteerMapOk m D) (hs : StepBound mvs D) (ho : Offers mvs adv m.res)
    (ok : KCostOk (padAlgo clamp m skips b S mvs pd isg) cs) (L : Lawful O) (ht : TopOk cfg.top)
    (h1 : IntPose start) :
    ∃ fuel r, padFindTest clamp (padAlgo clamp m skips b S mvs pd isg) O cfg T rev start fuel = some r ∧ r ≠ .ub ∧
      ∀ e, r = .throw e → (e = "OutsideMapException" ∨ e = "std::out_of_range") ∧
        (¬ InsidePad m.width m.height ⟨start.x, start.y, 0, true, 0, 0, 0⟩ ∨
          ∃ k c k', RoadReach adv m skips start start k ∧ RoadStep adv m skips k c k' ∧ OnEdge m.width m.height k') := by
  rcases padStartNodes_cases hc hm h1 with ⟨sp, s, e, hst⟩ | ⟨e, he, h3, h4⟩
  · obtain ⟨fuel, r, st', q1, q2, q3⟩ := kin_custom_ends (cfg := { cfg with start := s })
      (kin0 := padStart sp s start.theta) ok L ht T
    rw [padStart_eq] at q1 q2 q3
    have hrun : padFindTest clamp (padAlgo clamp m skips b S mvs pd isg) O cfg T rev start fuel = some (match (generalizing := false) r with
        | .ok q => .ok (if rev then q.reverse else q)
        | .throw e => .throw e
        | .ub => .ub) := by
      unfold padFindTest; rw [e]; simp only [padStart_eq, q1, Option.map_some]; cases r <;> rfl
    refine ⟨fuel, _, hrun, ?_, ?_⟩
    · intro hr
      cases r with
      | ok q => cases hr
      | throw e => cases hr
      | ub => exact pad_no_ub hc hm hs (fun _ _ => padContent_inside _) (q3 rfl)
    · intro e' hr
      cases r with
      | ok q => cases hr
      | ub => cases hr
      | throw e'' =>
        cases hr
        obtain ⟨t1, k, c, k', t2, t3, t4⟩ := pad_throws hc hm hs (fun _ _ => padContent_inside _) (q2 e' rfl)
        have hk := reachable_inside hc hm (fun _ _ => padContent_inside _) t2
        obtain ⟨c0, hr, _⟩ := legal_road hm hs ho hk t3
        exact ⟨t1, .inr ⟨k, c0, k', hst.reach hc hm hs ho t2, hr, t4⟩⟩
  · refine ⟨0, .throw e, by unfold padFindTest; rw [he], by simp, fun e' h' => ?_⟩
    cases h'
    exact ⟨h3, .inl h4⟩

/-- A returned path is that of the search on the start nodes, turned round for a reversed neighbourhood. -/
theorem padFindTest_ok (hc : ClampSpec clamp) (hm : SteerMapOk m D) (h1 : IntPose start)
    {A : KAlgo (PadCell m.width m.height) SNode ℝ} {fuel : Nat} {q : List SNode}
    (h : padFindTest clamp A O cfg T rev start fuel = some (.ok q)) :
    ∃ sp s q0 st', Started clamp m start start sp s sp s ∧ q = (if rev then q0.reverse else q0) ∧
      kFindTest A O { cfg with start := s } T (padContent sp s sp s start start) fuel = some (.ok q0, st') := by
  rcases padStartNodes_cases hc hm h1 with ⟨sp, s, e, hst⟩ | ⟨e, he, _⟩
  · unfold padFindTest at h
    rw [e] at h
    simp only [padStart_eq] at h
    obtain ⟨⟨r, st'⟩, hr, h⟩ := Option.map_eq_some_iff.1 h
    cases r with
    | ok q0 => simp only [CRes.ok.injEq] at h; exact ⟨sp, s, q0, st', hst, h.symm, hr⟩
    | throw e => simp at h
    | ub => simp at h
  · unfold padFindTest at h
    rw [he] at h
    simp at h

/-- What a returned path is. -/
theorem pad_custom_path (hc : ClampSpec clamp) (hm : SteerMapOk m D) (hs : StepBound mvs D) (ho : Offers mvs adv m.res)
    (ok : KCostOk (padAlgo clamp m skips b S mvs pd isg) cs) (L : Lawful O) (ht : TopOk cfg.top)
    (h1 : IntPose start) {fuel : Nat} {q : List SNode}
    (h : padFindTest clamp (padAlgo clamp m skips b S mvs pd isg) O cfg T rev start fuel = some (.ok q)) (hne : q ≠ []) :
    ∃ q0, q = (if rev then q0.reverse else q0) ∧
    (∃ k0, q0.head? = some k0 ∧ StartPose start start k0) ∧
    (∀ k ∈ q0, RoadReach adv m skips start start k) ∧
    (∀ x y, [x, y] <:+: q0 → ∃ x' c, SameState clamp x' x ∧ RoadReach adv m skips start start x' ∧
      RoadStep adv m skips x' c y ∧ ([x, y] <+: q0 → x' = x)) ∧
    q0.length ≤ (m.width + 63) * (m.height + 63) * 64 ∧
    ptOccupied m ⌊start.x⌋ ⌊start.y⌋ = .ok false ∧
    ∃ kl, q0.getLast? = some kl ∧ ∃ k w, SameState clamp k kl ∧ RoadReach adv m skips start start k ∧ PoseAccepted T k w := by
  obtain ⟨sp, s, q0, st', hst, hq, hk⟩ := padFindTest_ok hc hm h1 h
  have hne0 : q0 ≠ [] := by
    rintro rfl
    apply hne
    rw [hq]
    cases rev <;> rfl
  obtain ⟨⟨d, t1⟩, ⟨n, hn, t2⟩, t3, t4, nl, w, kl, k, t5, _, _, t6, t7, t8⟩ :=
    kin_custom_path (cfg := { cfg with start := s }) ok L ht hk hne0
  have hin : ∀ k, Reachable (padAlgo clamp m skips b S mvs pd isg) s (padContent sp s sp s start start) k →
      InsidePad m.width m.height k := fun k hr => reachable_inside hc hm (fun _ _ => padContent_inside _) hr
  obtain ⟨p1, p2⟩ := cellTrace_pairs t1
  refine ⟨q0, hq, ⟨_, t2, hst.startPose hn⟩, fun k hk => hst.reach hc hm hs ho (t3 k hk), ?_, ?_, ?_, kl, t5, ?_⟩
  · intro x y hxy
    by_cases hp : [x, y] <+: q0
    · obtain ⟨c, hl⟩ := p2 x y hp
      have hrx := t3 x (hxy.subset (by simp))
      obtain ⟨c0, hr, _⟩ := legal_road hm hs ho (hin x hrx) hl
      exact ⟨x, c0, ⟨rfl, rfl, rfl, rfl⟩, hst.reach hc hm hs ho hrx, hr, fun _ => rfl⟩
    · obtain ⟨x', c, hx, hl⟩ := p1 x y hxy
      have hrx : Reachable (padAlgo clamp m skips b S mvs pd isg) s (padContent sp s sp s start start) x' := by
        rcases hx with rfl | hx
        · exact t3 x' (hxy.subset (by simp))
        · exact hx.2
      obtain ⟨c0, hr, _⟩ := legal_road hm hs ho (hin x' hrx) hl
      refine ⟨x', c0, ?_, hst.reach hc hm hs ho hrx, hr, fun e => absurd e hp⟩
      rcases hx with rfl | hx
      · exact ⟨rfl, rfl, rfl, rfl⟩
      · exact sameState_of_sameCell hc hm hx.1
  · refine t4.trans (le_of_eq ?_)
    simp only [Fintype.card_prod, Fintype.card_fin, Fintype.card_bool]
    ring
  · obtain ⟨a1, a2⟩ := (hst.hs n).1 hn
    obtain ⟨e1, e2, _⟩ := (poseCells_mem hst.hsp n).1 a1
    rw [← e1, ← e2]; exact a2
  · refine ⟨k, w, ?_, hst.reach hc hm hs ho t6, t7⟩
    rcases t8 with rfl | t8
    · exact ⟨rfl, rfl, rfl, rfl⟩
    · exact sameState_of_sameCell hc hm t8

/-- Without heuristic every step begins at the pose before it, and the last pose itself was accepted. -/
theorem pad_custom_exact (hc : ClampSpec clamp) (hm : SteerMapOk m D) (hs : StepBound mvs D) (ho : Offers mvs adv m.res)
    (ok : KCostOk (padAlgo clamp m skips b S mvs pd isg) cs) (L : Lawful O) (M : MinFirst O) (ht : TopOk cfg.top)
    (hheur : ∀ k g, S.heur k g = 0) (hhg : T.heurGoal = none) (h1 : IntPose start) {fuel : Nat} {q : List SNode}
    (h : padFindTest clamp (padAlgo clamp m skips b S mvs pd isg) O cfg T rev start fuel = some (.ok q)) (hne : q ≠ []) :
    ∃ q0, q = (if rev then q0.reverse else q0) ∧
    (∃ k0, q0.head? = some k0 ∧ StartPose start start k0) ∧
    (∀ x y, [x, y] <:+: q0 → ∃ c, RoadStep adv m skips x c y) ∧
    ∃ kl w, q0.getLast? = some kl ∧ PoseAccepted T kl w := by
  obtain ⟨sp, s, q0, st', hst, hq, hk⟩ := padFindTest_ok hc hm h1 h
  have hne0 : q0 ≠ [] := by
    rintro rfl
    apply hne
    rw [hq]
    cases rev <;> rfl
  obtain ⟨_, _, t3, _⟩ := kin_custom_path (cfg := { cfg with start := s }) ok L ht hk hne0
  obtain ⟨⟨d, t1⟩, ⟨n, hn, t2⟩, kl, w, t5, t6, _⟩ :=
    kin_custom_exact (cfg := { cfg with start := s }) ok L M ht hheur hhg (fun a => add_zero a) hk hne0
  refine ⟨q0, hq, ⟨_, t2, hst.startPose hn⟩, ?_, kl, w, t5, t6⟩
  intro x y hxy
  obtain ⟨c, hl⟩ := drive_pairs t1 x y hxy
  obtain ⟨c0, hr, _⟩ := legal_road hm hs ho
    (reachable_inside hc hm (fun _ _ => padContent_inside _) (t3 x (hxy.subset (by simp)))) hl
  exact ⟨c0, hr⟩

/-- **Giving up**: without time limit, and if the test stops the search only at poses it accepts, an empty result means that
there is a set of reachable poses with both driving directions at the start that cannot be left by a step of the
neighbourhood - up to the size of the cells - and in which the test does not always accept a pose. -/
theorem pad_custom_complete (hc : ClampSpec clamp) (hm : SteerMapOk m D) (hs : StepBound mvs D) (ho : Offers mvs adv m.res)
    (ok : KCostOk (padAlgo clamp m skips b S mvs pd isg) cs) (L : Lawful O) (ht : TopOk cfg.top)
    (hab : ∀ i, cfg.abort i = false) (hT : StopsAtAccepted T)
    {next : SNode → ℝ → SNode → Prop}
    (hnext : ∀ k c k', next k c k' → ∃ mv ∈ mvs, ∀ ps, mv k ps = some (c * m.res, k'))
    (h1 : IntPose start) {fuel : Nat}
    (h : padFindTest clamp (padAlgo clamp m skips b S mvs pd isg) O cfg T rev start fuel = some (.ok [])) :
    ∃ X, Enclosed clamp adv m skips next start X ∧ ∀ k, X k → ¬ PoseAlwaysAccepted T k := by
  obtain ⟨sp, s, q0, st', hst, hq, hk⟩ := padFindTest_ok hc hm h1 h
  have hq0 : q0 = [] := by cases rev <;> simpa using hq.symm
  subst hq0
  obtain ⟨κ, hsat, hacc⟩ := kin_custom_complete (cfg := { cfg with start := s }) ok L ht hab hT hk
  refine ⟨fun k => ∃ n, κ n = some k, ⟨?_, ?_, ?_⟩, fun k ⟨n, hn⟩ => hacc n k hn⟩
  · intro hocc f
    obtain ⟨n, hn, e1, e2, e3, e4⟩ := mem_poseCells hst.hsp f
    have hns : n ∈ s := (hst.hs n).2 ⟨hn, by rw [e1, e2]; exact hocc⟩
    refine ⟨_, ⟨n, hsat.init n hns⟩, hst.startPose hns, ?_⟩
    simp [padContent, hn, e4]
  · rintro k ⟨n, hn⟩
    exact hst.reach hc hm hs ho (hsat.reach n k hn)
  · rintro k c k' ⟨n, hn⟩ hnx hrs hin
    obtain ⟨mv, hmv, hmv2⟩ := hnext k c k' hnx
    obtain ⟨ps, hps⟩ := hsat.moves n k hn mv hmv
    obtain ⟨v, hv⟩ := lookup_of_inside hc hm.sizes.1 hm.sizes.2 hin
    have hik : InsidePad m.width m.height k :=
      reachable_inside hc hm (fun _ _ => padContent_inside _) (hsat.reach n k hn)
    have hus : steerUsable m skips b k k' = .ok true := by
      obtain ⟨u, hu, hui⟩ := steerUsable_iff hm skips b hik
        (intNode_of_step hm hik (hs mv hmv k [] _ _ (hmv2 [])))
      rw [hu]
      congr 1
      rw [hui]
      refine ⟨?_, hrs.2.2⟩
      unfold InsidePad at hin
      omega
    obtain ⟨k'', hk''⟩ := Option.ne_none_iff_exists'.1 (hps _ _ v (hmv2 ps) hus hv)
    refine ⟨k'', ⟨v, hk''⟩, ?_⟩
    obtain ⟨a1, a2, a3, a4⟩ := (steerLookup_iff hc hm.sizes.1 hm.sizes.2).1 hv
    rcases hsat.cell v k'' hk'' with hvs | hvl
    · right
      have e := hsat.init v hvs
      rw [hk''] at e
      injection e with e
      have hvs' : v ∈ s := hvs
      have hsp := ((hst.hs v).1 hvs').1
      obtain ⟨c1, c2, c3⟩ := (poseCells_mem hst.hsp v).1 hsp
      refine ⟨by rw [e]; exact hst.startPose hvs', ?_, ?_, ?_, ?_⟩
      · rw [e]; simp [padContent, initContent]; omega
      · rw [e]; simp [padContent, initContent]; omega
      · rw [e]; simp only [padContent, hsp, true_or, if_true]; exact a4
      · rw [a3, c3]
    · left
      exact sameState_of_sameCell (S := S) (b := b) (skips := skips) (mvs := mvs) (pd := pd) (isg := isg) hc hm
        ⟨v, hvl, hv⟩

end

/-! ### `DynamicSteeringNeighborhood` -/

section
variable {clamp : ℝ → ℝ} {P : DynP} {distThr angThr : ℝ} {m : GridMap ℝ} {skips : Nat} {b : Bres ℝ} {S : SteerCfg}
  {O : OpenList (PadCell m.width m.height) ℝ} {cfg : SCfg (PadCell m.width m.height) ℝ} {start : Pose}
  {T : KGoalTest (PadCell m.width m.height) SNode ℝ O}

theorem dyn_custom_ends (hc : ClampSpec clamp) (hd : 0 ≤ P.distStep) (hr : 0 < P.resolution) (hm : SteerMapOk m P.stepLen)
    (L : Lawful O) (ht : TopOk cfg.top) (h1 : IntPose start) :
    ∃ fuel r, padFindTest clamp (dynSteerAlgo clamp P distThr angThr m skips b S) O cfg T P.reversed start fuel = some r ∧
      r ≠ .ub ∧ ∀ e, r = .throw e → (e = "OutsideMapException" ∨ e = "std::out_of_range") ∧
        (¬ InsidePad m.width m.height ⟨start.x, start.y, 0, true, 0, 0, 0⟩ ∨
          ∃ k c k', RoadReach (DynAdv clamp P S.so) m skips start start k ∧
            RoadStep (DynAdv clamp P S.so) m skips k c k' ∧ OnEdge m.width m.height k') :=
  pad_custom_ends hc hm (dynMoves_stepBound hd hr) dyn_offers (dyn_costOk hm.res) L ht h1

/-- **What a path is** that `findPath(from, goal_test)` returns with `DynamicSteeringNeighborhood` (for a reversed
neighbourhood: turned round): it begins in the cell of the start with its heading, every pose of it can be reached by driving
with steering angles in the allowed range, each pose is driven to from the one before it or another one of the same state,
and it ends at a pose the goal test accepted, or in the state of one. -/
theorem dyn_custom_path (hc : ClampSpec clamp) (hd : 0 ≤ P.distStep) (hr : 0 < P.resolution) (hm : SteerMapOk m P.stepLen)
    (hst : 0 ≤ P.maxSteer ∧ P.maxSteer < 90) (hla : P.la ≠ 0)
    (L : Lawful O) (ht : TopOk cfg.top) (h1 : IntPose start) {fuel : Nat} {q : List SNode}
    (h : padFindTest clamp (dynSteerAlgo clamp P distThr angThr m skips b S) O cfg T P.reversed start fuel = some (.ok q))
    (hne : q ≠ []) :
    ∃ q0, q = (if P.reversed then q0.reverse else q0) ∧
    (∃ k0, q0.head? = some k0 ∧ StartPose start start k0) ∧
    (∀ k ∈ q0, RoadReach (DynAdv clamp P S.so) m skips start start k ∧ abs k.steer ≤ P.maxSteer) ∧
    (∀ x y, [x, y] <:+: q0 → abs (x.x - y.x) < P.stepLen + 1 ∧ abs (x.y - y.y) < P.stepLen + 1 ∧
      ∃ x', SameState clamp x' x ∧ ([x, y] <+: q0 → x' = x) ∧ RoadReach (DynAdv clamp P S.so) m skips start start x' ∧
        LineOk m skips x' y ∧
        DrivesTo P.la P.resolution ((y.steer : ℝ) / 180 * Real.pi) (driveSign P.reversed y.forward)
          (if P.reversed = false ∧ x'.depth < 1 ∧ y.forward = false then P.la else P.distStep) x' y) ∧
    q0.length ≤ (m.width + 63) * (m.height + 63) * 64 ∧ ptOccupied m ⌊start.x⌋ ⌊start.y⌋ = .ok false ∧
    ∃ kl, q0.getLast? = some kl ∧ ∃ k w, SameState clamp k kl ∧ RoadReach (DynAdv clamp P S.so) m skips start start k ∧
      PoseAccepted T k w := by
  obtain ⟨q0, hq, t1, t2, t3, t5, t6, t7⟩ :=
    pad_custom_path hc hm (dynMoves_stepBound hd hr) dyn_offers (dyn_costOk hm.res) L ht h1 h hne
  refine ⟨q0, hq, t1, fun k hk => ⟨t2 k hk, dynAdv_steer hst.1 (t2 k hk)⟩, ?_, t5, t6, t7⟩
  intro x y hxy
  obtain ⟨x', c, hs, hre, hst', hpre⟩ := t3 x y hxy
  obtain ⟨f1, f2, f3⟩ := dynAdv_facts hc hst hla hd hr hst'
  obtain ⟨n1, n2⟩ := SameState.near hs
  obtain ⟨d1, d2⟩ := abs_le_nodeDist x' y
  refine ⟨?_, ?_, x', hs, hpre, hre, f3, f1⟩
  · have := abs_sub_le x.x x'.x y.x
    rw [abs_sub_comm x.x x'.x] at this
    linarith
  · have := abs_sub_le x.y x'.y y.y
    rw [abs_sub_comm x.y x'.y] at this
    linarith

/-- Without heuristic the path can be driven as it is, and its last pose is one the goal test accepted. -/
theorem dyn_custom_exact (hc : ClampSpec clamp) (hd : 0 ≤ P.distStep) (hr : 0 < P.resolution) (hm : SteerMapOk m P.stepLen)
    (hst : 0 ≤ P.maxSteer ∧ P.maxSteer < 90) (hla : P.la ≠ 0)
    (L : Lawful O) (M : MinFirst O) (ht : TopOk cfg.top) (hheur : ∀ k g, S.heur k g = 0) (hhg : T.heurGoal = none)
    (h1 : IntPose start) {fuel : Nat} {q : List SNode}
    (h : padFindTest clamp (dynSteerAlgo clamp P distThr angThr m skips b S) O cfg T P.reversed start fuel = some (.ok q))
    (hne : q ≠ []) :
    ∃ q0, q = (if P.reversed then q0.reverse else q0) ∧
    (∃ k0, q0.head? = some k0 ∧ StartPose start start k0) ∧
    (∀ x y, [x, y] <:+: q0 → LineOk m skips x y ∧ nodeDist x y ≤ P.stepLen ∧
      DrivesTo P.la P.resolution ((y.steer : ℝ) / 180 * Real.pi) (driveSign P.reversed y.forward)
        (if P.reversed = false ∧ x.depth < 1 ∧ y.forward = false then P.la else P.distStep) x y) ∧
    ∃ kl w, q0.getLast? = some kl ∧ PoseAccepted T kl w := by
  obtain ⟨q0, hq, t1, t2, t3⟩ :=
    pad_custom_exact hc hm (dynMoves_stepBound hd hr) dyn_offers (dyn_costOk hm.res) L M ht hheur hhg h1 h hne
  refine ⟨q0, hq, t1, fun x y hxy => ?_, t3⟩
  obtain ⟨c, hs⟩ := t2 x y hxy
  obtain ⟨f1, f2, f3⟩ := dynAdv_facts hc hst hla hd hr hs
  exact ⟨f3, f2, f1⟩

theorem dyn_custom_complete (hc : ClampSpec clamp) (hd : 0 ≤ P.distStep) (hr : 0 < P.resolution)
    (hm : SteerMapOk m P.stepLen) (L : Lawful O) (ht : TopOk cfg.top) (hab : ∀ i, cfg.abort i = false)
    (hT : StopsAtAccepted T) (h1 : IntPose start) {fuel : Nat}
    (h : padFindTest clamp (dynSteerAlgo clamp P distThr angThr m skips b S) O cfg T P.reversed start fuel = some (.ok [])) :
    ∃ X, Enclosed clamp (DynAdv clamp P S.so) m skips (DynAdv clamp P S.so) start X ∧
      ∀ k, X k → ¬ PoseAlwaysAccepted T k :=
  pad_custom_complete hc hm (dynMoves_stepBound hd hr) dyn_offers (dyn_costOk hm.res) L ht hab hT
    (fun _ _ _ h => dynAdv_next h) h1 h

end

/-! ### `SteeringNeighborhood` -/

section
variable {clamp : ℝ → ℝ} {P : SteerP} {distance : Int} {garbage : Nat × Nat → Int} {m : GridMap ℝ} {skips : Nat}
  {b : Bres ℝ} {S : SteerCfg}
  {O : OpenList (PadCell m.width m.height) ℝ} {cfg : SCfg (PadCell m.width m.height) ℝ} {start : Pose}
  {T : KGoalTest (PadCell m.width m.height) SNode ℝ O}

theorem steer_custom_ends (hc : ClampSpec clamp) (hd : 0 ≤ P.distStep) (hr : 0 < P.resolution) (hm : SteerMapOk m P.distPx)
    (L : Lawful O) (ht : TopOk cfg.top) (h1 : IntPose start) :
    ∃ fuel r, padFindTest clamp (steerAlgo clamp P distance garbage m skips b S) O cfg T P.reversed start fuel = some r ∧
      r ≠ .ub ∧ ∀ e, r = .throw e → (e = "OutsideMapException" ∨ e = "std::out_of_range") ∧
        (¬ InsidePad m.width m.height ⟨start.x, start.y, 0, true, 0, 0, 0⟩ ∨
          ∃ k c k', RoadReach (SteerAdv clamp P S.so) m skips start start k ∧
            RoadStep (SteerAdv clamp P S.so) m skips k c k' ∧ OnEdge m.width m.height k') :=
  pad_custom_ends hc hm (steerMoves_stepBound hd hr) steer_offers (steer_costOk hm.res) L ht h1

/-- The same for `SteeringNeighborhood`. -/
theorem steer_custom_path (hc : ClampSpec clamp) (hd : 0 ≤ P.distStep) (hr : 0 < P.resolution) (hm : SteerMapOk m P.distPx)
    (hst : 0 ≤ P.maxSteer ∧ P.maxSteer < 90) (hla : P.la ≠ 0)
    (L : Lawful O) (ht : TopOk cfg.top) (h1 : IntPose start) {fuel : Nat} {q : List SNode}
    (h : padFindTest clamp (steerAlgo clamp P distance garbage m skips b S) O cfg T P.reversed start fuel = some (.ok q))
    (hne : q ≠ []) :
    ∃ q0, q = (if P.reversed then q0.reverse else q0) ∧
    (∃ k0, q0.head? = some k0 ∧ StartPose start start k0) ∧
    (∀ k ∈ q0, RoadReach (SteerAdv clamp P S.so) m skips start start k ∧ abs k.steer ≤ P.maxSteer) ∧
    (∀ x y, [x, y] <:+: q0 → abs (x.x - y.x) < P.distPx + 1 ∧ abs (x.y - y.y) < P.distPx + 1 ∧
      (P.size = 3 → y.forward = true) ∧
      ∃ x', SameState clamp x' x ∧ ([x, y] <+: q0 → x' = x) ∧ RoadReach (SteerAdv clamp P S.so) m skips start start x' ∧
        LineOk m skips x' y ∧
        DrivesTo P.la P.resolution ((y.steer : ℝ) / 180 * Real.pi) (driveSign P.reversed y.forward) P.distStep x' y) ∧
    q0.length ≤ (m.width + 63) * (m.height + 63) * 64 ∧ ptOccupied m ⌊start.x⌋ ⌊start.y⌋ = .ok false ∧
    ∃ kl, q0.getLast? = some kl ∧ ∃ k w, SameState clamp k kl ∧ RoadReach (SteerAdv clamp P S.so) m skips start start k ∧
      PoseAccepted T k w := by
  obtain ⟨q0, hq, t1, t2, t3, t5, t6, t7⟩ :=
    pad_custom_path hc hm (steerMoves_stepBound hd hr) steer_offers (steer_costOk hm.res) L ht h1 h hne
  refine ⟨q0, hq, t1, fun k hk => ⟨t2 k hk, steerAdv_steer hst.1 (t2 k hk)⟩, ?_, t5, t6, t7⟩
  intro x y hxy
  obtain ⟨x', c, hs, hre, hst', hpre⟩ := t3 x y hxy
  obtain ⟨f1, f2, f3, f4⟩ := steerAdv_facts hc hst hla hd hr hst'
  obtain ⟨n1, n2⟩ := SameState.near hs
  obtain ⟨d1, d2⟩ := abs_le_nodeDist x' y
  refine ⟨?_, ?_, f4, x', hs, hpre, hre, f3, f1⟩
  · have := abs_sub_le x.x x'.x y.x
    rw [abs_sub_comm x.x x'.x] at this
    linarith
  · have := abs_sub_le x.y x'.y y.y
    rw [abs_sub_comm x.y x'.y] at this
    linarith

theorem steer_custom_exact (hc : ClampSpec clamp) (hd : 0 ≤ P.distStep) (hr : 0 < P.resolution) (hm : SteerMapOk m P.distPx)
    (hst : 0 ≤ P.maxSteer ∧ P.maxSteer < 90) (hla : P.la ≠ 0)
    (L : Lawful O) (M : MinFirst O) (ht : TopOk cfg.top) (hheur : ∀ k g, S.heur k g = 0) (hhg : T.heurGoal = none)
    (h1 : IntPose start) {fuel : Nat} {q : List SNode}
    (h : padFindTest clamp (steerAlgo clamp P distance garbage m skips b S) O cfg T P.reversed start fuel = some (.ok q))
    (hne : q ≠ []) :
    ∃ q0, q = (if P.reversed then q0.reverse else q0) ∧
    (∃ k0, q0.head? = some k0 ∧ StartPose start start k0) ∧
    (∀ x y, [x, y] <:+: q0 → LineOk m skips x y ∧ nodeDist x y ≤ P.distPx ∧ (P.size = 3 → y.forward = true) ∧
      DrivesTo P.la P.resolution ((y.steer : ℝ) / 180 * Real.pi) (driveSign P.reversed y.forward) P.distStep x y) ∧
    ∃ kl w, q0.getLast? = some kl ∧ PoseAccepted T kl w := by
  obtain ⟨q0, hq, t1, t2, t3⟩ :=
    pad_custom_exact hc hm (steerMoves_stepBound hd hr) steer_offers (steer_costOk hm.res) L M ht hheur hhg h1 h hne
  refine ⟨q0, hq, t1, fun x y hxy => ?_, t3⟩
  obtain ⟨c, hs⟩ := t2 x y hxy
  obtain ⟨f1, f2, f3, f4⟩ := steerAdv_facts hc hst hla hd hr hs
  exact ⟨f3, f2, f4, f1⟩

theorem steer_custom_complete (hc : ClampSpec clamp) (hd : 0 ≤ P.distStep) (hr : 0 < P.resolution)
    (hm : SteerMapOk m P.distPx) (L : Lawful O) (ht : TopOk cfg.top) (hab : ∀ i, cfg.abort i = false)
    (hT : StopsAtAccepted T) (h1 : IntPose start) {fuel : Nat}
    (h : padFindTest clamp (steerAlgo clamp P distance garbage m skips b S) O cfg T P.reversed start fuel = some (.ok [])) :
    ∃ X, Enclosed clamp (SteerAdv clamp P S.so) m skips
      (fun k c k' => 0 ≤ c ∧ ∃ i step, i < P.size ∧ step ≤ P.steerSteps ∧
        ∀ ps, advance clamp P S.so (garbage (i, step)) k ps i step = some (c, k')) start X ∧
      ∀ k, X k → ¬ PoseAlwaysAccepted T k := by
  refine pad_custom_complete hc hm (steerMoves_stepBound hd hr) steer_offers (steer_costOk hm.res) L ht hab hT ?_ h1 h
  rintro k c k' ⟨hc0, i, step, hi, hs, hadv⟩
  refine ⟨_, List.mem_map.2 ⟨(i, step), moveList_complete (by omega) hi hs, rfl⟩, fun ps => ?_⟩
  exact scaled_some.2 ⟨c, hadv ps, hc0, rfl⟩

end

/-! ### A vehicle that drives straight ahead -/

section
variable {clamp : ℝ → ℝ} {P : DynP} {distThr angThr : ℝ} {m : GridMap ℝ} {skips : Nat} {b : Bres ℝ} {S : SteerCfg}
  {O : OpenList (PadCell m.width m.height) ℝ} {cfg : SCfg (PadCell m.width m.height) ℝ} {start : Pose}

theorem straight_reach_self (hc : ClampSpec clamp) (hP : StraightOnly P) {so : SOpts} (hθ : start.theta = 0)
    {k : SNode} (h : RoadReach (DynAdv clamp P so) m skips start start k) :
    (∃ j : Nat, k.x = ⌊start.x⌋ + (j : ℝ)) ∧ k.y = ⌊start.y⌋ ∧ k.theta = 0 ∧ k.steer = 0 ∧ k.custom = 0 := by
  induction h with
  | start h =>
    obtain ⟨h1, h2, h3, h4, _, h6⟩ := h
    rw [if_pos ⟨rfl, rfl⟩] at h6
    exact ⟨⟨0, by simpa using h1⟩, h2, h6.trans hθ, h3, h4⟩
  | step _ hs _ ih =>
    obtain ⟨⟨j, h1⟩, h2, h3, h4, h5⟩ := ih
    obtain ⟨r1, r2, r3, r4, _, r6⟩ := straight_adv hc hP hs.1 h3 h4 h5
    exact ⟨⟨j + 1, by rw [r1, h1]; push_cast; ring⟩, r2.trans h2, r3, r4, r6⟩

open Classical in
/-- The goal test that asks for a pose at `X` or to the right of it, and stops there. -/
def rightOf (O : OpenList (PadCell m.width m.height) ℝ) (X : Int) : KGoalTest (PadCell m.width m.height) SNode ℝ O where
  terminate st n := if (X : ℝ) ≤ (st.kin n).x then (some 0, true) else (none, false)
  heurGoal := none

theorem rightOf_accepts {X : Int} {k : SNode} {w : ℝ} (h : PoseAccepted (rightOf O X) k w) : (X : ℝ) ≤ k.x := by
  obtain ⟨st, n, rfl, e⟩ := h
  by_contra hx
  simp [rightOf, hx] at e

theorem rightOf_always {X : Int} {k : SNode} (h : (X : ℝ) ≤ k.x) : PoseAlwaysAccepted (rightOf O X) k := by
  intro st n e
  simp [rightOf, e, h]

theorem rightOf_stops {X : Int} : StopsAtAccepted (rightOf O X) := by
  intro st n h
  by_cases hx : (X : ℝ) ≤ (st.kin n).x
  · simp [rightOf, hx]
  · simp [rightOf, hx] at h

/-- On a map without obstacles a vehicle that can only drive straight ahead, starting with heading 0 *in a configuration with
whatever driving direction*, is given a path to every column of cells ahead of it; its last pose lies there. -/
theorem straight_custom (hc : ClampSpec clamp) (hP : StraightOnly P) (hm : SteerMapOk m P.stepLen)
    (L : Lawful O) (M : MinFirst O) (ht : TopOk cfg.top) (hab : ∀ i, cfg.abort i = false) (hheur : ∀ k g, S.heur k g = 0)
    (hst : P.maxSteer < 90) (hla : P.la ≠ 0) (node : SNode)
    (h1 : IntPose ⟨node.x, node.y, 0⟩) (hθ : node.theta = 0) (hin1 : InsidePad m.width m.height node)
    (hfree : ∀ x y, ptOccupied m x y = .ok false) {X : Int} (hx : ⌊node.x⌋ ≤ X) (hX : X < m.width + 32) :
    ∃ fuel q kl, padFindConfig clamp (dynSteerAlgo clamp P distThr angThr m skips b S) O cfg (rightOf O X) P.reversed node
        fuel = some (.ok q) ∧ q.getLast? = some kl ∧ (X : ℝ) ≤ kl.x ∧
      ∀ x y, [x, y] <:+: q → y.x = x.x + 1 ∧ y.y = x.y := by
  have hd : 0 ≤ P.distStep := by rw [hP.dist]; exact hP.res.le
  set start : Pose := ⟨node.x, node.y, node.theta⟩ with hstart
  have hIP : IntPose start := h1
  obtain ⟨fuel, r, e1, e2, e3⟩ := dyn_custom_ends (distThr := distThr) (angThr := angThr) (skips := skips) (b := b) (S := S)
    (T := rightOf O X) hc hd hP.res hm L ht hIP
  have hin : InsidePad m.width m.height ⟨start.x, start.y, 0, true, 0, 0, 0⟩ := hin1
  have hok : ∃ q, r = .ok q := by
    cases r with
    | ok q => exact ⟨q, rfl⟩
    | ub => exact absurd rfl e2
    | throw e =>
      exfalso
      rcases (e3 e rfl).2 with h | ⟨k, c, k', h3, h4, h5⟩
      · exact h hin
      · obtain ⟨⟨j, q1⟩, q2, q3, q4, q5⟩ := straight_reach_self hc hP hθ h3
        obtain ⟨r1, r2, _⟩ := straight_adv hc hP h4.1 q3 q4 q5
        have f1 : ⌊k'.x⌋ = ⌊start.x⌋ + j + 1 := by
          have : k'.x = ((⌊start.x⌋ + j + 1 : Int) : ℝ) := by rw [r1, q1]; push_cast; ring
          rw [this, Int.floor_intCast]
        have f2 : ⌊k'.y⌋ = ⌊start.y⌋ := by rw [r2, q2, Int.floor_intCast]
        unfold InsidePad at hin
        unfold OnEdge at h5
        simp only at hin
        omega
  obtain ⟨q, rfl⟩ := hok
  have hne : q ≠ [] := by
    rintro rfl
    obtain ⟨T, hT, hacc⟩ := dyn_custom_complete hc hd hP.res hm L ht hab rightOf_stops hIP e1
    have hxs : ⌊start.x⌋ ≤ X := hx
    have key : ∀ j : Nat, ⌊start.x⌋ + j ≤ X → ∃ k, T k ∧ k.x = ⌊start.x⌋ + (j : ℝ) ∧ k.forward = true := by
      intro j
      induction j with
      | zero =>
        intro _
        obtain ⟨k, hk, hs, hf⟩ := hT.init (hfree _ _) true
        exact ⟨k, hk, by simpa using hs.1, hf⟩
      | succ j ih =>
        intro hj
        obtain ⟨k, hk, hkx, hkf⟩ := ih (by push_cast at hj; omega)
        obtain ⟨_, q2, q3, q4, q5⟩ := straight_reach_self hc hP hθ (hT.reach k hk)
        obtain ⟨c, k', hadv⟩ := straight_next (so := S.so) hc hP q3 q4 q5 hkf
        obtain ⟨r1, r2, r3, r4, r5, r6⟩ := straight_adv hc hP hadv q3 q4 q5
        have f1 : ⌊k'.x⌋ = ⌊start.x⌋ + j + 1 := by
          have : k'.x = ((⌊start.x⌋ + j + 1 : Int) : ℝ) := by rw [r1, hkx]; push_cast; ring
          rw [this, Int.floor_intCast]
        have f2 : ⌊k'.y⌋ = ⌊start.y⌋ := by rw [r2, q2, Int.floor_intCast]
        have hin' : InsidePad m.width m.height k' := by
          unfold InsidePad at hin ⊢
          simp only at hin
          push_cast at hj
          omega
        obtain ⟨k'', hk'', hh⟩ := hT.closed k c k' hk hadv ⟨hadv, .inl hin', lineOk_of_free hm.wf hfree k k'⟩ hin'
        obtain ⟨⟨j', q1'⟩, _⟩ := straight_reach_self hc hP hθ (hT.reach k'' hk'')
        rcases hh with ⟨g1, _, g3, _⟩ | ⟨g1, g2, _⟩
        · refine ⟨k'', hk'', ?_, g3.trans r5⟩
          have : ⌊k''.x⌋ = ⌊start.x⌋ + j' := by
            have : k''.x = ((⌊start.x⌋ + j' : Int) : ℝ) := by rw [q1']; push_cast; ring
            rw [this, Int.floor_intCast]
          have hjj : j' = j + 1 := by omega
          rw [q1', hjj]
        · rw [g1.1, Int.floor_intCast] at g2
          omega
    obtain ⟨n, hn⟩ : ∃ n : Nat, X = ⌊start.x⌋ + n := ⟨(X - ⌊start.x⌋).toNat, by omega⟩
    obtain ⟨k, hk, hkx, _⟩ := key n (by omega)
    refine hacc k hk (rightOf_always ?_)
    rw [hkx, hn]; push_cast; exact le_refl _
  obtain ⟨q0, hq, ⟨k0, hk0, hs0⟩, t1, kl, w, t2, t3⟩ :=
    dyn_custom_exact hc hd hP.res hm ⟨hP.steer, hst⟩ hla L M ht hheur rfl hIP e1 hne
  obtain ⟨q0', hq', _, hreach, _⟩ := dyn_custom_path hc hd hP.res hm ⟨hP.steer, hst⟩ hla L ht hIP e1 hne
  rw [hP.rev] at hq hq'
  simp only [Bool.false_eq_true, if_false] at hq hq'
  subst hq
  subst hq'
  refine ⟨fuel, q, kl, by rw [config_eq_pose]; exact e1, t2, rightOf_accepts t3, fun x y hxy => ?_⟩
  obtain ⟨q1, hq1, _, u2, u3⟩ := pad_custom_exact hc hm (dynMoves_stepBound hd hP.res) dyn_offers (dyn_costOk hm.res) L M ht
    hheur rfl hIP e1 hne
  rw [hP.rev] at hq1
  simp only [Bool.false_eq_true, if_false] at hq1
  subst hq1
  obtain ⟨c, hstep⟩ := u2 x y hxy
  obtain ⟨_, _, q3, q4, q5⟩ := straight_reach_self hc hP hθ (hreach x (hxy.subset (by simp))).1
  obtain ⟨r1, r2, _⟩ := straight_adv hc hP hstep.1 q3 q4 q5
  exact ⟨r1, r2⟩

end

namespace SteerEx

/-- On the free map of four by two cells, from a configuration that drives backwards. -/
theorem example_custom {clamp : ℝ → ℝ} (hc : ClampSpec clamp) :
    ∃ fuel q kl, padFindConfig clamp (dynSteerAlgo clamp P (1 / 10) (1 / 10) map 0 bres S) PriorityManager cfg
      (rightOf PriorityManager 3) P.reversed ⟨0, 0, 0, false, 7, 8, 9⟩ fuel = some (.ok q) ∧ q.getLast? = some kl ∧
      ((3 : Int) : ℝ) ≤ kl.x ∧ ∀ x y, [x, y] <:+: q → y.x = x.x + 1 ∧ y.y = x.y := by
  refine straight_custom hc ⟨rfl, rfl, rfl, rfl, rfl, by norm_num [P], by norm_num [P]⟩ map_ok prioLawful prioMin
    SearchEx.topRef_ok (fun _ => rfl) (fun _ _ => rfl) (by norm_num [P]) ?_ _ ?_ rfl ?_ free ?_ ?_ <;>
    norm_num [IntPose, InsidePad, map, P]

end SteerEx
end PathPlanning
