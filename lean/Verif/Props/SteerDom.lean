import Verif.Props.SteerSearch2
import Verif.Props.KinDom
import Verif.Spec.SteerDom

/-!
# What steering searches without heuristic overlook (C98)
-/

noncomputable section
namespace PathPlanning
open Spec
set_option linter.unusedSectionVars false

section
variable {clamp : ℝ → ℝ} {m : GridMap ℝ} {skips : Nat} {b : Bres ℝ} {S : SteerCfg} {pd : Nat}
  {mvs : List (SNode → List SNode → Option (ℝ × SNode))} {isg : SNode → SNode → Option SNode → Bool} {D : ℝ}
  {adv : SNode → ℝ → SNode → Prop} {cs : List ℝ} {next : SNode → List SNode → ℝ → SNode → Prop}
  {O : OpenList (PadCell m.width m.height) ℝ} {cfg : SCfg (PadCell m.width m.height) ℝ} {start goal : Pose}
  {sp s gp g : List (PadCell m.width m.height)}

/-- The moves with the predecessors they look at are the steps of `next`. -/
def NextIs (mvs : List (SNode → List SNode → Option (ℝ × SNode))) (pd : Nat) (next : SNode → List SNode → ℝ → SNode → Prop)
    (res : ℝ) : Prop :=
  ∀ k ps c k', (∃ mv ∈ mvs, mv k (ps.take pd) = some (c, k')) ↔ ∃ c0, next k ps c0 k' ∧ c = c0 * res

theorem Started.road_of_drive (hc : ClampSpec clamp) (hm : SteerMapOk m D) (hs : StepBound mvs D) (hx : NextIs mvs pd next m.res)
    (h : Started clamp m start goal sp s gp g) {q : List SNode} {d : ℝ}
    (hq : DriveFrom (padAlgo clamp m skips b S mvs pd isg) s (padContent sp s gp g start goal) q d) :
    Road next m skips start goal q d := by
  obtain ⟨h1, h2, h3⟩ := hq
  suffices hh : Road next m skips start goal q d ∧ ∀ k, q.getLast? = some k → InsidePad m.width m.height k from hh.1
  induction h1 with
  | start k =>
    obtain ⟨n, hn, e⟩ := h2
    simp only [List.head?_cons, Option.some.injEq] at e
    subst e
    refine ⟨.start (h.startPose hn), fun k hk => ?_⟩
    simp only [List.getLast?_singleton, Option.some.injEq] at hk
    rw [← hk]; exact padContent_inside _
  | @step l k c k' d mv hd hmv hmove hus ih =>
    obtain ⟨n, hn, e⟩ := h2
    obtain ⟨i1, i2⟩ := ih ⟨n, hn, by rw [List.head?_append_of_ne_nil _ (by simp)] at e; exact e⟩ (by
      intro x hx'
      apply h3
      rw [List.tail_append_of_ne_nil (by simp)]
      exact List.mem_append_left _ hx')
    obtain ⟨v, hv⟩ := h3 k' (by rw [List.tail_append_of_ne_nil (by simp)]; simp)
    have hin : InsidePad m.width m.height k' := inside_of_lookup hc hm.sizes.1 hm.sizes.2 hv
    have hik : InsidePad m.width m.height k := i2 k (by simp)
    obtain ⟨u, hu1, hu2⟩ := steerUsable_iff hm skips b hik (intNode_of_step hm hik (hs mv hmv _ _ _ _ hmove))
    have hus' : steerUsable m skips b k k' = .ok true := hus
    rw [hu1] at hus'
    injection hus' with hus'
    obtain ⟨c0, hc0, rfl⟩ := (hx k l.reverse c k').1 ⟨mv, hmv, hmove⟩
    refine ⟨.step i1 hc0 hin (hu2.1 hus').2, fun z hz => ?_⟩
    simp only [List.getLast?_append, List.getLast?_singleton, Option.some_or, Option.some.injEq] at hz
    rw [← hz]; exact hin

theorem Started.startNode (h : Started clamp m start goal sp s gp g) (hocc : ptOccupied m ⌊start.x⌋ ⌊start.y⌋ = .ok false)
    {k : SNode} (hk : StartPose start goal k) : ∃ n ∈ s, k = padContent sp s gp g start goal n := by
  obtain ⟨n, hn, e1, e2, e3, e4⟩ := mem_poseCells h.hsp k.forward
  have hns : n ∈ s := (h.hs n).2 ⟨hn, by rw [e1, e2]; exact hocc⟩
  refine ⟨n, hns, ?_⟩
  obtain ⟨a1, a2, a3, a4, a5, a6⟩ := h.startPose hns
  obtain ⟨b1, b2, b3, b4, b5, b6⟩ := hk
  ext
  · rw [a1, b1]
  · rw [a2, b2]
  · rw [a6, b6]
  · simp [padContent, hn, e4]
  · rw [a3, b3]
  · rw [a4, b4]
  · rw [a5, b5]

theorem Started.drive_of_road (hc : ClampSpec clamp) (hm : SteerMapOk m D) (hs : StepBound mvs D) (hx : NextIs mvs pd next m.res)
    (h : Started clamp m start goal sp s gp g) (hocc : ptOccupied m ⌊start.x⌋ ⌊start.y⌋ = .ok false) {q : List SNode} {d : ℝ}
    (hq : Road next m skips start goal q d) :
    DriveFrom (padAlgo clamp m skips b S mvs pd isg) s (padContent sp s gp g start goal) q d := by
  suffices hh : DriveFrom (padAlgo clamp m skips b S mvs pd isg) s (padContent sp s gp g start goal) q d ∧
      ∀ k, q.getLast? = some k → InsidePad m.width m.height k from hh.1
  induction hq with
  | @start k hk =>
    obtain ⟨n, hn, rfl⟩ := h.startNode hocc hk
    refine ⟨⟨Drive.start (A := padAlgo clamp m skips b S mvs pd isg) _, ⟨n, hn, rfl⟩, by simp⟩, fun k hk => ?_⟩
    simp only [List.getLast?_singleton, Option.some.injEq] at hk
    rw [← hk]; exact padContent_inside _
  | @step l k k' c d _ hn hin hl ih =>
    obtain ⟨⟨i1, ⟨n, hns, i2⟩, i3⟩, i4⟩ := ih
    have hik : InsidePad m.width m.height k := i4 k (by simp)
    obtain ⟨mv, hmv, hmove⟩ := (hx k l.reverse (c * m.res) k').2 ⟨c, hn, rfl⟩
    obtain ⟨u, hu1, hu2⟩ := steerUsable_iff hm skips b hik (intNode_of_step hm hik (hs mv hmv _ _ _ _ hmove))
    have hus : steerUsable m skips b k k' = .ok true := by
      rw [hu1]
      congr 1
      rw [hu2]
      refine ⟨?_, hl⟩
      unfold InsidePad at hin
      omega
    refine ⟨⟨Drive.step (A := padAlgo clamp m skips b S mvs pd isg) i1 hmv hmove hus, ⟨n, hns, ?_⟩, ?_⟩, fun z hz => ?_⟩
    · rw [List.head?_append_of_ne_nil _ (by simp)]; exact i2
    · intro x hx'
      rw [List.tail_append_of_ne_nil (by simp)] at hx'
      rcases List.mem_append.1 hx' with hx' | hx'
      · exact i3 x hx'
      · simp only [List.mem_singleton] at hx'
        rw [hx']
        exact lookup_of_inside hc hm.sizes.1 hm.sizes.2 hin
    · simp only [List.getLast?_append, List.getLast?_singleton, Option.some_or, Option.some.injEq] at hz
      rw [← hz]; exact hin

/-- A search without heuristic on the chunk manager, start and goal not occupied: its path is a road, and cheaper roads to the goal are
overlooked only for the reasons of `Overlooked`. -/
theorem pad_overlooks (hc : ClampSpec clamp) (hm : SteerMapOk m D) (hs : StepBound mvs D) (ho : Offers mvs adv m.res)
    (hx : NextIs mvs pd next m.res) (ok : KCostOk (padAlgo clamp m skips b S mvs pd isg) cs) (L : Lawful O) (M : MinFirst O)
    (ht : TopOk cfg.top) (hheur : ∀ k g, S.heur k g = 0) (hhg : cfg.heurGoal = none) (huse : cfg.useCands = false)
    (hab : ∀ i, cfg.abort i = false) {H : Nat} (hH : pd ≤ H) (hpv : 1 ≤ H ∨ ∀ g k pv pv', isg g k pv = isg g k pv')
    (h1 : IntPose start) (h2 : IntPose goal) (ho1 : ptOccupied m ⌊start.x⌋ ⌊start.y⌋ = .ok false)
    (ho2 : ptOccupied m ⌊goal.x⌋ ⌊goal.y⌋ = .ok false) {fuel : Nat} {r : List SNode}
    (h : padFindPath clamp (padAlgo clamp m skips b S mvs pd isg) O cfg start goal fuel = some (.ok r)) :
    ∃ d : WithTop ℝ, (r = [] ↔ d = ⊤) ∧ (∀ c : ℝ, d = c → Road next m skips start goal r c) ∧
      ∀ q c, Road next m skips start goal q c → RoadToGoal isg goal q → (c : WithTop ℝ) < d →
        Overlooked clamp next adv isg m skips start goal H q c := by
  obtain ⟨sp, s, gp, g, hst, hk⟩ := padFindPath_ok hc hm h1 h2 h
  obtain ⟨d, t1, t2, t3⟩ := kin_overlooks (cfg := { cfg with start := s, goal := g }) (H := H) ok L M ht hheur hhg
    (fun a => add_zero a) huse hab hH hpv hk
  refine ⟨d, t1, fun c e => hst.road_of_drive hc hm hs hx (t2 c e), ?_⟩
  intro q c hq hgoal hlt
  obtain ⟨l, k, f, e, hisg⟩ := hgoal
  obtain ⟨v, hv, e1, e2, e3, e4⟩ := mem_poseCells hst.hgp f
  have hvg : v ∈ g := (hst.hg v).2 ⟨hv, by rw [e1, e2]; exact ho2⟩
  have hgn : padContent sp s gp g start goal v = goalNode goal f := by
    unfold padContent goalNode
    simp only [hvg, hv, or_true, if_true, e4, initContent, e1, e2]
  rcases t3 q c (hst.drive_of_road hc hm hs hx ho1 hq) v hvg ⟨l, k, e, by rw [hgn]; exact hisg⟩ hlt with
    ⟨l1, k1, D1, u1, u2, u3, l2, k2, D2, w, f1, f2, f3, f4, f5⟩ | ⟨kg, u1, u2, u3, l', k', u4, u5⟩
  · left
    refine ⟨l1, k1, D1, u1, hst.road_of_drive hc hm hs hx u2, u3, l2, k2, D2, hst.road_of_drive hc hm hs hx f1, f2, ?_, f5⟩
    rcases f4 with f4 | ⟨f4, f6, f7⟩
    · left
      exact sameState_of_sameCell (S := S) (b := b) (skips := skips) (mvs := mvs) (pd := pd) (isg := isg) hc hm ⟨w, f4, f3⟩
    · right
      have f3' : steerLookup clamp m.width m.height k1 = .ok (some w) := f3
      have f4' : w ∈ s := f4
      obtain ⟨a1, a2, a3, a4⟩ := (steerLookup_iff hc hm.sizes.1 hm.sizes.2).1 f3'
      have hsp := ((hst.hs w).1 f4').1
      obtain ⟨c1, c2, c3⟩ := (poseCells_mem hst.hsp w).1 hsp
      refine ⟨f6, ?_, ?_, ?_, ?_⟩
      · rw [f7]; simp [padContent, initContent]; omega
      · rw [f7]; simp [padContent, initContent]; omega
      · rw [f7]; simp only [padContent, hsp, true_or, if_true]; exact a4
      · rw [a3, c3]
  · right
    have u2' : steerLookup clamp m.width m.height kg = .ok (some v) := u2
    obtain ⟨a1, a2, a3, a4⟩ := (steerLookup_iff hc hm.sizes.1 hm.sizes.2).1 u2'
    refine ⟨kg, hst.reach hc hm hs ho u3, by omega, by omega, by rw [a3, e3], ?_, l', k', u4, u5⟩
    rw [← a4, e4, ← hgn]; exact u1

end

/-! ### `DynamicSteeringNeighborhood` -/

section
variable {clamp : ℝ → ℝ} {P : DynP} {distThr angThr : ℝ} {m : GridMap ℝ} {skips : Nat} {b : Bres ℝ} {S : SteerCfg}
  {O : OpenList (PadCell m.width m.height) ℝ} {cfg : SCfg (PadCell m.width m.height) ℝ} {start goal : Pose}

theorem dyn_next : NextIs (dynMoves clamp P S.so m.res) 0 (fun k _ c k' => DynAdv clamp P S.so k c k') m.res := by
  intro k ps c k'
  constructor
  · rintro ⟨mv, hmv, e⟩
    exact dynMoves_spec.1 ⟨mv, hmv, _, e⟩
  · rintro ⟨c0, hc0, rfl⟩
    obtain ⟨mv, hmv, e⟩ := dynAdv_next (m := m) hc0
    exact ⟨mv, hmv, e _⟩

/-- **C98.**  What a search with `DynamicSteeringNeighborhood` without heuristic overlooks: the path is a road, and a road to the goal
that is cheaper (any road, if no path was found) has a rival at one of its poses - a road at most as expensive to another
pose of the same state -, or the goal has been replaced by a pose of its cell. -/
theorem dyn_overlooks (hc : ClampSpec clamp) (hd : 0 ≤ P.distStep) (hr : 0 < P.resolution) (hm : SteerMapOk m P.stepLen)
    (L : Lawful O) (M : MinFirst O) (ht : TopOk cfg.top) (hheur : ∀ k g, S.heur k g = 0) (hhg : cfg.heurGoal = none)
    (huse : cfg.useCands = false) (hab : ∀ i, cfg.abort i = false) (h1 : IntPose start) (h2 : IntPose goal)
    (ho1 : ptOccupied m ⌊start.x⌋ ⌊start.y⌋ = .ok false) (ho2 : ptOccupied m ⌊goal.x⌋ ⌊goal.y⌋ = .ok false)
    {fuel : Nat} {r : List SNode}
    (h : padFindPath clamp (dynSteerAlgo clamp P distThr angThr m skips b S) O cfg start goal fuel = some (.ok r)) :
    ∃ d : WithTop ℝ, (r = [] ↔ d = ⊤) ∧
      (∀ c : ℝ, d = c → Road (fun k _ c k' => DynAdv clamp P S.so k c k') m skips start goal r c) ∧
      ∀ q c, Road (fun k _ c k' => DynAdv clamp P S.so k c k') m skips start goal q c →
        RoadToGoal (fun g k _ => dynIsGoal P.resolution distThr angThr g k) goal q → (c : WithTop ℝ) < d →
        Overlooked clamp (fun k _ c k' => DynAdv clamp P S.so k c k') (DynAdv clamp P S.so)
          (fun g k _ => dynIsGoal P.resolution distThr angThr g k) m skips start goal 0 q c :=
  pad_overlooks hc hm (dynMoves_stepBound hd hr) dyn_offers dyn_next (dyn_costOk hm.res) L M ht hheur hhg huse hab
    (le_refl _) (.inr fun _ _ _ _ => rfl) h1 h2 ho1 ho2 h

end

/-! ### `SteeringNeighborhood` -/

section
variable {clamp : ℝ → ℝ} {P : SteerP} {distance : Int} {garbage : Nat × Nat → Int} {m : GridMap ℝ} {skips : Nat}
  {b : Bres ℝ} {S : SteerCfg}
  {O : OpenList (PadCell m.width m.height) ℝ} {cfg : SCfg (PadCell m.width m.height) ℝ} {start goal : Pose}

/-- What `SteeringNeighborhood` offers at pose `k` after the poses `ps` (latest first); the uninitialised variable
contains `garbage`. -/
def SteerNext (clamp : ℝ → ℝ) (P : SteerP) (so : SOpts) (garbage : Nat × Nat → Int) (k : SNode) (ps : List SNode) (c : ℝ)
    (k' : SNode) : Prop :=
  ∃ i step : Nat, i < P.size ∧ step ≤ P.steerSteps ∧
    advance clamp P so (garbage (i, step)) k (ps.take (P.straightDirSwitch - 1).toNat) i step = some (c, k') ∧ 0 ≤ c

theorem steer_next : NextIs (steerMoves clamp P S.so garbage m.res) (P.straightDirSwitch - 1).toNat
    (SteerNext clamp P S.so garbage) m.res := by
  intro k ps c k'
  constructor
  · rintro ⟨mv, hmv, e⟩
    obtain ⟨⟨i, st⟩, hm, rfl⟩ := List.mem_map.1 hmv
    obtain ⟨c0, e1, e2, e3⟩ := scaled_some.1 e
    obtain ⟨h1, h2, h3⟩ := moveList_mem hm
    exact ⟨c0, ⟨i, st, h2, h3, e1, e2⟩, e3⟩
  · rintro ⟨c0, ⟨i, st, h2, h3, e1, e2⟩, rfl⟩
    refine ⟨_, List.mem_map.2 ⟨(i, st), moveList_complete (by omega) h2 h3, rfl⟩, ?_⟩
    exact scaled_some.2 ⟨c0, e1, e2, rfl⟩

/-- **C98.**  The same for `SteeringNeighborhood`; here the last poses of the history count too, as many as the rule for changes of
direction looks at, but at least one (the goal test looks at it). -/
theorem steer_overlooks (hc : ClampSpec clamp) (hd : 0 ≤ P.distStep) (hr : 0 < P.resolution) (hm : SteerMapOk m P.distPx)
    (L : Lawful O) (M : MinFirst O) (ht : TopOk cfg.top) (hheur : ∀ k g, S.heur k g = 0) (hhg : cfg.heurGoal = none)
    (huse : cfg.useCands = false) (hab : ∀ i, cfg.abort i = false) (h1 : IntPose start) (h2 : IntPose goal)
    (ho1 : ptOccupied m ⌊start.x⌋ ⌊start.y⌋ = .ok false) (ho2 : ptOccupied m ⌊goal.x⌋ ⌊goal.y⌋ = .ok false)
    {fuel : Nat} {r : List SNode}
    (h : padFindPath clamp (steerAlgo clamp P distance garbage m skips b S) O cfg start goal fuel = some (.ok r)) :
    ∃ d : WithTop ℝ, (r = [] ↔ d = ⊤) ∧ (∀ c : ℝ, d = c → Road (SteerNext clamp P S.so garbage) m skips start goal r c) ∧
      ∀ q c, Road (SteerNext clamp P S.so garbage) m skips start goal q c →
        RoadToGoal (steerIsGoal P distance) goal q → (c : WithTop ℝ) < d →
        Overlooked clamp (SteerNext clamp P S.so garbage) (SteerAdv clamp P S.so) (steerIsGoal P distance) m skips start goal
          (max 1 (P.straightDirSwitch - 1).toNat) q c :=
  pad_overlooks hc hm (steerMoves_stepBound hd hr) steer_offers steer_next (steer_costOk hm.res) L M ht hheur hhg huse hab
    (le_max_right _ _) (.inl (le_max_left _ _)) h1 h2 ho1 ho2 h

end
end PathPlanning
