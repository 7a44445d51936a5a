import Verif.Lemmas.HybridRefuse
import Verif.Props.HybridEx

/-!
# C104: when a steering search with Reeds-Shepp expansion gives up
-/

noncomputable section
namespace PathPlanning
namespace Spec

/-- A forward motion "turn, straight, turn" (radius 1.3 m, positive turned angles, below 180 degrees in total) leads from `p` to `q`,
which is at least two cells away; its turning circles do not overlap and lie in a rectangle of free cells of the map. -/
def OpenWay (m : GridMap ℝ) (p q : Pose) : Prop :=
  ∃ (x0 x1 y0 y1 : Int) (o o' : RS.Ori) (t1 L t3 : ℝ), FreeBox (Sampling.mapIf m) x0 x1 y0 y1 ∧
    0 < t1 ∧ 0 ≤ L ∧ 0 < t3 ∧ t1 + t3 < Real.pi ∧
    SameConfig (driveAll (13 / 10 / m.res) p (cscForward o o' t1 L t3)) q ∧
    2 * (13 / 10 / m.res) ≤ eucl (turnCentre (13 / 10 / m.res) o p) (turnCentre (13 / 10 / m.res) o' q) ∧
    CircleIn (13 / 10 / m.res) (turnCentre (13 / 10 / m.res) o p) x0 x1 y0 y1 ∧
    CircleIn (13 / 10 / m.res) (turnCentre (13 / 10 / m.res) o' q) x0 x1 y0 y1 ∧
    2 ≤ eucl p.pt q.pt ∧ (t1 + t3) * (13 / 10 / m.res) * (13 / 10) + L < 999999

end Spec
open Spec RSExp

/-! ### An expansion that is attempted at every call -/

theorem reach_current {clamp : ℝ → ℝ} {N : Int} (hN : 0 ≤ N) {ef eb : Bool} {st : St} (h : ExpReach clamp N ef eb st) :
    0 ≤ st.thr.current := by
  induction h with
  | @new junk junkF st h =>
    rw [new_eq] at h
    injection h with h
    subst h
    exact hN
  | @step st st' fuel s t map b _ hh hx ih =>
    have key : ∀ a thr, expStep N st.thr s.h = .ok (a, thr) → 0 ≤ thr.current := by
      intro a thr e
      unfold expStep at e
      simp only at e
      split_ifs at e with h1 h2
      · simp only [CRes.pure_eq, CRes.ok.injEq, Prod.mk.injEq] at e
        rw [← e.2]; simp only; omega
      · rw [CRes.bind_eq_ok] at e
        obtain ⟨s2, e1, e2⟩ := e
        rw [CRes.bind_eq_ok] at e1
        obtain ⟨n, e3, e4⟩ := e1
        simp only [CRes.pure_eq, CRes.ok.injEq] at e4
        split_ifs at e2 <;> simp only [CRes.pure_eq, CRes.ok.injEq, Prod.mk.injEq] at e2 <;> rw [← e2.2]
        · rw [← e4]; simp only; omega
      · simp only [CRes.pure_eq, CRes.ok_bind] at e
        split_ifs at e <;> simp only [CRes.ok.injEq, Prod.mk.injEq] at e <;> rw [← e.2] <;> simp only
        · omega
    rcases expand_cases hx with ⟨_, e, _⟩ | ⟨a, thr, _, hs, ⟨_, e, _⟩ | ⟨_, _, _, hf⟩⟩
    · rw [e]; exact ih
    · rw [e]; exact key _ _ hs
    · obtain ⟨g', r, _, _, e, _⟩ := find_cases hf
      rw [e]; exact key _ _ hs

section
variable {clamp : ℝ → ℝ} (hC : ClampSpec clamp) (hopen : ∀ t, -Real.pi < clamp t)
variable {eb : Bool} {m : GridMap ℝ} (h0 : 0 < m.res) (h1 : m.res ≤ 13 / 10)
include hC hopen h0 h1

/-- With `N = 0`, the second of two calls at a forward pose is an attempt. -/
theorem refuses_no_way {k kg kg' : SNode} {h : ℝ} (hh : 0 ≤ h) (hk : k.forward = true) {x1 x2 : St}
    (hx : ExpReach clamp 0 true eb x1) (hr : RefusesAll (rsExp clamp 0 true eb m) k h [kg, kg'] x1 x2) :
    ¬ OpenWay m (poseOf k) (poseOf kg') := by
  obtain ⟨y1, c1, y2, c2, _⟩ := hr
  have hy : ExpReach clamp 0 true eb y1 := rs_step hx hh c1
  rintro ⟨x0, x1', yy0, yy1, o, o', t1, L, t3, hb, p1, pL, p3, hsum, hgoal, hcen, hc1, hc2, hd, hcost⟩
  have hatt : ∃ thr, expStep 0 y1.thr h = .ok (true, thr) := by
    have hcur := reach_current (le_refl 0) hy
    have hinv : ExpInv 0 y1.thr := by
      rcases (reach_ok (le_refl 0) (by norm_num) hy).thr with ⟨q1, q2, q3⟩ | q
      · exfalso
        obtain ⟨f, hf⟩ := untilDone_ok c1
        have key : ∀ a thr, expStep 0 x1.thr h = .ok (a, thr) → 0 ≤ thr.initial := by
          intro a thr e
          rcases (reach_ok (le_refl 0) (by norm_num) hx).thr with ⟨w1, _⟩ | w
          · unfold expStep at e
            simp only [w1, if_true, CRes.pure_eq, CRes.ok.injEq, Prod.mk.injEq] at e
            rw [← e.2]; exact hh
          · obtain ⟨b, s', g1, g2, _⟩ := expStep_spec (le_refl 0) (by norm_num) w hh
            rw [g1] at e
            simp only [CRes.ok.injEq, Prod.mk.injEq] at e
            rw [← e.2]; exact g2.pos.trans g2.le
        rcases expand_cases hf with ⟨_, _, ⟨hh, _⟩ | ⟨_, hh⟩⟩ | ⟨a, thr, _, hs, ⟨_, e, _⟩ | ⟨_, _, _, hfind⟩⟩
        · cases hh
        · simp only [hk] at hh; cases hh
        · rw [e] at q1; exact absurd q1 (not_lt.2 (key _ _ hs))
        · obtain ⟨g', r, _, _, e, _⟩ := find_cases hfind
          rw [e] at q1; exact absurd q1 (not_lt.2 (key _ _ hs))
      · exact q
    obtain ⟨bb, s', g1, g2, _, g4, _⟩ := expStep_spec (le_refl 0) (by norm_num) hinv hh
    have hb : bb = true := g4.2 (by have := g2.nle; omega)
    subst hb
    exact ⟨s', g1⟩
  obtain ⟨thr, hatt⟩ := hatt
  obtain ⟨f, hf⟩ := expand_complete_box hC hopen (le_refl 0) (by norm_num) hy (map := Sampling.mapIf m) h0 h1 hb
    ⟨⟨k.x, k.y, k.theta⟩, h, k.forward⟩ ⟨⟨kg'.x, kg'.y, kg'.theta⟩, 0, kg'.forward⟩ hh hk hatt o o' t1 L t3 p1 pL p3 hsum hcen hc1 hc2
    hgoal hd hcost
  obtain ⟨z, hz⟩ := hf f (le_refl _)
  have : (rsExp clamp 0 true eb m).expand y1 k h kg' = .ok (true, z) := untilDone_of (expand_stable _ _ _ _ _ _ _ _) hz
  rw [c2] at this
  cases this

end

/-! ### Steering searches -/

section
variable {clamp : ℝ → ℝ} {m : GridMap ℝ} {skips : Nat} {b : Bres ℝ} {S : SteerCfg} {pd : Nat}
  {mvs : List (SNode → List SNode → Option (ℝ × SNode))} {isg : SNode → SNode → Option SNode → Bool} {D : ℝ}
  {adv : SNode → ℝ → SNode → Prop} {cs : List ℝ}
  {O : OpenList (PadCell m.width m.height) ℝ} {cfg : SCfg (PadCell m.width m.height) ℝ} {start goal : Pose}
  {n : Int} {ef eb : Bool}

/-- The goal nodes of a search whose goal cell is not occupied, in their order. -/
theorem Started.goalList (hc : ClampSpec clamp) (h2 : IntPose goal) {sp s gp g : List (PadCell m.width m.height)}
    (hst : Started clamp m start goal sp s gp g) (hocc : ptOccupied m ⌊goal.x⌋ ⌊goal.y⌋ = .ok false) :
    g.map (padContent sp s gp g start goal) = [goalNode goal true, goalNode goal false] := by
  obtain ⟨a, c, e, ha, hc'⟩ := hst.hgp
  have hg : g = [a, c] := by
    have hi := hst.init
    unfold padInit at hi
    simp only [CRes.bind_eq_ok, CRes.pure_eq, CRes.ok.injEq, Prod.mk.injEq] at hi
    obtain ⟨_, _, _, _, gp', _, g', hg', _, _, rfl, rfl⟩ := hi
    rw [e] at hg'
    simp only [notOccupied, ha, hc', hocc, CRes.pure_eq, CRes.ok_bind, Bool.false_eq_true, if_false, CRes.ok.injEq] at hg'
    exact hg'.symm
  have key : ∀ v ∈ g, padContent sp s gp g start goal v = goalNode goal v.fwd := by
    intro v hv
    have hvp : v ∈ gp := ((hst.hg v).1 hv).1
    obtain ⟨e1, e2, _⟩ := (poseCells_mem hst.hgp v).1 hvp
    unfold padContent goalNode
    simp only [hv, hvp, or_true, if_true, initContent, e1, e2]
  have k1 := key a (by rw [hg]; simp)
  have k2 := key c (by rw [hg]; simp)
  rw [ha.2.2.2] at k1
  rw [hc'.2.2.2] at k2
  rw [← k1, ← k2]
  conv_lhs => rw [hg]
  rw [hg]
  rfl

/-- **C104.** A search with expansion that gives up although its time was not limited: it is in a dead end of the neighbourhood, and
the expansion, asked for a way from each pose of the dead end to the goal - first with the goal's forward, then with its backward
node -, refused. -/
theorem pad_hybrid_complete (hc : ClampSpec clamp) (hm : SteerMapOk m D) (hs : StepBound mvs D)
    (ho : Offers mvs adv m.res) (ok : KCostOk (padAlgo clamp m skips b S mvs pd isg) cs) (L : Lawful O) (ht : TopOk cfg.top)
    (hab : ∀ i, cfg.abort i = false) (hrefl : ∀ k pv, isg k k pv = true)
    {next : SNode → ℝ → SNode → Prop}
    (hnext : ∀ k c k', next k c k' → ∃ mv ∈ mvs, ∀ ps, mv k ps = some (c * m.res, k'))
    (hheur : ∀ a b, 0 ≤ S.heur a b)
    (h1 : IntPose start) (h2 : IntPose goal) {x x' : St} (hx : ExpReach clamp n ef eb x) {fuel : Nat}
    (h : padFindPathX clamp (padAlgo clamp m skips b S mvs pd isg) (rsExp clamp n ef eb m) O cfg start goal x fuel =
      some (.ok [], x')) :
    ∃ T, DeadEnd clamp adv m skips next isg start goal T ∧
      (ptOccupied m ⌊goal.x⌋ ⌊goal.y⌋ = .ok false → ∀ k, T k → ∃ x1 x2 h, ExpReach clamp n ef eb x1 ∧ 0 ≤ h ∧
        RefusesAll (rsExp clamp n ef eb m) k h [goalNode goal true, goalNode goal false] x1 x2) := by
  rcases padInit_cases hc hm h1 h2 with ⟨sp, s, gp, g, e, p1, p2, p3, p4⟩ | ⟨e, he, _⟩
  · have hst : Started clamp m start goal sp s gp g := ⟨e, p1, p2, p3, p4⟩
    unfold padFindPathX at h
    rw [e] at h
    simp only at h
    obtain ⟨κ, hsat, hgn, hgt, hre⟩ := hybrid_complete (cfg := { cfg with start := s, goal := g }) ok L ht hab hrefl h
    refine ⟨_, hst.deadEnd hc hm hs ho hnext hsat hgn hgt, ?_⟩
    rintro hocc k ⟨v, hv⟩
    obtain ⟨x1, x2, hh, q1, q2, q3, _⟩ := hre v k hv
    have hgl := hst.goalList hc h2 hocc
    rw [hgl] at q3
    refine ⟨x1, x2, hh, rs_calls ?_ hx q2, ?_, q3⟩
    · rintro h ⟨a, c, rfl⟩; exact hheur a c
    · obtain ⟨c, rfl⟩ := q1 (by
        rintro e
        simp only at e
        rw [e] at hgl
        simp at hgl)
      exact hheur _ _
  · unfold padFindPathX at h
    rw [he] at h
    simp at h

section
variable {P : DynP} {distThr angThr : ℝ}

/-- **C104** for `DynamicSteeringNeighborhood`. -/
theorem dyn_hybrid_complete (hc : ClampSpec clamp) (hd : 0 ≤ P.distStep) (hr : 0 < P.resolution) (hm : SteerMapOk m P.stepLen)
    (L : Lawful O) (ht : TopOk cfg.top) (hab : ∀ i, cfg.abort i = false) (hdt : 0 < distThr) (hat : 0 ≤ angThr)
    (hheur : ∀ a b, 0 ≤ S.heur a b) (h1 : IntPose start) (h2 : IntPose goal) {x x' : St} (hx : ExpReach clamp n ef eb x) {fuel : Nat}
    (h : padFindPathX clamp (dynSteerAlgo clamp P distThr angThr m skips b S) (rsExp clamp n ef eb m) O cfg start goal x fuel =
      some (.ok [], x')) :
    ∃ T, DeadEnd clamp (DynAdv clamp P S.so) m skips (DynAdv clamp P S.so)
        (fun g k _ => dynIsGoal P.resolution distThr angThr g k) start goal T ∧
      (ptOccupied m ⌊goal.x⌋ ⌊goal.y⌋ = .ok false → ∀ k, T k → ∃ x1 x2 h, ExpReach clamp n ef eb x1 ∧ 0 ≤ h ∧
        RefusesAll (rsExp clamp n ef eb m) k h [goalNode goal true, goalNode goal false] x1 x2) :=
  pad_hybrid_complete hc hm (dynMoves_stepBound hd hr) dyn_offers (dyn_costOk hm.res) L ht hab
    (fun k _ => dynIsGoal_refl hdt hat k) (fun _ _ _ h => dynAdv_next h) hheur h1 h2 hx h

/-- **C104**, an expansion that is attempted at every call (`N = 0`): from no forward pose of the dead end an open way leads to the
goal. -/
theorem dyn_hybrid_no_way (hc : ClampSpec clamp) (hopen : ∀ t, -Real.pi < clamp t) (hd : 0 ≤ P.distStep) (hr : 0 < P.resolution)
    (hm : SteerMapOk m P.stepLen) (L : Lawful O) (ht : TopOk cfg.top) (hab : ∀ i, cfg.abort i = false) (hdt : 0 < distThr)
    (hat : 0 ≤ angThr) (h0 : 0 < m.res) (h13 : m.res ≤ 13 / 10)
    (hheur : ∀ a b, 0 ≤ S.heur a b) (h1 : IntPose start) (h2 : IntPose goal) {x x' : St} (hx : ExpReach clamp 0 true eb x) {fuel : Nat}
    (hocc : ptOccupied m ⌊goal.x⌋ ⌊goal.y⌋ = .ok false)
    (h : padFindPathX clamp (dynSteerAlgo clamp P distThr angThr m skips b S) (rsExp clamp 0 true eb m) O cfg start goal x fuel =
      some (.ok [], x')) :
    ∃ T, DeadEnd clamp (DynAdv clamp P S.so) m skips (DynAdv clamp P S.so)
        (fun g k _ => dynIsGoal P.resolution distThr angThr g k) start goal T ∧
      ∀ k, T k → k.forward = true → ¬ OpenWay m (poseOf k) ⟨⌊goal.x⌋, ⌊goal.y⌋, goal.theta⟩ := by
  obtain ⟨T, hT, hr⟩ := dyn_hybrid_complete hc hd hr hm L ht hab hdt hat hheur h1 h2 hx h
  refine ⟨T, hT, fun k hk hf => ?_⟩
  obtain ⟨x1, x2, hh, r1, r2, r3⟩ := hr hocc k hk
  exact refuses_no_way hc hopen h0 h13 r2 hf r1 r3

end

section
variable {P : SteerP} {distance : Int} {garbage : Nat × Nat → Int}

/-- **C104** for `SteeringNeighborhood`. -/
theorem steer_hybrid_complete (hc : ClampSpec clamp) (hd : 0 ≤ P.distStep) (hr : 0 < P.resolution) (hm : SteerMapOk m P.distPx)
    (L : Lawful O) (ht : TopOk cfg.top) (hab : ∀ i, cfg.abort i = false) (hrev : P.reversed = false) (hdist : 0 ≤ distance)
    (hheur : ∀ a b, 0 ≤ S.heur a b) (h1 : IntPose start) (h2 : IntPose goal) {x x' : St} (hx : ExpReach clamp n ef eb x) {fuel : Nat}
    (h : padFindPathX clamp (steerAlgo clamp P distance garbage m skips b S) (rsExp clamp n ef eb m) O cfg start goal x fuel =
      some (.ok [], x')) :
    ∃ T, DeadEnd clamp (SteerAdv clamp P S.so) m skips
        (fun k c k' => 0 ≤ c ∧ ∃ i step, i < P.size ∧ step ≤ P.steerSteps ∧
          ∀ ps, advance clamp P S.so (garbage (i, step)) k ps i step = some (c, k'))
        (fun g k pv => steerIsGoal P distance g k pv) start goal T ∧
      (ptOccupied m ⌊goal.x⌋ ⌊goal.y⌋ = .ok false → ∀ k, T k → ∃ x1 x2 h, ExpReach clamp n ef eb x1 ∧ 0 ≤ h ∧
        RefusesAll (rsExp clamp n ef eb m) k h [goalNode goal true, goalNode goal false] x1 x2) := by
  refine pad_hybrid_complete hc hm (steerMoves_stepBound hd hr) steer_offers (steer_costOk hm.res) L ht hab
    (fun k pv => steerIsGoal_refl hrev hdist k pv) ?_ hheur h1 h2 hx h
  rintro k c k' ⟨hc0, i, step, hi, hs, hadv⟩
  refine ⟨_, List.mem_map.2 ⟨(i, step), moveList_complete (by omega) hi hs, rfl⟩, fun ps => ?_⟩
  exact scaled_some.2 ⟨c, hadv ps, hc0, rfl⟩

theorem steer_hybrid_no_way (hc : ClampSpec clamp) (hopen : ∀ t, -Real.pi < clamp t) (hd : 0 ≤ P.distStep) (hr : 0 < P.resolution)
    (hm : SteerMapOk m P.distPx) (L : Lawful O) (ht : TopOk cfg.top) (hab : ∀ i, cfg.abort i = false) (hrev : P.reversed = false)
    (hdist : 0 ≤ distance) (h0 : 0 < m.res) (h13 : m.res ≤ 13 / 10)
    (hheur : ∀ a b, 0 ≤ S.heur a b) (h1 : IntPose start) (h2 : IntPose goal) {x x' : St} (hx : ExpReach clamp 0 true eb x) {fuel : Nat}
    (hocc : ptOccupied m ⌊goal.x⌋ ⌊goal.y⌋ = .ok false)
    (h : padFindPathX clamp (steerAlgo clamp P distance garbage m skips b S) (rsExp clamp 0 true eb m) O cfg start goal x fuel =
      some (.ok [], x')) :
    ∃ T, DeadEnd clamp (SteerAdv clamp P S.so) m skips
        (fun k c k' => 0 ≤ c ∧ ∃ i step, i < P.size ∧ step ≤ P.steerSteps ∧
          ∀ ps, advance clamp P S.so (garbage (i, step)) k ps i step = some (c, k'))
        (fun g k pv => steerIsGoal P distance g k pv) start goal T ∧
      ∀ k, T k → k.forward = true → ¬ OpenWay m (poseOf k) ⟨⌊goal.x⌋, ⌊goal.y⌋, goal.theta⟩ := by
  obtain ⟨T, hT, hr⟩ := steer_hybrid_complete hc hd hr hm L ht hab hrev hdist hheur h1 h2 hx h
  refine ⟨T, hT, fun k hk hf => ?_⟩
  obtain ⟨x1, x2, hh, r1, r2, r3⟩ := hr hocc k hk
  exact refuses_no_way hc hopen h0 h13 r2 hf r1 r3

end
end
end PathPlanning
