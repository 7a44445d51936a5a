import Verif.Spec.HybridDuringRS
import Verif.Props.HybridDuring
import Verif.Props.HybridRS
import Verif.Props.SteerDuringExact

/-!
# Steering searches with Reeds-Shepp expansion on a grid map that changes meanwhile (C121)
-/

noncomputable section
namespace PathPlanning.XDur
open PathPlanning Spec RSExp KDur
set_option linter.unusedSectionVars false

variable {clamp : ℝ → ℝ} {m : GridMap ℝ} {skips : Nat} {b : Bres ℝ} {S : SteerCfg} {pd : Nat}
  {mvs : List (SNode → List SNode → Option (ℝ × SNode))} {isg : SNode → SNode → Option SNode → Bool} {D : ℝ}
  {adv : SNode → ℝ → SNode → Prop} {cs : List ℝ} {datas : Nat → List UInt8}
  {O : OpenList (PadCell m.width m.height) ℝ} {cfg : SCfg (PadCell m.width m.height) ℝ} {start goal : Pose}
  {n : Int} {ef eb : Bool}

theorem rs_calls_at {H : ℝ → Prop} (hH : ∀ h, H h → 0 ≤ h) {i : Nat} {x x' : St} (hx : ExpReach clamp n ef eb x)
    (h : ExpCallsAt (fun k => rsExp clamp n ef eb (shown m (datas k))) i H x x') : ExpReach clamp n ef eb x' := by
  induction h with
  | refl => exact hx
  | step _ _ hh he ih => exact rs_step ih (hH _ hh) he

theorem goalPoseAt (hc : ClampSpec clamp) (hm : SteerMapOk m D) (hd : ∀ j, m.width * m.height ≤ (datas j).length)
    (hs : StepBound mvs D) (ho : Offers mvs adv m.res) {E : Nat}
    {sp s gp g : List (PadCell m.width m.height)} (hst : Started clamp m start goal sp s gp g) {kg : SNode}
    (h : ∃ v ∈ g, kg = padContent sp s gp g start goal v ∨ (steerLookup clamp m.width m.height kg = .ok (some v) ∧
      Reachable (some' clamp m skips b S mvs pd isg datas E) s (padContent sp s gp g start goal) kg)) :
    GoalPoseAt clamp adv m datas E skips start goal kg := by
  obtain ⟨v, hv, e3⟩ := h
  obtain ⟨h1, h2⟩ := (hst.hg v).1 hv
  obtain ⟨c1, c2, c3⟩ := (poseCells_mem hst.hgp v).1 h1
  rcases e3 with rfl | ⟨e3, e4⟩
  · left
    refine ⟨?_, ?_, ?_, rfl, rfl, rfl⟩
    · show ((v.x : Int) : ℝ) = _; rw [c1]
    · show ((v.y : Int) : ℝ) = _; rw [c2]
    · simp only [padContent, hv, if_true]
  · right
    obtain ⟨a1, a2, a3, _⟩ := (steerLookup_iff hc hm.sizes.1 hm.sizes.2).1 e3
    exact ⟨reachAt hc hm hd hs ho hst e4, by omega, by omega, by rw [a3, c3]⟩

/-- **C121.**  Every steering search with Reeds-Shepp expansion ends, however the callback changes the cells of the map and whatever
searches were run before (state `x` of the expansion): it ends exactly as a search without expansion on the changing map, or it returns
a path whose last part is an expansion that is free on the map of the last moment, after steps that were free at some moment of the
search - or it runs into undefined behaviour, and this only if, on the map of the last moment, an expansion leads from the start pose
itself to the goal.  (Without heuristic, if the callback only adds obstacles, every step begins at the pose before it.) -/
theorem pad_hybrid_during (hc : ClampSpec clamp) (hopen : ∀ t, -Real.pi < clamp t) (hm : SteerMapOk m D)
    (hd : ∀ j, m.width * m.height ≤ (datas j).length) (hs : StepBound mvs D) (ho : Offers mvs adv m.res)
    (ok : KCostOk (padAlgo clamp m skips b S mvs pd isg) cs) (L : Lawful O) (ht : TopOk cfg.top)
    (hN : 0 ≤ n) (hN2 : n < 2147483648) (h0 : 0 < m.res) (h13 : m.res ≤ 13 / 10) (hheur : ∀ a b, 0 ≤ S.heur a b)
    (h1 : IntPose start) (h2 : IntPose goal) {x : St} (hx : ExpReach clamp n ef eb x) :
    ∃ fuel r x' i, padFindPathXDuring clamp (padAlgo clamp m skips b S mvs pd isg) skips b n ef eb datas O cfg start goal x fuel =
        some (r, x', i) ∧
      ((ExpReach clamp n ef eb x' ∧ ∃ f' E, (E = i ∨ E = i + 1) ∧
        padFindPathDuring clamp (padAlgo clamp m skips b S mvs pd isg) skips b datas O cfg start goal f' = some (r, E)) ∨
       (ExpReach clamp n ef eb x' ∧ ef = true ∧ ∃ q, r = .ok q ∧
        HybridPathAt clamp adv m datas i skips start goal
          (((∀ k g, S.heur k g = 0) ∧ cfg.heurGoal = none ∧ Nonempty (MinFirst O)) ∧ OnlyBlocked m datas) q) ∨
       (r = .ub ∧ ef = true ∧ ∃ k kg ps, StartPose start goal k ∧ k.forward = true ∧
        GoalPoseAt clamp adv m datas (i + 1) skips start goal kg ∧ ForwardWay (shown m (datas i)) (poseOf k) (poseOf kg) ps)) := by
  rcases padInit_cases hc hm h1 h2 with ⟨sp, s, gp, g, e, p1, p2, p3, p4⟩ | ⟨e, he, h3, h4⟩
  · have hst : Started clamp m start goal sp s gp g := ⟨e, p1, p2, p3, p4⟩
    obtain ⟨fuel, r, x', i, q1, q2⟩ := hybrid (P := O) (us := fun k => steerUsable (shown m (datas k)) skips b)
      (Es := fun k => rsExp clamp n ef eb (shown m (datas k))) (cfg := { cfg with start := s, goal := g })
      (kin0 := padContent sp s gp g start goal) ok L ht x
    have hH : ∀ h, (∃ a c, h = (padAlgo clamp m skips b S mvs pd isg).heur a c) → 0 ≤ h := by
      rintro h ⟨a, c, rfl⟩; exact hheur a c
    have hreach : ∀ {x1 k h kg}, AskedForAt (some' clamp m skips b S mvs pd isg datas (i + 1))
        (fun k => rsExp clamp n ef eb (shown m (datas k))) (i + 1) s g
        (padContent sp s gp g start goal) x x1 k h kg → ExpReach clamp n ef eb x1 ∧ 0 ≤ h ∧
        ReachAt adv m datas (i + 1) skips start goal k ∧ GoalPoseAt clamp adv m datas (i + 1) skips start goal kg := by
      intro x1 k h kg ha
      refine ⟨rs_calls_at hH hx ha.calls, ?_, reachAt hc hm hd hs ho hst ha.reach, goalPoseAt hc hm hd hs ho hst ha.goal⟩
      obtain ⟨c, rfl⟩ := ha.heur
      exact hheur _ _
    have h0' : 0 < (shown m (datas i)).res := h0
    have h13' : (shown m (datas i)).res ≤ 13 / 10 := h13
    refine ⟨fuel, r, x', i, ?_, ?_⟩
    · unfold padFindPathXDuring; rw [e]; exact q1
    rcases q2 with ⟨c1, f', E, c2, c3, c4⟩ | ⟨e', r1, x1, k, h, kg, c1, c2⟩ | ⟨r1, c1⟩ | ⟨q, k, kg, r1, x1, h, l, e1, es, c1, c2, c3, c4, c5, c6, c7, c8, c9, c10⟩
    · exact .inl ⟨rs_calls_at hH hx c1, f', E, by omega, by unfold padFindPathDuring; rw [e]; exact c2⟩
    · obtain ⟨u1, u2, _⟩ := hreach c1
      obtain ⟨bb, y, hy⟩ := rs_defined hc hopen hN hN2 h0' h13' (ef := ef) (eb := eb) u1 k kg u2
      rw [hy] at c2; cases c2
    · rcases c1 with ⟨x1, k, h, kg, c1, c2⟩ | ⟨x1, x2, v, h, kg, hv, c1, c2⟩ | ⟨x1, k, h, kg, c1, x2, c2, c3⟩
      · obtain ⟨u1, u2, _⟩ := hreach c1
        obtain ⟨bb, y, hy⟩ := rs_defined hc hopen hN hN2 h0' h13' (ef := ef) (eb := eb) u1 k kg u2
        rw [hy] at c2; cases c2
      · obtain ⟨u1, u2, u3, u4⟩ := hreach c1
        obtain ⟨w1, w2, ps, w3, w4, w5⟩ := rs_sound hc hopen hN hN2 h0' h13' u1 c2
        exact .inr (.inr ⟨r1, w1, _, kg, ps, hst.startPose hv, w2, u4, w5⟩)
      · obtain ⟨u1, u2, u3, u4⟩ := hreach c1
        obtain ⟨w1, w2, ps, w3, w4, w5⟩ := rs_sound hc hopen hN hN2 h0' h13' u1 c2
        rw [c3] at w4
        exact absurd (List.map_eq_nil_iff.1 w4.symm) w3
    · obtain ⟨u1, u2, u3, u4⟩ := hreach c1
      obtain ⟨w1, w2, ps, w3, w4, w5⟩ := rs_sound hc hopen hN hN2 h0' h13' u1 c2
      refine .inr (.inl ⟨rs_step u1 u2 c2, w1, q, r1, ?_⟩)
      rw [c3] at w4
      cases ps with
      | nil => exact absurd rfl w3
      | cons a as =>
        simp only [List.map_cons, List.cons.injEq] at w4
        obtain ⟨rfl, rfl⟩ := w4
        have hin : ∀ k, Reachable (some' clamp m skips b S mvs pd isg datas (i + 1)) s (padContent sp s gp g start goal) k →
          InsidePad m.width m.height k := fun k hr => inside hc hm (fun _ _ => padContent_inside _) hr
        have hall : ∀ y ∈ l ++ [k], Reachable (some' clamp m skips b S mvs pd isg datas (i + 1)) s
            (padContent sp s gp g start goal) y := by
          intro y hy
          rcases List.mem_append.1 hy with hy | hy
          · exact c8 y hy
          · rw [List.mem_singleton.1 hy]; exact c1.reach
        obtain ⟨d, t1⟩ := c6
        obtain ⟨pp1, pp2⟩ := cellTrace_pairs t1
        obtain ⟨v, hv, t2⟩ := c7
        refine ⟨l, k, a, as, kg, c4, c5, ⟨_, t2, hst.startPose hv⟩, fun y hy => reachAt hc hm hd hs ho hst (hall y hy), ?_, ?_, ?_, ?_,
          hst.startFree hv, ?_, w2, u4, ForwardWay.first h0' w5, w5⟩
        · intro y z hxy
          obtain ⟨x', c, hx, hl⟩ := pp1 y z hxy
          have hrx : Reachable (some' clamp m skips b S mvs pd isg datas (i + 1)) s (padContent sp s gp g start goal) x' := by
            rcases hx with rfl | hx
            · exact hall x' (hxy.subset (by simp))
            · exact hx.2
          obtain ⟨c0, hr, _⟩ := legal_at hm hd hs ho (hin x' hrx) hl
          refine ⟨x', c0, ?_, reachAt hc hm hd hs ho hst hrx, hr⟩
          rcases hx with rfl | hx
          · exact ⟨rfl, rfl, rfl, rfl⟩
          · exact sameState_of_sameCell (S := S) (b := b) (skips := skips) (mvs := mvs) (pd := pd) (isg := isg) hc hm hx.1
        · intro y z hxy
          obtain ⟨c, hl⟩ := pp2 y z hxy
          obtain ⟨c0, hr, _⟩ := legal_at hm hd hs ho (hin y (hall y (hxy.subset (by simp)))) hl
          exact ⟨c0, hr⟩
        · rintro ⟨⟨ex1, ex2, ex3⟩, ex4⟩ y z hxy
          obtain ⟨d', hd'⟩ := c10 ⟨⟨ex1, ex2, fun a => add_zero a, ex3⟩, fun j k k' hu => usable_mono (free_mono hm hd ex4 j) hu⟩
          obtain ⟨c, hl⟩ := drive_pairs hd' y z hxy
          obtain ⟨c0, hr, _⟩ := legal_at hm hd hs ho (hin y (hall y (hxy.subset (by simp)))) hl
          exact ⟨c0, hr⟩
        · refine lt_of_lt_of_eq c9 ?_
          simp only [Fintype.card_prod, Fintype.card_fin, Fintype.card_bool]
          ring
        · obtain ⟨vg, hvg, _⟩ := c1.goal
          exact hst.goalFree hvg
  · refine ⟨0, .throw e, x, 0, ?_, .inl ⟨hx, 0, 0, .inl rfl, ?_⟩⟩
    · unfold padFindPathXDuring; rw [he]
    · unfold padFindPathDuring; rw [he]

section
variable {Q : DynP} {distThr angThr : ℝ}

/-- **C121 for `DynamicSteeringNeighborhood`.** -/
theorem dyn_hybrid_during (hc : ClampSpec clamp) (hopen : ∀ t, -Real.pi < clamp t) (hd : 0 ≤ Q.distStep) (hr : 0 < Q.resolution)
    (hm : SteerMapOk m Q.stepLen) (hdata : ∀ j, m.width * m.height ≤ (datas j).length) (L : Lawful O) (ht : TopOk cfg.top)
    (hN : 0 ≤ n) (hN2 : n < 2147483648) (h0 : 0 < m.res) (h13 : m.res ≤ 13 / 10) (hheur : ∀ a b, 0 ≤ S.heur a b)
    (h1 : IntPose start) (h2 : IntPose goal) {x : St} (hx : ExpReach clamp n ef eb x) :
    ∃ fuel r x' i, padFindPathXDuring clamp (dynSteerAlgo clamp Q distThr angThr m skips b S) skips b n ef eb datas O cfg start goal x
        fuel = some (r, x', i) ∧
      ((ExpReach clamp n ef eb x' ∧ ∃ f' E, (E = i ∨ E = i + 1) ∧
        padFindPathDuring clamp (dynSteerAlgo clamp Q distThr angThr m skips b S) skips b datas O cfg start goal f' = some (r, E)) ∨
       (ExpReach clamp n ef eb x' ∧ ef = true ∧ ∃ q, r = .ok q ∧
        HybridPathAt clamp (DynAdv clamp Q S.so) m datas i skips start goal
          (((∀ k g, S.heur k g = 0) ∧ cfg.heurGoal = none ∧ Nonempty (MinFirst O)) ∧ OnlyBlocked m datas) q) ∨
       (r = .ub ∧ ef = true ∧ ∃ k kg ps, StartPose start goal k ∧ k.forward = true ∧
        GoalPoseAt clamp (DynAdv clamp Q S.so) m datas (i + 1) skips start goal kg ∧
        ForwardWay (shown m (datas i)) (poseOf k) (poseOf kg) ps)) :=
  pad_hybrid_during hc hopen hm hdata (dynMoves_stepBound hd hr) dyn_offers (dyn_costOk hm.res) L ht hN hN2 h0 h13 hheur h1 h2 hx

end
end PathPlanning.XDur
