import Verif.Props.KinMoments
import Verif.Props.SteerCustomDuring
import Verif.Props.KinDuringMapEx
import Verif.Props.KinCustomDuringEx
import Verif.Props.HybridDuring

/-!
# Steering searches on grid maps that change: every step has its own moment (C120, C121, C122)
-/

namespace PathPlanning

/-- Every step of the path `q` is one the map of one of the first `E` moments accepts, no two steps one of the same moment: `J i` is
the moment of the step from `q[i]` to `q[i + 1]`, taken from `q[i]` or from another reachable pose of the same state (the first:
from `q[0]` itself). -/
def Spec.RoadTakenAt (clamp : ℝ → ℝ) (adv : SNode → ℝ → SNode → Prop) (m : GridMap ℝ) (datas : Nat → List UInt8) (E skips : Nat)
    (start goal : Pose) (q : List SNode) (J : Nat → Nat) : Prop :=
  (∀ i y z, q[i]? = some y → q[i + 1]? = some z → J i < E ∧ ∃ x c, (x = y ∨ (0 < i ∧ Spec.SameState clamp x y)) ∧
    Spec.ReachAt adv m datas E skips start goal x ∧ Spec.RoadStep adv (shown m (datas (J i))) skips x c z) ∧
  ∀ i j, i + 1 < q.length → j + 1 < q.length → J i = J j → i = j

open PathPlanning Spec

section
variable {clamp : ℝ → ℝ} {m : GridMap ℝ} {skips : Nat} {b : Bres ℝ} {S : SteerCfg} {pd : Nat}
  {mvs : List (SNode → List SNode → Option (ℝ × SNode))} {isg : SNode → SNode → Option SNode → Bool} {D : ℝ}
  {adv : SNode → ℝ → SNode → Prop} {cs : List ℝ} {datas : Nat → List UInt8} {E : Nat}
  {O : OpenList (PadCell m.width m.height) ℝ} {cfg : SCfg (PadCell m.width m.height) ℝ}
  {start goal : Pose} {sp s gp g : List (PadCell m.width m.height)}

theorem KDur.takenAt_road (hc : ClampSpec clamp) (hm : SteerMapOk m D) (hd : ∀ j, m.width * m.height ≤ (datas j).length)
    (hs : StepBound mvs D) (ho : Offers mvs adv m.res) (hst : Started clamp m start goal sp s gp g) {q : List SNode} {J : Nat → Nat}
    (h : TakenAt (padAlgo clamp m skips b S mvs pd isg) (fun k => steerUsable (shown m (datas k)) skips b) E s
      (padContent sp s gp g start goal) q J) : RoadTakenAt clamp adv m datas E skips start goal q J := by
  refine ⟨fun i y z hy hz => ?_, h.2⟩
  obtain ⟨h1, x, c, h2, h3, h4⟩ := h.1 i y z hy hz
  have hin : InsidePad m.width m.height x := inside hc hm (fun _ _ => padContent_inside _) h3
  obtain ⟨c0, h5, _⟩ := legal_road (clamp := clamp) (m := shown m (datas (J i))) (skips := skips) (b := b) (S := S) (mvs := mvs)
    (pd := pd) (isg := isg) (adv := adv) (shown_ok hm hd (J i)) hs ho hin h4
  exact ⟨h1, x, c0, h2.imp id (fun h => ⟨h.1, sameState_of_sameCell hc hm h.2⟩), reachAt hc hm hd hs ho hst h3, h5⟩

/-- **C120 (moments).**  The steps of a returned path were accepted by the maps of distinct moments of the search. -/
theorem KDur.pad_moments (hc : ClampSpec clamp) (hm : SteerMapOk m D) (hd : ∀ j, m.width * m.height ≤ (datas j).length)
    (hs : StepBound mvs D) (ho : Offers mvs adv m.res)
    (ok : KCostOk (padAlgo clamp m skips b S mvs pd isg) cs) (L : Lawful O) (ht : TopOk cfg.top)
    (h1 : IntPose start) (h2 : IntPose goal) {fuel : Nat} {q : List SNode}
    (h : padFindPathDuring clamp (padAlgo clamp m skips b S mvs pd isg) skips b datas O cfg start goal fuel = some (.ok q, E)) :
    ∃ J, RoadTakenAt clamp adv m datas E skips start goal q J := by
  obtain ⟨sp, s, gp, g, hst, hk⟩ := find_started hc hm h1 h2 h
  obtain ⟨J, hJ⟩ := moments (cfg := { cfg with start := s, goal := g }) ok L ht hk
  exact ⟨J, takenAt_road hc hm hd hs ho hst hJ⟩

variable {P : DynP} {distThr angThr : ℝ}

/-- **C120 for `DynamicSteeringNeighborhood`**: every step has its own moment. -/
theorem KDur.dyn_moments (hc : ClampSpec clamp) (hd : 0 ≤ P.distStep) (hr : 0 < P.resolution) (hm : SteerMapOk m P.stepLen)
    (hdata : ∀ j, m.width * m.height ≤ (datas j).length)
    (L : Lawful O) (ht : TopOk cfg.top) (h1 : IntPose start) (h2 : IntPose goal) {fuel : Nat} {q : List SNode}
    (h : padFindPathDuring clamp (dynSteerAlgo clamp P distThr angThr m skips b S) skips b datas O cfg start goal fuel =
      some (.ok q, E)) : ∃ J, RoadTakenAt clamp (DynAdv clamp P S.so) m datas E skips start goal q J :=
  KDur.pad_moments hc hm hdata (dynMoves_stepBound hd hr) dyn_offers (dyn_costOk hm.res) L ht h1 h2 h

variable {T : KGoalTest (PadCell m.width m.height) SNode ℝ O} {rev : Bool}

/-- **C122 (moments).**  The steps of a returned path were accepted by the maps of distinct moments of the search. -/
theorem TDur.pad_moments (hc : ClampSpec clamp) (hm : SteerMapOk m D) (hd : ∀ j, m.width * m.height ≤ (datas j).length)
    (hs : StepBound mvs D) (ho : Offers mvs adv m.res)
    (ok : KCostOk (padAlgo clamp m skips b S mvs pd isg) cs) (L : Lawful O) (ht : TopOk cfg.top)
    (h1 : IntPose start) {fuel : Nat} {q : List SNode}
    (h : padFindTestDuring clamp (padAlgo clamp m skips b S mvs pd isg) skips b datas O cfg T rev start fuel =
      some (.ok q, E)) :
    ∃ q0 J, q = (if rev then q0.reverse else q0) ∧ RoadTakenAt clamp adv m datas E skips start start q0 J := by
  obtain ⟨sp, s, q0, st', hst, hq, rfl, hk⟩ := padFindTestDuring_ok hc hm h1 h
  obtain ⟨J, hJ⟩ := moments (cfg := { cfg with start := s }) ok L ht hk
  exact ⟨q0, J, hq, KDur.takenAt_road hc hm hd hs ho hst hJ⟩

/-- **C122 for `DynamicSteeringNeighborhood`**: every step has its own moment. -/
theorem TDur.dyn_moments (hc : ClampSpec clamp) (hd : 0 ≤ P.distStep) (hr : 0 < P.resolution) (hm : SteerMapOk m P.stepLen)
    (hdata : ∀ j, m.width * m.height ≤ (datas j).length)
    (L : Lawful O) (ht : TopOk cfg.top) (h1 : IntPose start) {fuel : Nat} {q : List SNode}
    (h : padFindTestDuring clamp (dynSteerAlgo clamp P distThr angThr m skips b S) skips b datas O cfg T P.reversed start fuel =
      some (.ok q, E)) :
    ∃ q0 J, q = (if P.reversed then q0.reverse else q0) ∧
      RoadTakenAt clamp (DynAdv clamp P S.so) m datas E skips start start q0 J :=
  TDur.pad_moments hc hm hdata (dynMoves_stepBound hd hr) dyn_offers (dyn_costOk hm.res) L ht h1 h
end

/-! ### Examples -/

open KDurEx in
/-- The hypotheses of `KDur.moments` are met; the first step is the one that only the first map accepts. -/
example : ∃ J, TakenAt KinEx.A us 5 [0] KinEx.kin0 [0, 2, 5, 7] J ∧ J 0 = 0 := by
  obtain ⟨J, hJ⟩ := KDur.moments KinEx.costOk prioLawful KinEx.minTop_ok finds
  refine ⟨J, hJ, ?_⟩
  obtain ⟨_, x, c, hx, _, mv, _, _, _, hu⟩ := hJ.1 0 0 2 rfl rfl
  have hx0 : x = 0 := hx.resolve_right (fun h => absurd h.1 (lt_irrefl 0))
  subst hx0
  simpa [KAlgo.withUsable, us] using hu

open KDurEx in
/-- The hypotheses of `KDur.frozen` are met: when everything is blocked after the first expansion, no path has two steps. -/
example {fuel E : Nat} {q : List (Fin 9)} (h : kFindPathDuring KinEx.A closing KinEx.P KinEx.cfg KinEx.kin0 fuel = some (.ok q, E)) :
    q.length ≤ 2 :=
  KDur.frozen (k := 1) KinEx.costOk prioLawful KinEx.minTop_ok
    (fun j hj x c y ⟨_, _, _, _, hu⟩ => by
      have : j = 0 := by simpa [KAlgo.withUsable, closing] using hu
      omega) h

open TDurEx in
/-- The hypotheses of `TDur.moments` are met. -/
example : ∃ (st' : KSt (Fin 5) (Fin 9) Nat KinEx.P) (J : Nat → Nat),
    TakenAt KDurEx2.A KDurEx2.blocking st'.s.expansions [0] KinEx.kin0 [0, 4, 7] J := by
  obtain ⟨st', h, _⟩ := finds4
  obtain ⟨J, hJ⟩ := TDur.moments KDurEx2.costOk prioLawful KinEx.minTop_ok h
  exact ⟨st', J, hJ⟩

end PathPlanning
