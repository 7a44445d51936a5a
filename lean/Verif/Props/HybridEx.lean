import Verif.Props.HybridRS
import Verif.Props.KinSearchEx
import Verif.Props.SteerSearch3

/-!
# C79: instances for both neighbourhoods, and concrete runs
-/

noncomputable section
namespace PathPlanning
open Spec RSExp

section
variable {clamp : ℝ → ℝ} {m : GridMap ℝ} {skips : Nat} {b : Bres ℝ} {S : SteerCfg}
  {O : OpenList (PadCell m.width m.height) ℝ} {cfg : SCfg (PadCell m.width m.height) ℝ} {start goal : Pose}
  {n : Int} {ef eb : Bool}

theorem padX_fuel {X : Type} {A : KAlgo (PadCell m.width m.height) SNode ℝ} {E : KExp X SNode ℝ} {x : X} {f f' : Nat} {y z}
    (h1 : padFindPathX clamp A E O cfg start goal x f = some y) (h2 : padFindPathX clamp A E O cfg start goal x f' = some z) : y = z := by
  unfold padFindPathX at h1 h2
  cases hi : padInit clamp m start goal with
  | throw e => rw [hi] at h1 h2; rw [← Option.some.inj h1, ← Option.some.inj h2]
  | ub => rw [hi] at h1 h2; rw [← Option.some.inj h1, ← Option.some.inj h2]
  | ok r =>
    obtain ⟨sp, s, gp, g⟩ := r
    rw [hi] at h1 h2
    exact xSearch_fuel _ _ _ _ _ _ h1 h2

/-- What a search with expansion can do (`plain`: what the same search does without expansion). -/
def HybridOutcome (clamp : ℝ → ℝ) (adv : SNode → ℝ → SNode → Prop) (m : GridMap ℝ) (skips : Nat) (start goal : Pose) (ex : Prop)
    (n : Int) (ef eb : Bool) (plain : CRes (List SNode) → Prop) (r : CRes (List SNode)) (x' : St) : Prop :=
  (ExpReach clamp n ef eb x' ∧ plain r) ∨
  (ExpReach clamp n ef eb x' ∧ ef = true ∧ ∃ q, r = .ok q ∧ HybridPath clamp adv m skips start goal ex q) ∨
  (r = .ub ∧ ef = true ∧ ∃ k kg ps, StartPose start goal k ∧ k.forward = true ∧ GoalPose clamp adv m skips start goal kg ∧
    ForwardWay m (poseOf k) (poseOf kg) ps)

section
variable {P : DynP} {distThr angThr : ℝ}

/-- **C79** for `DynamicSteeringNeighborhood`: every search ends ... -/
theorem dyn_hybrid_ends (hc : ClampSpec clamp) (hopen : ∀ t, -Real.pi < clamp t) (hd : 0 ≤ P.distStep) (hr : 0 < P.resolution)
    (hm : SteerMapOk m P.stepLen) (L : Lawful O) (ht : TopOk cfg.top) (hN : 0 ≤ n) (hN2 : n < 2147483648) (h0 : 0 < m.res)
    (h13 : m.res ≤ 13 / 10) (hheur : ∀ a b, 0 ≤ S.heur a b) (h1 : IntPose start) (h2 : IntPose goal) {x : St}
    (hx : ExpReach clamp n ef eb x) :
    ∃ fuel y, padFindPathX clamp (dynSteerAlgo clamp P distThr angThr m skips b S) (rsExp clamp n ef eb m) O cfg start goal x fuel =
        some y := by
  obtain ⟨fuel, r, x', e, _⟩ := pad_hybrid hc hopen hm (dynMoves_stepBound hd hr) dyn_offers (dyn_costOk hm.res) L ht hN hN2 h0 h13
    hheur h1 h2 hx
  exact ⟨fuel, _, e⟩

/-- ... and every finished search is one of three. -/
theorem dyn_hybrid (hc : ClampSpec clamp) (hopen : ∀ t, -Real.pi < clamp t) (hd : 0 ≤ P.distStep) (hr : 0 < P.resolution)
    (hm : SteerMapOk m P.stepLen) (L : Lawful O) (ht : TopOk cfg.top) (hN : 0 ≤ n) (hN2 : n < 2147483648) (h0 : 0 < m.res)
    (h13 : m.res ≤ 13 / 10) (hheur : ∀ a b, 0 ≤ S.heur a b) (h1 : IntPose start) (h2 : IntPose goal) {x : St}
    (hx : ExpReach clamp n ef eb x) {fuel : Nat} {r : CRes (List SNode)} {x' : St}
    (h : padFindPathX clamp (dynSteerAlgo clamp P distThr angThr m skips b S) (rsExp clamp n ef eb m) O cfg start goal x fuel =
      some (r, x')) :
    HybridOutcome clamp (DynAdv clamp P S.so) m skips start goal
      ((∀ k g, S.heur k g = 0) ∧ cfg.heurGoal = none ∧ Nonempty (MinFirst O)) n ef eb
      (fun r => ∃ f', padFindPath clamp (dynSteerAlgo clamp P distThr angThr m skips b S) O cfg start goal f' = some r) r x' := by
  obtain ⟨fuel', r1, x1, e, q⟩ := pad_hybrid hc hopen hm (dynMoves_stepBound hd hr) dyn_offers (dyn_costOk hm.res) L ht hN hN2 h0 h13
    hheur h1 h2 hx (isg := fun g k _ => dynIsGoal P.resolution distThr angThr g k) (skips := skips) (b := b) (pd := 0) (O := O)
    (cfg := cfg)
  have := padX_fuel h e
  simp only [Prod.mk.injEq] at this
  obtain ⟨rfl, rfl⟩ := this
  exact q

/-- Expansion loses nothing: if a search with expansion gives up, the same search without expansion gives up as well. -/
theorem dyn_hybrid_gives_up (hc : ClampSpec clamp) (hopen : ∀ t, -Real.pi < clamp t) (hd : 0 ≤ P.distStep) (hr : 0 < P.resolution)
    (hm : SteerMapOk m P.stepLen) (L : Lawful O) (ht : TopOk cfg.top) (hN : 0 ≤ n) (hN2 : n < 2147483648) (h0 : 0 < m.res)
    (h13 : m.res ≤ 13 / 10) (hheur : ∀ a b, 0 ≤ S.heur a b) (h1 : IntPose start) (h2 : IntPose goal) {x : St}
    (hx : ExpReach clamp n ef eb x) {fuel : Nat} {x' : St}
    (h : padFindPathX clamp (dynSteerAlgo clamp P distThr angThr m skips b S) (rsExp clamp n ef eb m) O cfg start goal x fuel =
      some (.ok [], x')) :
    ∃ f', padFindPath clamp (dynSteerAlgo clamp P distThr angThr m skips b S) O cfg start goal f' = some (.ok []) := by
  rcases dyn_hybrid hc hopen hd hr hm L ht hN hN2 h0 h13 hheur h1 h2 hx h with ⟨_, q⟩ | ⟨_, _, q, e, l, k, e1, es, kg, e2, _⟩ | ⟨e, _⟩
  · exact q
  · simp only [CRes.ok.injEq] at e
    subst e
    simp at e2
  · cases e

/-- Every step before the expansion is driven with a steering angle within the limits, over cells the line test accepts. -/
theorem dyn_hybrid_steps (hc : ClampSpec clamp) (hd : 0 ≤ P.distStep) (hr : 0 < P.resolution)
    (hst : 0 ≤ P.maxSteer ∧ P.maxSteer < 90) (hla : P.la ≠ 0) {k k' : SNode} {c : ℝ}
    (h : RoadStep (DynAdv clamp P S.so) m skips k c k') :
    abs k'.steer ≤ P.maxSteer ∧ LineOk m skips k k' ∧ nodeDist k k' ≤ P.stepLen ∧
      DrivesTo P.la P.resolution ((k'.steer : ℝ) / 180 * Real.pi) (driveSign P.reversed k'.forward)
        (if P.reversed = false ∧ k.depth < 1 ∧ k'.forward = false then P.la else P.distStep) k k' := by
  obtain ⟨f1, f2, f3⟩ := dynAdv_facts hc hst hla hd hr h
  obtain ⟨⟨i, step, _, _, _, _, e, _⟩, _⟩ := h
  exact ⟨dynAdvance_steer_bounded hst.1 e, f3, f2, f1⟩

end

section
variable {P : SteerP} {distance : Int} {garbage : Nat × Nat → Int}

/-- **C79** for `SteeringNeighborhood`. -/
theorem steer_hybrid_ends (hc : ClampSpec clamp) (hopen : ∀ t, -Real.pi < clamp t) (hd : 0 ≤ P.distStep) (hr : 0 < P.resolution)
    (hm : SteerMapOk m P.distPx) (L : Lawful O) (ht : TopOk cfg.top) (hN : 0 ≤ n) (hN2 : n < 2147483648) (h0 : 0 < m.res)
    (h13 : m.res ≤ 13 / 10) (hheur : ∀ a b, 0 ≤ S.heur a b) (h1 : IntPose start) (h2 : IntPose goal) {x : St}
    (hx : ExpReach clamp n ef eb x) :
    ∃ fuel y, padFindPathX clamp (steerAlgo clamp P distance garbage m skips b S) (rsExp clamp n ef eb m) O cfg start goal x fuel =
        some y := by
  obtain ⟨fuel, r, x', e, _⟩ := pad_hybrid hc hopen hm (steerMoves_stepBound hd hr) steer_offers (steer_costOk hm.res) L ht hN hN2 h0 h13
    hheur h1 h2 hx
  exact ⟨fuel, _, e⟩

theorem steer_hybrid (hc : ClampSpec clamp) (hopen : ∀ t, -Real.pi < clamp t) (hd : 0 ≤ P.distStep) (hr : 0 < P.resolution)
    (hm : SteerMapOk m P.distPx) (L : Lawful O) (ht : TopOk cfg.top) (hN : 0 ≤ n) (hN2 : n < 2147483648) (h0 : 0 < m.res)
    (h13 : m.res ≤ 13 / 10) (hheur : ∀ a b, 0 ≤ S.heur a b) (h1 : IntPose start) (h2 : IntPose goal) {x : St}
    (hx : ExpReach clamp n ef eb x) {fuel : Nat} {r : CRes (List SNode)} {x' : St}
    (h : padFindPathX clamp (steerAlgo clamp P distance garbage m skips b S) (rsExp clamp n ef eb m) O cfg start goal x fuel =
      some (r, x')) :
    HybridOutcome clamp (SteerAdv clamp P S.so) m skips start goal
      ((∀ k g, S.heur k g = 0) ∧ cfg.heurGoal = none ∧ Nonempty (MinFirst O)) n ef eb
      (fun r => ∃ f', padFindPath clamp (steerAlgo clamp P distance garbage m skips b S) O cfg start goal f' = some r) r x' := by
  obtain ⟨fuel', r1, x1, e, q⟩ := pad_hybrid hc hopen hm (steerMoves_stepBound hd hr) steer_offers (steer_costOk hm.res) L ht hN hN2 h0 h13
    hheur h1 h2 hx (isg := fun g k pv => steerIsGoal P distance g k pv) (skips := skips) (b := b) (pd := (P.straightDirSwitch - 1).toNat)
    (O := O) (cfg := cfg)
  have := padX_fuel h e
  simp only [Prod.mk.injEq] at this
  obtain ⟨rfl, rfl⟩ := this
  exact q

end
end

namespace HybridEx

/-- A free map of 41 by 21 cells of one metre. -/
def map : GridMap ℝ := ⟨41, 21, 1, 0, 0, List.replicate 861 0, 50, 200, -1⟩
def P : DynP := ⟨1, 1, 1, 60, 15, 0, false, true, false⟩
def S : SteerCfg := ⟨{}, fun _ _ => 0, none⟩
def cfg : SCfg (PadCell map.width map.height) ℝ := ⟨[], [], false, 0, none, fun _ => false, fun _ _ _ => none, KinEx.minTop, none⟩
def bres : Bres ℝ := Bres.start map 0 0 0 0

theorem stepLen : P.stepLen = 1 := by simp [P, DynP.stepLen]

theorem map_ok : SteerMapOk map P.stepLen := by
  rw [stepLen]
  constructor <;> norm_num [map]

theorem value (x y : Nat) (hx : x < 41) (hy : y < 21) : map.getValue ⟨x, y⟩ = .ok 0 := by
  have h1 : y * 41 < 4294967296 := by omega
  have h2 : y * 41 + x < 4294967296 := by omega
  have e1 : wrapU (y * 41) = y * 41 := by unfold wrapU; exact Nat.mod_eq_of_lt h1
  have e2 : wrapU (y * 41 + x) = y * 41 + x := by unfold wrapU; exact Nat.mod_eq_of_lt h2
  unfold GridMap.getValue GridMap.index vget
  simp only [map, e1, e2]
  rw [List.getElem?_replicate, if_pos (by omega)]

theorem box : FreeBox (Sampling.mapIf map) 0 40 0 20 := by
  intro x y h1 h2 h3 h4
  have tw : toI32 map.width = 41 := by decide +kernel
  have th : toI32 map.height = 21 := by decide +kernel
  constructor
  · show map.isInMap x y = true
    unfold GridMap.isInMap
    rw [tw, th]
    simp only [Bool.not_eq_true', Bool.or_eq_false_iff, decide_eq_false_iff_not]
    omega
  · show decide (map.isFree ⟨x.toNat, y.toNat⟩ = .ok true) = true
    rw [decide_eq_true_iff]
    unfold GridMap.isFree
    rw [value x.toNat y.toNat (by omega) (by omega)]
    rfl

theorem free (x y : Int) (h1 : 0 ≤ x) (h2 : x < 41) (h3 : 0 ≤ y) (h4 : y < 21) : ptOccupied map x y = .ok false := by
  have tw : toI32 map.width = 41 := by decide +kernel
  have th : toI32 map.height = 21 := by decide +kernel
  unfold ptOccupied
  rw [tw, th, if_neg (by omega)]
  unfold GridMap.isOccupied
  rw [value x.toNat y.toNat (by omega) (by omega)]
  rfl

theorem prio_first {N : Type} [DecidableEq N] (u v : N) (k : WithTop ℝ) :
    ∃ o, (PriorityManager (N := N) (C := ℝ)).next (PriorityManager.add (PriorityManager.add PriorityManager.empty u k) v k) =
      some (u, o) := by
  refine ⟨([(u, k), (v, k)] : List (N × WithTop ℝ)).erase (bestEntry (u, k) [(v, k)]), ?_⟩
  show some ((bestEntry (u, k) [(v, k)]).1, ([(u, k), (v, k)] : List (N × WithTop ℝ)).erase (bestEntry (u, k) [(v, k)])) = _
  have : bestEntry (u, k) [(v, k)] = (u, k) := by
    unfold bestEntry
    rw [if_neg (lt_irrefl _)]
    rfl
  rw [this]
  rfl

theorem queue_first {N : Type} (u v : N) (k : WithTop ℝ) :
    ∃ o, (QueueManager (N := N) (C := ℝ)).next (QueueManager.add (QueueManager.add QueueManager.empty u k) v k) = some (u, o) :=
  ⟨[v], rfl⟩

/-- **Concrete run.** On a free map of 41 by 21 m, from `(10, 10)` with heading -30 degrees to `(30, 10)` with heading 30 degrees, the
first search of the process is undefined behaviour. -/
theorem start_expansion_example {clamp : ℝ → ℝ} (hc : ClampSpec clamp) (hopen : ∀ t, -Real.pi < clamp t) (fuel : Nat) :
    ∃ x x', St.new 250 true true 0 true = .ok x ∧
      padFindPathX clamp (dynSteerAlgo clamp P (1 / 10) (1 / 10) map 0 bres S) (rsExp clamp 250 true true map) PriorityManager cfg
        ⟨10, 10, -(Real.pi / 6)⟩ ⟨30, 10, Real.pi / 6⟩ x (fuel + 1) = some (.ub, x') := by
  have hpi := Real.pi_pos
  have hpi4 := Real.pi_le_four
  have hres : map.res = 1 := rfl
  have hR : (13 / 10 / map.res : ℝ) = 13 / 10 := by rw [hres]; norm_num
  have hs3 : Real.sqrt 3 < 2 := by
    rw [show (2 : ℝ) = Real.sqrt 4 by rw [show (4 : ℝ) = 2 ^ 2 by norm_num, Real.sqrt_sq (by norm_num)]]
    exact Real.sqrt_lt_sqrt (by norm_num) (by norm_num)
  have hs0 : 0 ≤ Real.sqrt 3 := Real.sqrt_nonneg _
  have f10 : ⌊(10 : ℝ)⌋ = 10 := by norm_num
  have f30 : ⌊(30 : ℝ)⌋ = 30 := by norm_num
  have c1 : turnCentre (13 / 10) .left ⟨10, 10, -(Real.pi / 6)⟩ = ⟨10 + 13 / 20, 10 + 13 / 10 * (Real.sqrt 3 / 2)⟩ := by
    simp only [turnCentre, oriSign, Real.sin_neg, Real.cos_neg, Real.sin_pi_div_six, Real.cos_pi_div_six]
    congr 1 <;> ring
  have c2 : turnCentre (13 / 10) .left ⟨30, 10, Real.pi / 6⟩ = ⟨30 - 13 / 20, 10 + 13 / 10 * (Real.sqrt 3 / 2)⟩ := by
    simp only [turnCentre, oriSign, Real.sin_pi_div_six, Real.cos_pi_div_six]
    congr 1 <;> ring
  have hdist : ∀ a c y : ℝ, a ≤ c → eucl ⟨a, y⟩ ⟨c, y⟩ = c - a := by
    intro a c y h
    have e : dist2 ⟨a, y⟩ ⟨c, y⟩ = (c - a) ^ 2 := by unfold dist2; ring
    unfold eucl
    rw [e, Real.sqrt_sq (by linarith)]
  obtain ⟨x, hx⟩ : ∃ x, St.new 250 true true 0 true = .ok x := ⟨_, new_eq _ _ _ _ _⟩
  refine ⟨x, ?_⟩
  obtain ⟨x', h⟩ := start_expansion_ub (m := map) (S := S) (skips := 0) (b := bres) (pd := 0) (n := 250) (eb := true)
    (mvs := dynMoves clamp P S.so map.res) (isg := fun g k _ => dynIsGoal P.resolution (1 / 10) (1 / 10) g k)
    (O := PriorityManager) (cfg := cfg) (start := ⟨10, 10, -(Real.pi / 6)⟩) (goal := ⟨30, 10, Real.pi / 6⟩)
    hc hopen (by norm_num) (by norm_num) (by rw [hres]; norm_num) (by rw [hres]; norm_num) (fun _ _ => le_refl _)
    (by norm_num [IntPose, f10]) (by norm_num [IntPose, f10, f30]) (by norm_num [InsidePad, f10, map])
    (by norm_num [InsidePad, f10, f30, map]) (by simp only [f10]; exact free 10 10 (by norm_num) (by norm_num) (by norm_num) (by norm_num))
    (by simp only [f10, f30]; exact free 30 10 (by norm_num) (by norm_num) (by norm_num) (by norm_num))
    prio_first rfl box .left .left (Real.pi / 6) (187 / 10) (Real.pi / 6) (by positivity) (by norm_num) (by positivity) (by linarith)
    (p := ⟨10, 10, -(Real.pi / 6)⟩) (q := ⟨30, 10, Real.pi / 6⟩) (by simp only [f10]; norm_num) (by simp only [f10, f30]; norm_num)
    (by rw [hR, c1, c2, hdist _ _ _ (by norm_num)]; norm_num)
    (by rw [hR, c1]; refine ⟨?_, ?_, ?_, ?_⟩ <;> push_cast <;> nlinarith)
    (by rw [hR, c2]; refine ⟨?_, ?_, ?_, ?_⟩ <;> push_cast <;> nlinarith)
    (by
      rw [hR]
      simp only [cscForward, driveAll, drive, oriSign, dirSign]
      refine ⟨?_, ?_, 0, ?_⟩
      · simp only [one_mul, mul_one]
        rw [show -(Real.pi / 6) + Real.pi / 6 = 0 by ring, zero_add]
        simp only [Real.sin_neg, Real.sin_zero, Real.cos_zero, Real.sin_pi_div_six]; norm_num
      · simp only [one_mul, mul_one]
        rw [show -(Real.pi / 6) + Real.pi / 6 = 0 by ring, zero_add]
        simp only [Real.cos_neg, Real.sin_zero, Real.cos_zero, Real.cos_pi_div_six]; ring
      · simp only [one_mul, mul_one]; push_cast; ring)
    (by show 2 ≤ eucl ⟨10, 10⟩ ⟨30, 10⟩; rw [hdist _ _ _ (by norm_num)]; norm_num)
    (by rw [hR]; nlinarith) hx fuel
  exact ⟨x', hx, h⟩

/-! A concrete path with expansion: the state space of `KinEx`, with an expansion that succeeds at pose 4. -/

def toyExp : KExp Nat (Fin 9) Nat where
  expand x k _ _ := .ok (decide (k = 4), x + 1)
  get _ := [4, 8]
  turn k _ := k

/-- The state after the first iteration. -/
def toy1 : Option (KSt (Fin 5) (Fin 9) Nat KinEx.P) := KinEx.next (kInit KinEx.A KinEx.P KinEx.cfg KinEx.kin0)

theorem toy1_some : toy1.isSome = true := by decide +kernel
def st1 : KSt (Fin 5) (Fin 9) Nat KinEx.P := toy1.get toy1_some
theorem st1_next : (KinEx.P.next st1.s.opn).map (·.1) = some 2 := by decide +kernel
theorem st1_kin : st1.kin 0 = 0 ∧ st1.kin 2 = 4 ∧ st1.kin 4 = 8 := by decide +kernel
theorem st1_prev : (st1.s.lab 2).prev = some 0 ∧ (st1.s.lab 0).prev = none := by decide +kernel

theorem toy_first : xIterate KinEx.A toyExp KinEx.cfg (kInit KinEx.A KinEx.P KinEx.cfg KinEx.kin0) 0 = .more st1 1 := by
  have h : toy1 = some st1 := (Option.some_get toy1_some).symm
  unfold toy1 KinEx.next at h
  have hk : kIterate KinEx.A KinEx.cfg (kInit KinEx.A KinEx.P KinEx.cfg KinEx.kin0) = .more st1 := by
    cases hi : kIterate KinEx.A KinEx.cfg (kInit KinEx.A KinEx.P KinEx.cfg KinEx.kin0) with
    | more s => rw [hi] at h; cases h; rfl
    | done r s => rw [hi] at h; cases h
  have hn : KinEx.P.next (kInit KinEx.A KinEx.P KinEx.cfg KinEx.kin0).s.opn = some (0, KinEx.P.empty) := by rfl
  unfold xIterate
  rw [hn, hk]
  rfl

/-- The search returns the path `0, 4` and the expansion `4, 8` of pose 4. -/
theorem toy_run : xFindPath KinEx.A toyExp KinEx.P KinEx.cfg KinEx.kin0 0 2 = some (.ok [0, 4, 4, 8], 2) := by
  unfold xFindPath
  rw [xSearch, toy_first]
  simp only
  rw [xSearch]
  have hn := st1_next
  cases hx : KinEx.P.next st1.s.opn with
  | none => rw [hx] at hn; cases hn
  | some co =>
    obtain ⟨c, o⟩ := co
    rw [hx] at hn
    simp only [Option.map_some, Option.some.injEq] at hn
    subst hn
    have hi : xIterate KinEx.A toyExp KinEx.cfg st1 1 = .done (.ok [0, 4, 4, 8]) 2 := by
      unfold xIterate
      rw [hx]
      simp only
      rw [if_neg (by decide)]
      set lab := (popNode (KinEx.A.alg st1.s.lab st1.kin) KinEx.cfg st1.s 2 o).lab with hlab
      have e : ∀ m, (lab m).prev = (st1.s.lab m).prev := by
        intro m
        rw [hlab]
        unfold popNode setLab
        simp only
        split_ifs with h
        · rw [h]
        · rfl
      have hb : backtrackCopy lab [0] 2 = .ok [0, 2] := by
        unfold backtrackCopy
        rw [e 2, st1_prev.1]
        simp only [e 0, st1_prev.2]
        rw [if_neg (by decide), backtrackFrom, if_pos (by decide)]
      have hl : xLoop toyExp KinEx.cfg.start lab st1.kin 2 KinEx.cfg.goal 1 = .ok (some [0, 4, 4, 8], 2) := by
        show xLoop toyExp [0] lab st1.kin 2 [4] 1 = _
        rw [xLoop]
        simp only [toyExp, CRes.bind, st1_kin.2.1, decide_true, if_true, xPath, hb]
        simp [st1_kin]
      rw [hl]
    rw [hi]

/-- The hypotheses of `hybrid_search` are met, and the path ends with an expansion. -/
theorem toy_ends_expanded : ∃ x' k kg, EndsExpanded KinEx.A toyExp (Exact KinEx.A KinEx.P KinEx.cfg) [0] [4] KinEx.kin0 0 x'
    [0, 4, 4, 8] k kg := by
  rcases hybrid_result (E := toyExp) KinEx.costOk prioLawful KinEx.minTop_ok toy_run with ⟨_, f', h⟩ | ⟨e, h, _⟩ | ⟨h, _⟩ | ⟨q, k, kg, h, h2⟩
  · have := KinEx.run
    obtain ⟨_, _, _, _, kl, h5, ⟨k, w, hg, _⟩, h6⟩ := kin_path (A := KinEx.A) KinEx.costOk prioLawful KinEx.minTop_ok h (by simp)
    obtain ⟨w, _, g, _, kg, pv, h7, _⟩ := h6 rfl
    simp only [List.getLast?_cons_cons, List.getLast?_singleton, Option.some.injEq] at h5
    rw [← h5] at h7
    simp [KinEx.A] at h7
  · cases h
  · cases h
  · cases h
    exact ⟨2, k, kg, h2⟩

end HybridEx
end PathPlanning
