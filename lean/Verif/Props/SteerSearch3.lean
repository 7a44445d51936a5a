import Verif.Props.SteerSearch2
import Mathlib.Tactic.IntervalCases

/-!
# C73: the requested goal heading is ignored
-/

noncomputable section
namespace PathPlanning
open Spec

section
variable {clamp : ℝ → ℝ} {P : DynP} {distThr angThr : ℝ} {m : GridMap ℝ} {skips : Nat} {b : Bres ℝ} {S : SteerCfg}
  {O : OpenList (PadCell m.width m.height) ℝ} {cfg : SCfg (PadCell m.width m.height) ℝ} {start goal : Pose}

/-- A vehicle that only drives straight ahead, one cell per step. -/
structure StraightOnly (P : DynP) : Prop where
  steps : P.steerSteps = 0
  fwd : P.allowForward = true
  bwd : P.allowBackward = false
  rev : P.reversed = false
  dist : P.distStep = P.resolution
  res : 0 < P.resolution
  steer : 0 ≤ P.maxSteer

theorem clamp_zero (hc : ClampSpec clamp) : clamp 0 = 0 :=
  clamp_of_mem hc (by linarith [Real.pi_pos]) Real.pi_pos

theorem straight_adv (hc : ClampSpec clamp) (hP : StraightOnly P) {so : SOpts} {k k' : SNode} {c : ℝ}
    (h : DynAdv clamp P so k c k') (h1 : k.theta = 0) (h2 : k.steer = 0) (h3 : k.custom = 0) :
    k'.x = k.x + 1 ∧ k'.y = k.y ∧ k'.theta = 0 ∧ k'.steer = 0 ∧ k'.forward = true ∧ k'.custom = 0 := by
  obtain ⟨i, step, _, _, hi, hs, e, _⟩ := h
  have hi := hi hP.bwd
  rw [hP.steps] at hs
  have hs0 : step = 0 := by omega
  obtain ⟨hf, _, _, _, h' | h'⟩ := dynAdvance_inv e
  · omega
  · obtain ⟨_, ⟨s0, q1, q2⟩, q3, q4, q5, _⟩ := h'
    have hs0' : s0 = 0 := by
      rcases steerSwitch_cases q1 with ⟨_, e⟩ | ⟨e, _⟩ | ⟨e, _⟩
      · rw [e, h2]
      · omega
      · omega
    have hst : k'.steer = 0 := by
      rw [q2, hs0']
      exact steerClamp_id _ _ (by have := hP.steer; omega) hP.steer
    have hfw : k'.forward = true := by rw [hf]; simpa using hi
    have hd : P.distStep / P.resolution = 1 := by rw [hP.dist]; exact div_self hP.res.ne'
    rw [hfw, hst, hP.rev] at q3
    unfold steerMove at q3
    simp only [if_true, Prod.mk.injEq, Bool.false_eq_true, if_false, h1, Real.cos_zero, Real.sin_zero, hd] at q3
    obtain ⟨r1, r2, r3⟩ := q3
    refine ⟨by rw [r1]; ring, by rw [r2]; ring, by rw [r3, add_zero]; exact clamp_zero hc, hst, hfw, ?_⟩
    by_cases hff : k'.forward = k.forward
    · rw [q5 hff, h3]; simp
    · exact (q4 hff).2.2.2.2

/-- Where such a vehicle gets to. -/
theorem straight_reach (hc : ClampSpec clamp) (hP : StraightOnly P) {so : SOpts} (hθ : start.theta = 0)
    (hne : ⌊start.x⌋ ≠ ⌊goal.x⌋) {k : SNode} (h : RoadReach (DynAdv clamp P so) m skips start goal k) :
    (∃ j : Nat, k.x = ⌊start.x⌋ + (j : ℝ)) ∧ k.y = ⌊start.y⌋ ∧ k.theta = 0 ∧ k.steer = 0 ∧ k.custom = 0 := by
  induction h with
  | start h =>
    obtain ⟨h1, h2, h3, h4, _, h6⟩ := h
    rw [if_neg (fun e => hne e.1)] at h6
    exact ⟨⟨0, by simpa using h1⟩, h2, h6.trans hθ, h3, h4⟩
  | step _ hs _ ih =>
    obtain ⟨⟨j, h1⟩, h2, h3, h4, h5⟩ := ih
    obtain ⟨r1, r2, r3, r4, _, r6⟩ := straight_adv hc hP hs.1 h3 h4 h5
    exact ⟨⟨j + 1, by rw [r1, h1]; push_cast; ring⟩, r2.trans h2, r3, r4, r6⟩

theorem straight_next (hc : ClampSpec clamp) (hP : StraightOnly P) {so : SOpts} {k : SNode} (h1 : k.theta = 0)
    (h2 : k.steer = 0) (h3 : k.custom = 0) (h4 : k.forward = true) : ∃ c k', DynAdv clamp P so k c k' := by
  have : ∃ c k', dynAdvance clamp P so k 0 0 = some (c, k') ∧ 0 ≤ c := by
    unfold dynAdvance
    have h01 : steerSwitch P.maxSteer (truncC (P.steerDelta * ((0 : Nat) : ℝ))) k.steer 0 0 = some k.steer := by
      simp [steerSwitch]
    simp only [h01, h4, h3]
    norm_num
    unfold DynP.distPx
    rw [hP.dist]
    exact div_nonneg hP.res.le hP.res.le
  obtain ⟨c, k', e, hc0⟩ := this
  exact ⟨c, k', 0, 0, by omega, by simp [hP.fwd], by simp, by omega, e, hc0⟩

theorem lineOk_of_free (wf : m.WellFormed) (hfree : ∀ x y, ptOccupied m x y = .ok false) (k k' : SNode) : LineOk m skips k k' := by
  have key : ∀ x y, ptFreeOrUnknown m x y = .ok true := by
    intro x y
    obtain ⟨p1, p2⟩ := pt_spec m wf x y
    cases hin : m.isInMap x y with
    | true =>
      obtain ⟨_, q2, q3⟩ := p1 hin
      exact q3.2 (by rw [← q2]; exact hfree x y)
    | false => exact (p2 hin).2.2
  exact ⟨key _ _, fun _ _ z _ => key _ _⟩

theorem truncC_cast (z : Int) : truncC ((z : ℝ)) = z := by
  unfold truncC; split <;> simp

/-- Inside one row of the map that is not obstructed. -/
theorem lineOk_of_row (wf : m.WellFormed) {r : Int} (hfree : ∀ x, ptOccupied m x r = .ok false) {k k' : SNode}
    (h1 : ⌊k.y⌋ = r) (h2 : ⌊k'.y⌋ = r) (h3 : truncC k.y = r) : LineOk m skips k k' := by
  have key : ∀ x, ptFreeOrUnknown m x r = .ok true := by
    intro x
    obtain ⟨p1, p2⟩ := pt_spec m wf x r
    cases hin : m.isInMap x r with
    | true =>
      obtain ⟨_, q2, q3⟩ := p1 hin
      exact q3.2 (by rw [← q2]; exact hfree x)
    | false => exact (p2 hin).2.2
  refine ⟨by rw [h3]; exact key _, fun _ _ z hz => ?_⟩
  obtain ⟨l, _, hl, _, rfl⟩ := hz
  obtain ⟨i, j, hat⟩ := Bres.at_after m ⌊k.x⌋ ⌊k.y⌋ ⌊k'.x⌋ ⌊k'.y⌋ l hl
  have hb := hat.box
  have : (lineCell m ⌊k.x⌋ ⌊k.y⌋ ⌊k'.x⌋ ⌊k'.y⌋ l).2 = r := by
    unfold InBox at hb
    have e1 := hb.2.2.1
    have e2 := hb.2.2.2
    simp only [h1, h2, min_self, max_self] at e1 e2
    unfold lineCell
    rw [h1, h2]
    omega
  rw [this]; exact key _

/-- C73.  On a map without obstacles in the row of the start a vehicle that can only drive straight ahead, starting with heading 0, is given a path to
every goal straight ahead *whatever heading is requested at the goal*, and every pose of this path has heading 0. -/
theorem goal_heading_ignored (hc : ClampSpec clamp) (hP : StraightOnly P) (hm : SteerMapOk m P.stepLen)
    (L : Lawful O) (ht : TopOk cfg.top) (hab : ∀ i, cfg.abort i = false) (hdt : 0 < distThr) (hat : 0 ≤ angThr)
    (h1 : IntPose start) (h2 : IntPose goal) (hθ : start.theta = 0)
    (hin1 : InsidePad m.width m.height ⟨start.x, start.y, 0, true, 0, 0, 0⟩)
    (hin2 : InsidePad m.width m.height ⟨goal.x, goal.y, 0, true, 0, 0, 0⟩)
    (hfree : ∀ x, ptOccupied m x ⌊start.y⌋ = .ok false) (hx : ⌊start.x⌋ < ⌊goal.x⌋) (hy : ⌊start.y⌋ = ⌊goal.y⌋) :
    ∃ fuel q, padFindPath clamp (dynSteerAlgo clamp P distThr angThr m skips b S) O cfg start goal fuel = some (.ok q) ∧
      q ≠ [] ∧ ∀ k ∈ q, k.theta = 0 := by
  have hd : 0 ≤ P.distStep := by rw [hP.dist]; exact hP.res.le
  obtain ⟨fuel, r, e1, e2, e3⟩ := dyn_search_ends (distThr := distThr) (angThr := angThr) (skips := skips) (b := b) (S := S)
    hc hd hP.res hm L ht h1 h2
  have hok : ∃ q, r = .ok q := by
    cases r with
    | ok q => exact ⟨q, rfl⟩
    | ub => exact absurd rfl e2
    | throw e =>
      exfalso
      rcases (e3 e rfl).2 with h | h | ⟨k, c, k', h3, h4, h5⟩
      · exact h hin1
      · exact h hin2
      · obtain ⟨⟨j, q1⟩, q2, q3, q4, q5⟩ := straight_reach hc hP hθ (by omega) h3
        obtain ⟨r1, r2, _⟩ := straight_adv hc hP h4.1 q3 q4 q5
        have f1 : ⌊k'.x⌋ = ⌊start.x⌋ + j + 1 := by
          have : k'.x = ((⌊start.x⌋ + j + 1 : Int) : ℝ) := by rw [r1, q1]; push_cast; ring
          rw [this, Int.floor_intCast]
        have f2 : ⌊k'.y⌋ = ⌊start.y⌋ := by rw [r2, q2, Int.floor_intCast]
        unfold InsidePad at hin1
        unfold OnEdge at h5
        simp only at hin1
        omega
  obtain ⟨q, rfl⟩ := hok
  refine ⟨fuel, q, e1, ?_, ?_⟩
  · rintro rfl
    obtain ⟨T, hT⟩ := dyn_complete hc hd hP.res hm L ht hab hdt hat h1 h2 e1
    have key : ∀ j : Nat, ⌊start.x⌋ + j ≤ ⌊goal.x⌋ → ∃ k, T k ∧ k.x = ⌊start.x⌋ + (j : ℝ) ∧ k.forward = true := by
      intro j
      induction j with
      | zero =>
        intro _
        obtain ⟨k, hk, hs, hf⟩ := hT.init (hfree _) true
        exact ⟨k, hk, by simpa using hs.1, hf⟩
      | succ j ih =>
        intro hj
        obtain ⟨k, hk, hkx, hkf⟩ := ih (by push_cast at hj; omega)
        obtain ⟨_, q2, q3, q4, q5⟩ := straight_reach hc hP hθ (by omega) (hT.reach k hk)
        obtain ⟨c, k', hadv⟩ := straight_next (so := S.so) hc hP q3 q4 q5 hkf
        obtain ⟨r1, r2, r3, r4, r5, r6⟩ := straight_adv hc hP hadv q3 q4 q5
        have f1 : ⌊k'.x⌋ = ⌊start.x⌋ + j + 1 := by
          have : k'.x = ((⌊start.x⌋ + j + 1 : Int) : ℝ) := by rw [r1, hkx]; push_cast; ring
          rw [this, Int.floor_intCast]
        have f2 : ⌊k'.y⌋ = ⌊start.y⌋ := by rw [r2, q2, Int.floor_intCast]
        have hin : InsidePad m.width m.height k' := by
          unfold InsidePad at hin1 hin2 ⊢
          simp only at hin1 hin2
          push_cast at hj
          omega
        obtain ⟨k'', hk'', hh⟩ := hT.closed k c k' hk hadv ⟨hadv, .inl hin, lineOk_of_row hm.wf hfree (by rw [q2, Int.floor_intCast]) f2 (by rw [q2]; exact truncC_cast _)⟩ hin
        obtain ⟨⟨j', q1'⟩, _⟩ := straight_reach hc hP hθ (by omega) (hT.reach k'' hk'')
        rcases hh with ⟨g1, _, g3, _⟩ | ⟨g1, g2, _⟩
        · refine ⟨k'', hk'', ?_, g3.trans r5⟩
          have : ⌊k''.x⌋ = ⌊start.x⌋ + j' := by
            have : k''.x = ((⌊start.x⌋ + j' : Int) : ℝ) := by rw [q1']; push_cast; ring
            rw [this, Int.floor_intCast]
          have hjj : j' = j + 1 := by omega
          rw [q1', hjj]
        · rw [g1.1, Int.floor_intCast] at g2
          omega
    obtain ⟨n, hn⟩ : ∃ n : Nat, ⌊goal.x⌋ = ⌊start.x⌋ + n := ⟨(⌊goal.x⌋ - ⌊start.x⌋).toNat, by omega⟩
    obtain ⟨k, hk, hkx, _⟩ := key n (by omega)
    obtain ⟨_, q2, q3, _⟩ := straight_reach hc hP hθ (by omega) (hT.reach k hk)
    have f1 : ⌊k.x⌋ = ⌊goal.x⌋ := by
      have : k.x = ((⌊start.x⌋ + n : Int) : ℝ) := by rw [hkx]; push_cast; ring
      rw [this, Int.floor_intCast, hn]
    refine (hT.noGoal (by rw [← hy]; exact hfree _) k hk true).2 ⟨f1, by rw [q2, Int.floor_intCast, hy], ?_, ?_⟩
    · rw [q3]; exact angle2index_zero hc
    · intro hs
      rw [hs.1, Int.floor_intCast] at f1
      omega
  · intro k hk
    by_cases hq : q = []
    · subst hq; simp at hk
    · obtain ⟨_, t2, _⟩ := pad_path hc hm (dynMoves_stepBound hd hP.res) dyn_offers (dyn_costOk hm.res) L ht h1 h2 e1 hq
      exact (straight_reach hc hP hθ (by omega) (t2 k hk)).2.2.1

end

/-! ### A concrete case -/

namespace SteerEx

/-- A free map of four by two cells. -/
def map : GridMap ℝ := ⟨4, 2, 1, 0, 0, List.replicate 8 0, 50, 200, -1⟩
def P : DynP := ⟨1, 1, 1, 60, 15, 0, false, true, false⟩
def S : SteerCfg := ⟨{}, fun _ _ => 0, none⟩
def cfg : SCfg (PadCell map.width map.height) ℝ := ⟨[], [], false, 0, none, fun _ => false, fun _ _ _ => none, SearchEx.topRef, none⟩
def bres : Bres ℝ := Bres.start map 0 0 0 0

theorem stepLen : P.stepLen = 1 := by simp [P, DynP.stepLen]

theorem map_ok : SteerMapOk map P.stepLen := by
  rw [stepLen]
  constructor <;> norm_num [map]

theorem free (x y : Int) : ptOccupied map x y = .ok false := by
  obtain ⟨r, hr⟩ := (pt_total map map_ok.wf x y).2.2
  rw [hr]
  unfold ptOccupied at hr
  split_ifs at hr with h
  · rw [← hr]
  · have tw : toI32 map.width = 4 := by decide +kernel
    have th : toI32 map.height = 2 := by decide +kernel
    rw [tw, th] at h
    push Not at h
    obtain ⟨a, b', c, d⟩ := h
    obtain ⟨x, rfl⟩ := Int.eq_ofNat_of_zero_le a
    obtain ⟨y, rfl⟩ := Int.eq_ofNat_of_zero_le b'
    have hx : x < 4 := by omega
    have hy : y < 2 := by omega
    rw [← hr]
    interval_cases x <;> interval_cases y <;> rfl

/-- From `(0, 0)` with heading 0 to `(3, 0)` with heading `π`: a path is found, and its last pose has heading 0. -/
theorem example_path {clamp : ℝ → ℝ} (hc : ClampSpec clamp) :
    ∃ fuel q, padFindPath clamp (dynSteerAlgo clamp P (1 / 10) (1 / 10) map 0 bres S) PriorityManager cfg
      ⟨0, 0, 0⟩ ⟨3, 0, Real.pi⟩ fuel = some (.ok q) ∧ q ≠ [] ∧ ∀ k ∈ q, k.theta = 0 := by
  refine goal_heading_ignored hc ⟨rfl, rfl, rfl, rfl, rfl, by norm_num [P], by norm_num [P]⟩ map_ok prioLawful
    SearchEx.topRef_ok (fun _ => rfl) (by norm_num) (by norm_num) ?_ ?_ rfl ?_ ?_ (fun x => free x _) ?_ ?_ <;>
    norm_num [IntPose, InsidePad, map]

end SteerEx
end PathPlanning
