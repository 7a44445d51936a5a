import Verif.Props.HybridComplete
import Verif.Props.HybridClearance
import Verif.Props.SteerClearanceEx

/-!
# C79, C103, C104: a complete search with expansion

A vehicle that cannot steer starts at the left border of a map, heading to the right, towards an obstacle.  The goal is ten rows further up: only
the expansion gets there.
-/

noncomputable section
namespace PathPlanning
open Spec RSExp

namespace HybridRun
open ClearEx

/-- 100 by 100 cells of 13 cm; the cells `(50..66, 22..38)` are occupied. -/
def hmap : GridMap ℝ := boxMap (13 / 100) 50 66 22 38
def hP : DynP := ⟨13 / 100, 13 / 100, 1 / 2, 60, 15, 0, false, true, false⟩
def hS : SteerCfg := ⟨{}, fun _ _ => 0, none⟩
def hcfg : SCfg (PadCell hmap.width hmap.height) ℝ :=
  ⟨[], [], false, 0, none, fun _ => false, fun _ _ _ => none, SearchEx.topRef, none⟩
def hbres : Bres ℝ := Bres.start hmap 0 0 0 0
def hstart : Pose := ⟨0, 30, 0⟩
def hgoal : Pose := ⟨32, 40, 0⟩

theorem straight : StraightOnly hP := ⟨rfl, rfl, rfl, rfl, rfl, by norm_num [hP], by norm_num [hP]⟩

theorem hmap_ok : SteerMapOk hmap hP.stepLen := by
  have : hP.stepLen ≤ 4 := by
    unfold DynP.stepLen
    simp only [hP]
    norm_num [abs_of_pos]
  have h0 : 0 ≤ hP.stepLen := by
    unfold DynP.stepLen
    exact le_trans (by norm_num [hP, DynP.distPx]) (le_max_left _ _)
  constructor
  · norm_num [hmap, boxMap]
  · norm_num [hmap, boxMap]
  · simp only [hmap, boxMap]; norm_num; linarith
  · simp only [hmap, boxMap]; norm_num; linarith
  · exact h0
  · norm_num [hmap, boxMap]

theorem radius : (13 / 10 / hmap.res : ℝ) = 10 := by norm_num [hmap, boxMap]

theorem ends : IntPose hstart ∧ IntPose hgoal ∧ InsidePad hmap.width hmap.height ⟨hstart.x, hstart.y, 0, true, 0, 0, 0⟩ ∧
    InsidePad hmap.width hmap.height ⟨hgoal.x, hgoal.y, 0, true, 0, 0, 0⟩ := by
  refine ⟨?_, ?_, ?_, ?_⟩ <;> norm_num [IntPose, InsidePad, hstart, hgoal, hmap, boxMap]

theorem floors : ⌊hstart.x⌋ = 0 ∧ ⌊hstart.y⌋ = 30 ∧ ⌊hgoal.x⌋ = 32 ∧ ⌊hgoal.y⌋ = 40 := by
  refine ⟨?_, ?_, ?_, ?_⟩ <;> norm_num [hstart, hgoal]

variable {clamp : ℝ → ℝ}

/-- The obstacle stops the vehicle. -/
theorem reach_le (hc : ClampSpec clamp) {k : SNode} (h : RoadReach (DynAdv clamp hP hS.so) hmap 0 hstart hgoal k) :
    (∃ j : Nat, j ≤ 50 ∧ k.x = (j : ℝ)) ∧ k.y = 30 ∧ k.theta = 0 ∧ k.steer = 0 ∧ k.custom = 0 := by
  obtain ⟨f1, f2, f3, f4⟩ := floors
  have hr := fun k hk => straight_reach (P := hP) (m := hmap) (skips := 0) (start := hstart) (goal := hgoal) (so := hS.so) (k := k)
    hc straight rfl (by rw [f1, f3]; norm_num) hk
  obtain ⟨q1, q2, q3, q4, q5⟩ := hr k h
  refine ⟨?_, by rw [q2, f2]; norm_num, q3, q4, q5⟩
  clear q1 q2 q3 q4 q5
  induction h with
  | start h => exact ⟨0, by norm_num, by rw [h.1, f1]; norm_num⟩
  | @step k c k' hk hs _ ih =>
    obtain ⟨j, hj, hx⟩ := ih
    obtain ⟨_, q2, q3, q4, q5⟩ := hr k hk
    obtain ⟨r1, _⟩ := straight_adv hc straight hs.1 q3 q4 q5
    have hlt : j < 50 := by
      by_contra hge
      have hj50 : j = 50 := by omega
      have h1 := hs.2.2.1
      have e1 : truncC k.x = 50 := by rw [hx, hj50]; exact_mod_cast truncC_cast 50
      have e2 : truncC k.y = 30 := by rw [q2, f2]; exact truncC_cast 30
      rw [e1, e2] at h1
      obtain ⟨p1, _⟩ := pt_spec hmap hmap_ok.wf 50 30
      have hin : hmap.isInMap 50 30 = true := (boxMap_in _ _).2 (by norm_num)
      have ho := ((p1 hin).2.2).1 h1
      have := boxMap_occ (res := 13 / 100) (x0 := 50) (x1 := 66) (y0 := 22) (y1 := 38) (x := 50) (y := 30) (by norm_num) (by norm_num)
      have e : hmap.isOccupied ⟨(50 : Int).toNat, (30 : Int).toNat⟩ = .ok true := by
        exact this.trans (by norm_num)
      rw [e] at ho
      cases ho
    exact ⟨j + 1, by omega, by rw [r1, hx]; push_cast; ring⟩

theorem far (hc : ClampSpec clamp) {k : SNode} (h : RoadReach (DynAdv clamp hP hS.so) hmap 0 hstart hgoal k) :
    FarFromEdge hmap k := by
  obtain ⟨⟨j, hj, hx⟩, hy, _⟩ := reach_le hc h
  have e1 : ⌊k.x⌋ = j := by rw [hx]; simp
  have e2 : ⌊k.y⌋ = 30 := by rw [hy]; norm_num
  unfold FarFromEdge hmap
  rw [e1, e2, boxMap_in]
  omega

theorem line {k k' : SNode} (hk : k.y = 30) (hk' : k'.y = 30) (h0 : 0 ≤ k.x) (h1 : k.x < 40)
    (h3 : k'.x < 40) : LineOk hmap 0 k k' := by
  have key : ∀ x : Int, x < 40 → ptFreeOrUnknown hmap x 30 = .ok true := fun x hx => (boxMap_free (by push_cast; omega)).2
  have e : truncC k.x = ⌊k.x⌋ := truncC_nonneg h0
  have g1 : ⌊k.x⌋ < 40 := Int.floor_lt.2 (by exact_mod_cast h1)
  have g2 : ⌊k'.x⌋ < 40 := Int.floor_lt.2 (by exact_mod_cast h3)
  have e2 : truncC k.y = 30 := by rw [hk]; exact_mod_cast truncC_cast 30
  refine ⟨by rw [e, e2]; exact key _ g1, fun _ _ z hz => ?_⟩
  obtain ⟨l, _, hl, _, rfl⟩ := hz
  obtain ⟨i, j, hat⟩ := Bres.at_after hmap ⌊k.x⌋ ⌊k.y⌋ ⌊k'.x⌋ ⌊k'.y⌋ l hl
  have hb := hat.box
  have y1 : ⌊k.y⌋ = 30 := by rw [hk]; norm_num
  have y2 : ⌊k'.y⌋ = 30 := by rw [hk']; norm_num
  have : (lineCell hmap ⌊k.x⌋ ⌊k.y⌋ ⌊k'.x⌋ ⌊k'.y⌋ l).2 = 30 ∧ (lineCell hmap ⌊k.x⌋ ⌊k.y⌋ ⌊k'.x⌋ ⌊k'.y⌋ l).1 < 40 := by
    unfold InBox at hb
    obtain ⟨b1, b2, b3, b4⟩ := hb
    simp only [y1, y2, min_self, max_self] at b1 b2 b3 b4
    have b2' := lt_of_le_of_lt b2 (max_lt g1 g2)
    unfold lineCell
    rw [y1, y2]
    exact ⟨by omega, b2'⟩
  rw [this.1]; exact key _ this.2

theorem mapIf_free {m : GridMap ℝ} {x y : Int} (h : m.isFree ⟨x.toNat, y.toNat⟩ = .ok true) : (Sampling.mapIf m).free x y = true := by
  simp only [Sampling.mapIf, h, decide_true]

theorem box : FreeBox (Sampling.mapIf hmap) 0 49 0 67 := by
  intro x y h1 h2 h3 h4
  constructor
  · exact (boxMap_in x y).2 (by omega)
  · apply mapIf_free
    have hi : hmap.index ⟨x.toNat, y.toNat⟩ = y.toNat * 100 + x.toNat := by
      unfold GridMap.index wrapU
      have : u32 = 4294967296 := by decide
      simp only [hmap, boxMap, this]
      omega
    have hg : hmap.getValue ⟨x.toNat, y.toNat⟩ = .ok 0 := by
      unfold GridMap.getValue
      rw [hi, vget_of_lt (by simp [hmap, boxMap]; omega)]
      simp only [hmap, boxMap, List.getElem_map, List.getElem_range]
      rw [if_neg (by omega)]
    unfold GridMap.isFree
    rw [hg]
    rfl

/-- From the twelfth cell an open way leads to the goal. -/
theorem way : OpenWay hmap ⟨12, 30, 0⟩ ⟨32, 40, 0⟩ := by
  have hpi := Real.pi_pos
  have hpi4 := Real.pi_le_four
  set θ := Real.arcsin (3 / 5) with hθ
  have hs : Real.sin θ = 3 / 5 := Real.sin_arcsin (by norm_num) (by norm_num)
  have hcs : Real.cos θ = 4 / 5 := by
    rw [hθ, Real.cos_arcsin, show (1 - (3 / 5) ^ 2 : ℝ) = (4 / 5) ^ 2 by norm_num, Real.sqrt_sq (by norm_num)]
  have h1 : 0 < θ := Real.arcsin_pos.2 (by norm_num)
  have h2 : θ < Real.pi / 2 := Real.arcsin_lt_pi_div_two.2 (by norm_num)
  refine ⟨0, 49, 0, 67, .left, .right, θ, 10, θ, box, h1, by norm_num, h1, by linarith, ?_, ?_, ?_, ?_, ?_, ?_⟩
  · rw [radius]
    simp only [cscForward, driveAll, drive, oriSign, dirSign, one_mul, mul_one, zero_add]
    refine ⟨?_, ?_, 0, ?_⟩
    · rw [show θ + -1 * θ = 0 by ring]
      simp only [hs, hcs, Real.sin_zero]; norm_num
    · rw [show θ + -1 * θ = 0 by ring]
      simp only [hs, hcs, Real.cos_zero]; norm_num
    · push_cast; ring
  · rw [radius]
    simp only [turnCentre, oriSign, Real.sin_zero, Real.cos_zero, eucl, dist2]
    apply Real.le_sqrt_of_sq_le; norm_num
  · rw [radius]
    simp only [turnCentre, oriSign, Real.sin_zero, Real.cos_zero, CircleIn]; norm_num
  · rw [radius]
    simp only [turnCentre, oriSign, Real.sin_zero, Real.cos_zero, CircleIn]; norm_num
  · simp only [eucl, dist2, Pose.pt]
    apply Real.le_sqrt_of_sq_le; norm_num
  · rw [radius]; nlinarith

/-- At the border no turning circle fits into the map. -/
theorem start_no_way {k : SNode} (h : StartPose hstart hgoal k) (q : Pose) (ps : List Pose) : ¬ ForwardWay hmap (poseOf k) q ps := by
  rintro ⟨o, o', t1, L, t3, _, _, _, _, _, hcl, _⟩
  obtain ⟨f1, f2, f3, f4⟩ := floors
  have hx : k.x = 0 := by rw [h.1, f1]; norm_num
  have hy : k.y = 30 := by rw [h.2.1, f2]; norm_num
  have ht : k.theta = 0 := by rw [h.2.2.2.2.2, if_neg (by rw [f1, f3]; norm_num)]; rfl
  rw [radius] at hcl
  obtain ⟨h1, _⟩ := hcl
  simp only [ElemClear] at h1
  have t10 : truncC (10 : ℝ) = 10 := by exact_mod_cast truncC_cast 10
  have t0 : truncC (0 : ℝ) = 0 := by exact_mod_cast truncC_cast 0
  have hz : turnCentre 10 o (poseOf k) = ⟨0, 30 + oriSign o * 10⟩ := by
    simp only [turnCentre, poseOf, hx, hy, ht, Real.sin_zero, Real.cos_zero]
    congr 1 <;> ring
  rw [hz, t10] at h1
  simp only [t0] at h1
  have := (h1 (-10, truncC (30 + oriSign o * 10)) (by unfold RingCell; norm_num)).1
  have := (boxMap_in (res := 13 / 100) (x0 := 50) (x1 := 66) (y0 := 22) (y1 := 38) (-10) (truncC (30 + oriSign o * 10))).1 this
  omega

theorem margins : max (dynMargin hP 0) (expMargin hmap 0) ≤ 8 := by
  have ht : Real.tan (((60 : Int) : ℝ) / 180 * Real.pi) = Real.sqrt 3 := by
    have : ((60 : Int) : ℝ) / 180 * Real.pi = Real.pi / 3 := by push_cast; ring
    rw [this, Real.tan_pi_div_three]
  obtain ⟨h1, h2⟩ := sqrt3
  have hpi := Real.pi_le_four
  refine max_le ?_ ?_
  · unfold dynMargin arcMargin
    have : ⌈(max hP.distStep hP.la) ^ 2 * abs (Real.tan ((hP.maxSteer : ℝ) / 180 * Real.pi)) / (8 * hP.la * hP.resolution)⌉ ≤ 1 := by
      rw [Int.ceil_le]
      have e : Real.tan ((hP.maxSteer : ℝ) / 180 * Real.pi) = Real.sqrt 3 := ht
      rw [e, abs_of_nonneg (by linarith)]
      have em : max hP.distStep hP.la = 1 / 2 := by simp only [hP]; norm_num
      rw [em]
      simp only [hP]
      push_cast; rw [div_le_iff₀ (by norm_num)]; linarith
    push_cast; linarith
  · unfold expMargin turnGap
    rw [radius]
    have f10 : ⌊(10 : ℝ)⌋ = 10 := by norm_num
    rw [f10]
    have : ⌈Real.pi * 10 / (((10 : Int) : ℝ) - 1)⌉ ≤ 5 := by
      rw [Int.ceil_le]
      push_cast; rw [div_le_iff₀ (by norm_num)]; linarith
    omega

theorem inflated : Inflated hmap (max (dynMargin hP 0) (expMargin hmap 0)) fun o => o = (58, 30) := by
  rintro o c rfl hw
  obtain ⟨h1, h2⟩ := hw.mono margins
  have h1 := abs_le.1 h1; have h2 := abs_le.1 h2
  simp only at h1 h2
  refine ⟨(boxMap_in _ _).2 (by omega), ?_⟩
  have := boxMap_occ (res := 13 / 100) (x0 := 50) (x1 := 66) (y0 := 22) (y1 := 38) (x := c.1.toNat) (y := c.2.toNat)
    (by omega) (by omega)
  rw [decide_eq_true (by omega)] at this
  exact this

/-- **Concrete run.** The search ends with a path whose last part is an expansion (C79), and which can be driven without touching the
obstacle `(58, 30)` (C103); the search without expansion gives up. -/
theorem hybrid_run (hc : ClampSpec clamp) (hopen : ∀ t, -Real.pi < clamp t) :
    ∃ x fuel q x', St.new 0 true true 0 true = .ok x ∧
      padFindPathX clamp (dynSteerAlgo clamp hP (1 / 10) (1 / 10) hmap 0 hbres hS) (rsExp clamp 0 true true hmap) PriorityManager hcfg
        hstart hgoal x fuel = some (.ok q, x') ∧
      HybridPath clamp (DynAdv clamp hP hS.so) hmap 0 hstart hgoal True q ∧
      SafeHybridPath clamp (DynAdv clamp hP hS.so) hmap 0 hstart hgoal True
        (fun x y => ∃ ds, (ds = hP.la ∨ ds = hP.distStep) ∧ abs y.steer ≤ hP.maxSteer ∧
          SafeDrive hP.la hP.resolution ((y.steer : ℝ) / 180 * Real.pi) (driveSign hP.reversed y.forward) ds (fun o => o = (58, 30)) x y)
        (fun o => o = (58, 30)) q ∧
      ∃ f', padFindPath clamp (dynSteerAlgo clamp hP (1 / 10) (1 / 10) hmap 0 hbres hS) PriorityManager hcfg hstart hgoal f' =
        some (.ok []) := by
  obtain ⟨i1, i2, in1, in2⟩ := ends
  obtain ⟨f1, f2, f3, f4⟩ := floors
  have hd : 0 ≤ hP.distStep := by norm_num [hP]
  have hr : 0 < hP.resolution := by norm_num [hP]
  have hst : 0 ≤ hP.maxSteer ∧ hP.maxSteer < 90 := by norm_num [hP]
  have hla : 0 < hP.la := by norm_num [hP]
  have h0 : 0 < hmap.res := by norm_num [hmap, boxMap]
  have h13 : hmap.res ≤ 13 / 10 := by norm_num [hmap, boxMap]
  have hfs : ptOccupied hmap ⌊hstart.x⌋ ⌊hstart.y⌋ = .ok false := by
    rw [f1, f2]; exact (boxMap_free (by norm_num)).1
  have hfg : ptOccupied hmap ⌊hgoal.x⌋ ⌊hgoal.y⌋ = .ok false := by
    rw [f3, f4]; exact (boxMap_free (by norm_num)).1
  obtain ⟨x, hx⟩ : ∃ x, St.new 0 true true 0 true = .ok x := ⟨_, new_eq _ _ _ _ _⟩
  have hxr : ExpReach clamp 0 true true x := .new hx
  -- the search without expansion
  have hgy : ∀ kg, GoalPose clamp (DynAdv clamp hP hS.so) hmap 0 hstart hgoal kg → kg.y = 40 := by
    intro kg hg
    rcases hg with ⟨_, e, _⟩ | ⟨g1, _, g2, _⟩
    · rw [e, f4]; norm_num
    · rw [(reach_le hc g1).2.1, f4] at g2
      norm_num at g2
  have plain : ∀ f r, padFindPath clamp (dynSteerAlgo clamp hP (1 / 10) (1 / 10) hmap 0 hbres hS) PriorityManager hcfg hstart hgoal f =
      some r → r = .ok [] := by
    intro f r hf
    obtain ⟨fuel, r', e1, e2, e3⟩ := dyn_search_ends (P := hP) (distThr := 1 / 10) (angThr := 1 / 10) (m := hmap) (skips := 0)
      (b := hbres) (S := hS) (O := PriorityManager) (cfg := hcfg) hc hd hr hmap_ok prioLawful SearchEx.topRef_ok i1 i2
    have hrr : r = r' := by
      unfold padFindPath at hf e1
      cases hi : padInit clamp hmap hstart hgoal with
      | throw e => rw [hi] at hf e1; rw [← Option.some.inj hf, ← Option.some.inj e1]
      | ub => rw [hi] at hf e1; rw [← Option.some.inj hf, ← Option.some.inj e1]
      | ok t =>
        obtain ⟨sp, s, gp, g⟩ := t
        rw [hi] at hf e1
        unfold kFindPath at hf e1
        simp only [Option.map_eq_some_iff] at hf e1
        obtain ⟨a, ha, rfl⟩ := hf
        obtain ⟨c, hc', rfl⟩ := e1
        rw [kLoop_fuel _ _ _ _ _ ha hc']
    subst hrr
    cases r with
    | ub => exact absurd rfl e2
    | throw e =>
      exfalso
      rcases (e3 e rfl).2 with h | h | ⟨k, c, k', h3, h4, h5⟩
      · exact h in1
      · exact h in2
      · obtain ⟨⟨j, _, q1⟩, q2, q3, q4, q5⟩ := reach_le hc h3
        obtain ⟨r1, r2, _⟩ := straight_adv hc straight h4.1 q3 q4 q5
        have g1 : ⌊k'.x⌋ = j + 1 := by
          have : k'.x = ((j + 1 : Int) : ℝ) := by rw [r1, q1]; push_cast; ring
          rw [this, Int.floor_intCast]
        have g2 : ⌊k'.y⌋ = 30 := by rw [r2, q2]; norm_num
        unfold OnEdge at h5
        omega
    | ok q =>
      by_cases hne : q = []
      · rw [hne]
      · exfalso
        obtain ⟨_, _, _, _, kl, _, k, kg, _, _, t3, t4, _, t6⟩ := dyn_path hc hd hr hmap_ok hst hla.ne' prioLawful
          SearchEx.topRef_ok i1 i2 hf hne
        have hky := (reach_le hc t3).2.1
        have hkgy := hgy kg t4
        have := (abs_le_nodeDist kg k).2
        rw [hky, hkgy] at this
        have h10 : (10 : ℝ) ≤ nodeDist kg k := le_trans (by norm_num) this
        simp only [hP] at t6
        nlinarith
  -- the search with expansion
  obtain ⟨fuel, ⟨r, x'⟩, hrun⟩ := dyn_hybrid_ends (P := hP) (distThr := 1 / 10) (angThr := 1 / 10) (m := hmap) (skips := 0)
    (b := hbres) (S := hS) (O := PriorityManager) (cfg := hcfg) hc hopen hd hr hmap_ok prioLawful SearchEx.topRef_ok (le_refl 0)
    (by norm_num) h0 h13 (fun _ _ => le_refl _) i1 i2 hxr
  have hout := dyn_hybrid hc hopen hd hr hmap_ok prioLawful SearchEx.topRef_ok (le_refl 0)
    (by norm_num) h0 h13 (fun _ _ => le_refl _) i1 i2 hxr hrun
  have hnot : r ≠ .ok [] := by
    rintro rfl
    obtain ⟨T, hT, hno⟩ := dyn_hybrid_no_way hc hopen hd hr hmap_ok prioLawful SearchEx.topRef_ok (fun _ => rfl) (by norm_num)
      (by norm_num) h0 h13 (fun _ _ => le_refl _) i1 i2 hxr hfg hrun
    have key : ∀ j : Nat, j ≤ 12 → ∃ k, T k ∧ k.x = (j : ℝ) ∧ k.forward = true := by
      intro j
      induction j with
      | zero =>
        intro _
        obtain ⟨k, hk, hs, hf⟩ := hT.init hfs true
        exact ⟨k, hk, by rw [hs.1, f1]; norm_num, hf⟩
      | succ j ih =>
        intro hj
        obtain ⟨k, hk, hkx, hkf⟩ := ih (by omega)
        obtain ⟨_, q2, q3, q4, q5⟩ := reach_le hc (hT.reach k hk)
        obtain ⟨c, k', hadv⟩ := straight_next (so := hS.so) hc straight q3 q4 q5 hkf
        obtain ⟨r1, r2, r3, r4, r5, r6⟩ := straight_adv hc straight hadv q3 q4 q5
        have g1 : ⌊k'.x⌋ = j + 1 := by
          have : k'.x = ((j + 1 : Int) : ℝ) := by rw [r1, hkx]; push_cast; ring
          rw [this, Int.floor_intCast]
        have hjr : (j : ℝ) ≤ 12 := by exact_mod_cast (by omega : j ≤ 12)
        have hj0 : (0 : ℝ) ≤ j := Nat.cast_nonneg j
        have g2 : ⌊k'.y⌋ = 30 := by rw [r2, q2]; norm_num
        have hin : InsidePad hmap.width hmap.height k' := by
          unfold InsidePad
          have hw : hmap.width = 100 := rfl
          have hh : hmap.height = 100 := rfl
          rw [hw, hh]
          push_cast
          omega
        obtain ⟨k'', hk'', hh⟩ := hT.closed k c k' hk hadv ⟨hadv, .inl hin, line q2 (by rw [r2, q2]) (by rw [hkx]; exact hj0)
          (by rw [hkx]; linarith) (by rw [r1, hkx]; linarith)⟩ hin
        obtain ⟨⟨j', _, q1'⟩, _⟩ := reach_le hc (hT.reach k'' hk'')
        rcases hh with ⟨w1, _, w3, _⟩ | ⟨w1, w2, _⟩
        · refine ⟨k'', hk'', ?_, w3.trans r5⟩
          have : ⌊k''.x⌋ = j' := by rw [q1']; simp
          have hjj : j' = j + 1 := by omega
          rw [q1', hjj]
        · rw [w1.1, Int.floor_intCast, f1] at w2
          omega
    obtain ⟨k, hk, hkx, hkf⟩ := key 12 le_rfl
    obtain ⟨_, q2, q3, _⟩ := reach_le hc (hT.reach k hk)
    refine hno k hk hkf ?_
    have : poseOf k = ⟨12, 30, 0⟩ := by
      unfold poseOf; rw [hkx, q2, q3]; norm_num
    rw [this, f3, f4]
    have e : (⟨((32 : Int) : ℝ), ((40 : Int) : ℝ), hgoal.theta⟩ : Pose) = ⟨32, 40, 0⟩ := by
      simp [hgoal]
    rw [e]
    exact way
  have hex : ((∀ k g, hS.heur k g = 0) ∧ hcfg.heurGoal = none ∧
      Nonempty (MinFirst (PriorityManager (N := PadCell hmap.width hmap.height) (C := ℝ)))) = True :=
    eq_true ⟨fun _ _ => rfl, rfl, ⟨prioMin⟩⟩
  rcases hout with ⟨_, f', hp⟩ | ⟨_, _, q, rfl, hq⟩ | ⟨_, _, k, kg, ps, hs, _, _, hw⟩
  · exact absurd (plain f' r hp) hnot
  · rw [hex] at hq
    refine ⟨x, fuel, q, x', hx, hrun, hq, ?_, ?_⟩
    · rcases dyn_hybrid_safe hc hopen hd hr hmap_ok hst hla prioLawful SearchEx.topRef_ok (le_refl 0) (by norm_num) h0
        (by rw [radius]; norm_num) (show (50 : UInt8) < 200 by decide) (fun _ _ => le_refl _) i1 i2 hxr hrun inflated (by
          rintro k _ ⟨k', h1, h2, h3⟩
          have := far hc h1
          unfold FarFromEdge at this ⊢
          rw [← h2, ← h3]; exact this) with ⟨f', hp⟩ | hsafe
      · exact absurd (plain f' _ hp) hnot
      · rw [hex] at hsafe; exact hsafe
    · obtain ⟨f', r', e1, _⟩ := dyn_search_ends (P := hP) (distThr := 1 / 10) (angThr := 1 / 10) (m := hmap) (skips := 0)
        (b := hbres) (S := hS) (O := PriorityManager) (cfg := hcfg) hc hd hr hmap_ok prioLawful SearchEx.topRef_ok i1 i2
      exact ⟨f', by rw [e1, plain f' r' e1]⟩
  · exact absurd hw (start_no_way hs _ _)

end HybridRun
end PathPlanning
