import Verif.Props.Reversed
import Verif.Props.SearchCustomEx

/-!
# A concrete reversed search (C78)

A free map of six by two cells, steps of two cells; from `(1, 0)` to `(5, 0)`, heading 0.  The search begins at `(5, 0)`.
-/

noncomputable section
namespace PathPlanning
open Spec

namespace RevEx

def map : GridMap ℝ := ⟨6, 2, 1, 0, 0, List.replicate 12 0, 50, 200, -1⟩
/-- Straight forward only, reversed. -/
def P : DynP := ⟨2, 1, 1, 60, 15, 0, true, true, false⟩
def S : SteerCfg := ⟨{}, fun _ _ => 0, none⟩
def cfg : SCfg (PadCell map.width map.height) ℝ := ⟨[], [], false, 0, none, fun _ => false, fun _ _ _ => none, SearchEx.topRef, none⟩
def bres : Bres ℝ := Bres.start map 0 0 0 0
def src : Pose := ⟨1, 0, 0⟩
def dst : Pose := ⟨5, 0, 0⟩

theorem stepLen : P.stepLen = 2 := by simp [P, DynP.stepLen]

theorem map_ok : SteerMapOk map P.stepLen := by
  rw [stepLen]
  constructor <;> norm_num [map]

theorem free (x y : Int) : ptOccupied map x y = .ok false := by
  obtain ⟨r, hr⟩ := (pt_total map map_ok.wf x y).2.2
  rw [hr]
  unfold ptOccupied at hr
  split_ifs at hr with h
  · rw [← hr]
  · have tw : toI32 map.width = 6 := by decide +kernel
    have th : toI32 map.height = 2 := by decide +kernel
    rw [tw, th] at h
    push Not at h
    obtain ⟨a, b', c, d⟩ := h
    obtain ⟨x, rfl⟩ := Int.eq_ofNat_of_zero_le a
    obtain ⟨y, rfl⟩ := Int.eq_ofNat_of_zero_le b'
    have hx : x < 6 := by omega
    have hy : y < 2 := by omega
    rw [← hr]
    interval_cases x <;> interval_cases y <;> rfl

theorem adv {clamp : ℝ → ℝ} (hc : ClampSpec clamp) {so : SOpts} {k k' : SNode} {c : ℝ}
    (h : DynAdv clamp P so k c k') (h1 : k.theta = 0) (h2 : k.steer = 0) (h3 : k.custom = 0) :
    k'.x = k.x - 2 ∧ k'.y = k.y ∧ k'.theta = 0 ∧ k'.steer = 0 ∧ k'.forward = true ∧ k'.custom = 0 := by
  obtain ⟨i, step, _, _, hi, hs, e, _⟩ := h
  have hi := hi rfl
  have hs : step ≤ 0 := hs
  have hs0 : step = 0 := by omega
  obtain ⟨hf, _, _, _, h' | h'⟩ := dynAdvance_inv e
  · omega
  · obtain ⟨_, ⟨s0, q1, q2⟩, q3, q4, q5, _⟩ := h'
    have hs0' : s0 = 0 := by
      rcases steerSwitch_cases q1 with ⟨_, e⟩ | ⟨e, _⟩ | ⟨e, _⟩
      · rw [e, h2]
      · omega
      · omega
    have hst : k'.steer = 0 := by
      rw [q2, hs0']
      exact steerClamp_id _ _ (by norm_num [P]) (by norm_num [P])
    have hfw : k'.forward = true := by rw [hf]; simpa using hi
    rw [hfw, hst] at q3
    unfold steerMove at q3
    simp only [if_true, Prod.mk.injEq, h1, Real.cos_zero, Real.sin_zero, P] at q3
    obtain ⟨r1, r2, r3⟩ := q3
    refine ⟨by rw [r1]; ring, by rw [r2]; ring, by rw [r3, add_zero]; exact clamp_zero hc, hst, hfw, ?_⟩
    by_cases hff : k'.forward = k.forward
    · rw [q5 hff, h3]; simp
    · exact (q4 hff).2.2.2.2

theorem reach {clamp : ℝ → ℝ} (hc : ClampSpec clamp) {so : SOpts} {skips : Nat} {k : SNode}
    (h : RoadReach (DynAdv clamp P so) map skips dst src k) :
    (∃ j : Nat, k.x = ((5 - 2 * (j : Int) : Int) : ℝ)) ∧ k.y = 0 ∧ k.theta = 0 ∧ k.steer = 0 ∧ k.custom = 0 := by
  induction h with
  | start h =>
    obtain ⟨h1, h2, h3, h4, _, h6⟩ := h
    refine ⟨⟨0, by rw [h1]; norm_num [dst]⟩, by rw [h2]; norm_num [dst], ?_, h3, h4⟩
    rw [h6]; norm_num [src, dst]
  | step _ hs _ ih =>
    obtain ⟨⟨j, h1⟩, h2, h3, h4, h5⟩ := ih
    obtain ⟨r1, r2, r3, r4, _, r6⟩ := adv hc hs.1 h3 h4 h5
    exact ⟨⟨j + 1, by rw [r1, h1]; push_cast; ring⟩, r2.trans h2, r3, r4, r6⟩

theorem next {clamp : ℝ → ℝ} {so : SOpts} {k : SNode} (h2 : k.steer = 0) (h3 : k.custom = 0)
    (h4 : k.forward = true) : ∃ c k', DynAdv clamp P so k c k' := by
  have : ∃ c k', dynAdvance clamp P so k 0 0 = some (c, k') ∧ 0 ≤ c := by
    unfold dynAdvance
    have h01 : steerSwitch P.maxSteer (truncC (P.steerDelta * ((0 : Nat) : ℝ))) k.steer 0 0 = some k.steer := by
      simp [steerSwitch]
    simp only [h01, h4, h3]
    norm_num
    unfold DynP.distPx
    norm_num [P]
  obtain ⟨c, k', e, hc0⟩ := this
  exact ⟨c, k', 0, 0, by omega, by simp [P], by simp, by omega, e, hc0⟩

/-- The reversed search finds a path. -/
theorem found {clamp : ℝ → ℝ} (hc : ClampSpec clamp) :
    ∃ fuel q, findPathBetween P.reversed (fun a c => padFindPath clamp (dynSteerAlgo clamp P (1 / 10) (1 / 10) map 0 bres S)
      PriorityManager cfg a c fuel) src dst = some (.ok q) ∧ q ≠ [] := by
  have hi1 : IntPose src := by norm_num [IntPose, src]
  have hi2 : IntPose dst := by norm_num [IntPose, dst]
  have hin1 : InsidePad map.width map.height ⟨dst.x, dst.y, 0, true, 0, 0, 0⟩ := by norm_num [InsidePad, map, dst]
  have hin2 : InsidePad map.width map.height ⟨src.x, src.y, 0, true, 0, 0, 0⟩ := by norm_num [InsidePad, map, src]
  have hd : 0 ≤ P.distStep := by norm_num [P]
  have hr : 0 < P.resolution := by norm_num [P]
  have ht : TopOk cfg.top := SearchEx.topRef_ok
  obtain ⟨fuel, r, e1, e2, e3⟩ := dyn_search_ends (distThr := 1 / 10) (angThr := 1 / 10) (skips := 0) (b := bres) (S := S)
    (O := PriorityManager) (cfg := cfg) hc hd hr map_ok prioLawful ht hi2 hi1
  have hok : ∃ q, r = .ok q := by
    cases r with
    | ok q => exact ⟨q, rfl⟩
    | ub => exact absurd rfl e2
    | throw e =>
      exfalso
      rcases (e3 e rfl).2 with h | h | ⟨k, c, k', h3, h4, h5⟩
      · exact h hin1
      · exact h hin2
      · obtain ⟨⟨j, q1⟩, q2, q3, q4, q5⟩ := reach hc h3
        obtain ⟨r1, r2, _⟩ := adv hc h4.1 q3 q4 q5
        have f1 : ⌊k'.x⌋ = 3 - 2 * (j : Int) := by
          have : k'.x = ((3 - 2 * (j : Int) : Int) : ℝ) := by rw [r1, q1]; push_cast; ring
          rw [this, Int.floor_intCast]
        have f2 : ⌊k'.y⌋ = 0 := by rw [r2, q2, Int.floor_zero]
        unfold OnEdge at h5
        omega
  obtain ⟨q, rfl⟩ := hok
  refine ⟨fuel, q.reverse, ?_, ?_⟩
  · unfold findPathBetween
    rw [if_pos (show P.reversed = true from rfl)]
    simp only [e1, Option.map_some, reverseResult]
  · intro hq
    have : q = [] := by simpa using hq
    subst this
    obtain ⟨T, hT⟩ := dyn_complete hc hd hr map_ok prioLawful ht (fun _ => rfl) (by norm_num) (by norm_num) hi2 hi1 e1
    have key : ∀ j : Nat, j ≤ 2 → ∃ k, T k ∧ k.x = ((5 - 2 * (j : Int) : Int) : ℝ) ∧ k.forward = true := by
      intro j
      induction j with
      | zero =>
        intro _
        obtain ⟨k, hk, hs, hf⟩ := hT.init (free _ _) true
        exact ⟨k, hk, by rw [hs.1]; norm_num [dst], hf⟩
      | succ j ih =>
        intro hj
        obtain ⟨k, hk, hkx, hkf⟩ := ih (by omega)
        obtain ⟨_, q2, q3, q4, q5⟩ := reach hc (hT.reach k hk)
        obtain ⟨c, k', hadv⟩ := next (clamp := clamp) (so := S.so) q4 q5 hkf
        obtain ⟨r1, r2, r3, r4, r5, r6⟩ := adv hc hadv q3 q4 q5
        have f1 : ⌊k'.x⌋ = 3 - 2 * (j : Int) := by
          have : k'.x = ((3 - 2 * (j : Int) : Int) : ℝ) := by rw [r1, hkx]; push_cast; ring
          rw [this, Int.floor_intCast]
        have f2 : ⌊k'.y⌋ = 0 := by rw [r2, q2, Int.floor_zero]
        have hin : InsidePad map.width map.height k' := by
          have w : map.width = 6 := rfl
          have h' : map.height = 2 := rfl
          unfold InsidePad
          omega
        obtain ⟨k'', hk'', hh⟩ := hT.closed k c k' hk hadv ⟨hadv, .inl hin, lineOk_of_free map_ok.wf free k k'⟩ hin
        obtain ⟨⟨j', q1'⟩, _⟩ := reach hc (hT.reach k'' hk'')
        rcases hh with ⟨g1, _, g3, _⟩ | ⟨g1, g2, _⟩
        · refine ⟨k'', hk'', ?_, g3.trans r5⟩
          have : ⌊k''.x⌋ = 5 - 2 * (j' : Int) := by rw [q1', Int.floor_intCast]
          have hjj : j' = j + 1 := by omega
          rw [q1', hjj]
        · have : ⌊k''.x⌋ = 5 := by rw [g1.1]; norm_num [dst]
          omega
    obtain ⟨k, hk, hkx, _⟩ := key 2 (by omega)
    obtain ⟨_, q2, q3, _⟩ := reach hc (hT.reach k hk)
    have f1 : ⌊k.x⌋ = ⌊src.x⌋ := by rw [hkx, Int.floor_intCast]; norm_num [src]
    refine (hT.noGoal (free _ _) k hk true).2 ⟨f1, by rw [q2]; norm_num [src], ?_, ?_⟩
    · rw [q3]; exact angle2index_zero hc
    · intro hs
      have : ⌊k.x⌋ = 5 := by rw [hs.1]; norm_num [dst]
      rw [f1] at this
      norm_num [src] at this

/-- `dyn_reversed_exact` and `dyn_reversed_path` apply to it. -/
example {clamp : ℝ → ℝ} (hc : ClampSpec clamp) :
    ∃ fuel q, findPathBetween P.reversed (fun a c => padFindPath clamp (dynSteerAlgo clamp P (1 / 10) (1 / 10) map 0 bres S)
      PriorityManager cfg a c fuel) src dst = some (.ok q) ∧ q ≠ [] ∧ CommandsLeave P.la P.resolution P.distStep q := by
  obtain ⟨fuel, q, h1, h2⟩ := found hc
  refine ⟨fuel, q, h1, h2, (dyn_reversed_exact hc (by norm_num [P]) (by norm_num [P]) map_ok ⟨by norm_num [P], by norm_num [P]⟩
    (by norm_num [P]) rfl prioLawful prioMin SearchEx.topRef_ok (fun _ _ => rfl) rfl
    (by norm_num [IntPose, src]) (by norm_num [IntPose, dst]) h1 h2).1⟩

end RevEx

/-- `reversed_goal_test_ends_at_from`: the search into the row behind the wall of `SearchCustomEx`. -/
example : ∃ fuel p, findPathToTest true (fun start => (findPathCustom SearchEx.A SearchEx.P { SearchEx.cfg with start := start }
      SearchEx.rowTest (freshLabels SearchEx.A) fuel).map Prod.fst) SearchEx.cfg.start = some (.ok p) ∧ p ≠ [] ∧
    p.getLast? = some (0, 0) := by
  obtain ⟨fuel, p, st', t, d, h1, hp, _⟩ := SearchEx.row_found
  obtain ⟨q, ps, h2, h3, h4, h5⟩ := reversed_goal_test_ends_at_from (P := SearchEx.P) SearchEx.costOk prioLawful SearchEx.cfg SearchEx.topRef_ok
    SearchEx.rowTest h1
  have hq : q ≠ [] := by
    rintro rfl
    unfold findPathToTest at h2
    rw [if_pos rfl] at h2
    simp only [Option.map_map] at h2
    rw [show (({ SearchEx.cfg with start := SearchEx.cfg.start } : SCfg SearchEx.W ℝ)) = SearchEx.cfg from rfl, h1] at h2
    simp only [Option.map_some, Function.comp, reverseResult, Option.some.injEq, CRes.ok.injEq] at h2
    exact hp (by simpa using h2)
  obtain ⟨t, s, w, _, h6, h7, _⟩ := h5 hq
  refine ⟨fuel, q, h2, hq, ?_⟩
  rw [h6]
  simp only [SearchEx.cfg, List.mem_singleton] at h7
  rw [h7]

end PathPlanning
