import Verif.Props.FloatClearance
import Verif.Props.FloatSteerEx
import Verif.Props.SteerClearanceEx

/-!
# C110: an example of a search in `double` on a map with an obstacle

A vehicle that can only drive straight ahead, one cell per step, in front of a wall.
-/

noncomputable section

namespace PathPlanning.ExecEx
open Spec Drift ClearEx DriftEx

variable {r : ℝ → ℤ} (hr : WholeRounding r)

/-- A wall: columns 30 to 40. -/
def wall : GridMap ℝ := boxMap 1 30 40 0 99

/-- Straight ahead only. -/
def Q : DynP := ⟨1, 1, 1, 60, 15, 0, false, true, false⟩

open Classical in
def S : FSteerCfg (doubleFmt r hr) where
  so := {}
  usable := steerUsable wall 0 bres
  heur _ _ := 0
  isGoal g k _ := decide (|g.x - k.x| ≤ 1 / 2 ∧ |g.y - k.y| ≤ 1 / 2)
  distTo _ _ := 0
  accept := none

/-- The pose after `j` steps. -/
def poseN (j : ℕ) : SNode := ⟨((10 + j : Int) : ℝ), ((50 : Int) : ℝ), 0, true, 0, 0, j⟩

def cellN (j : Fin 21) : PadCell wall.width wall.height := (⟨41 + j, by show 41 + (j : ℕ) < 100 + 63; omega⟩, ⟨81, by show 81 < 100 + 63; omega⟩, ⟨15, by omega⟩, true)

def goalK : SNode := ⟨20, 50, 1, true, 0, 0, 0⟩

def kin0 (n : PadCell wall.width wall.height) : SNode := if n = cellN 0 then poseN 0 else goalK

def cfg : SCfg (PadCell wall.width wall.height) (doubleFmt r hr).D :=
  ⟨[cellN 0], [cellN 10], false, 0, none, fun _ => false, fun _ _ _ => none, topF hr, none⟩

abbrev A (clamp : ℝ → ℝ) : KAlgo (PadCell wall.width wall.height) SNode (doubleFmt r hr).D :=
  dynSteerAlgoF (doubleFmt r hr) (lib hr) clamp Q wall.width wall.height wall.res (S hr)

theorem map_ok0 : SteerMapOk wall 1 := by
  constructor <;> norm_num [wall, boxMap]

theorem fl_whole (n : Int) (h : |n| ≤ 2 ^ 53) : (doubleFmt r hr).fl (n : ℝ) = n := binary_int hr (by norm_num) n h

theorem fl_one : (doubleFmt r hr).fl 1 = 1 := by
  have := fl_whole hr 1 (by norm_num)
  exact_mod_cast this

variable {clamp : ℝ → ℝ} (hc : ClampSpec clamp)
include hc

/-- One step straight ahead. -/
theorem step (j : ℕ) (hj : j ≤ 20) : dynAdvanceF (doubleFmt r hr) (lib hr) clamp Q {} (poseN j) 0 0 =
    some ((doubleFmt r hr).rd 1, poseN (j + 1)) := by
  have e1 : dynAdvanceF (doubleFmt r hr) (lib hr) clamp Q {} (poseN j) 0 0 =
      some ((doubleFmt r hr).rd (((doubleFmt r hr).rd (1 / 1)).1 * 1),
        ⟨(doubleFmt r hr).fl ((10 + j : Int) + (doubleFmt r hr).fl ((doubleFmt r hr).fl (distPxF (doubleFmt r hr) 1 1 * dirF false true) * (lib hr).cos 0)),
        (doubleFmt r hr).fl ((50 : Int) + (doubleFmt r hr).fl ((doubleFmt r hr).fl (distPxF (doubleFmt r hr) 1 1 * dirF false true) * (lib hr).sin 0)),
        clamp ((doubleFmt r hr).fl (0 + 0)), true, 0, 0, j + 1⟩) := by
    simp [dynAdvanceF, poseN, Q, steerSwitch, steerClamp, steerMoveF]
  have f1 := fl_one hr
  have f0 := (doubleFmt r hr).fl_zero
  have c0 : (lib hr).cos 0 = 1 := by
    show (doubleFmt r hr).fl (Real.cos 0) = 1
    rw [Real.cos_zero]; exact f1
  have s0 : (lib hr).sin 0 = 0 := by
    show (doubleFmt r hr).fl (Real.sin 0) = 0
    rw [Real.sin_zero]; exact f0
  have d1 : distPxF (doubleFmt r hr) 1 1 * dirF false true = 1 := by
    unfold distPxF
    rw [div_one, f1]; simp [dirF]
  have fx : (doubleFmt r hr).fl (((10 + j : Int) : ℝ) + 1) = ((10 + (j + 1 : ℕ) : Int) : ℝ) := by
    have := fl_whole hr (10 + (j + 1 : ℕ)) (by rw [abs_of_nonneg (by omega)]; push_cast; omega)
    have e : ((10 + j : Int) : ℝ) + 1 = ((10 + (j + 1 : ℕ) : Int) : ℝ) := by push_cast; ring
    rw [e]; exact this
  have fy : (doubleFmt r hr).fl (((50 : Int) : ℝ) + 0) = ((50 : Int) : ℝ) := by
    rw [add_zero]; exact fl_whole hr 50 (by norm_num)
  have fc : (doubleFmt r hr).rd (((doubleFmt r hr).rd (1 / 1)).1 * 1) = (doubleFmt r hr).rd 1 := by
    apply Subtype.ext
    show (doubleFmt r hr).fl ((doubleFmt r hr).fl (1 / 1) * 1) = (doubleFmt r hr).fl 1
    rw [div_one, f1, mul_one]; exact f1
  rw [e1, fc, c0, s0, d1]
  simp only [f1, mul_one, mul_zero, f0, fx, fy]
  rw [add_zero, f0, DriftEx.clamp_zero hc]
  simp [poseN]

theorem moves_straight {mv : SNode → List SNode → Option ((doubleFmt r hr).D × SNode)} (hmv : mv ∈ (A hr clamp).moves) {j : ℕ} (hj : j ≤ 20)
    {ps : List SNode} {c : (doubleFmt r hr).D} {k' : SNode} (he : mv (poseN j) ps = some (c, k')) : k' = poseN (j + 1) := by
  obtain ⟨m', hm', rfl⟩ := List.mem_map.1 hmv
  obtain ⟨c0, e0, _, rfl⟩ := scaledF_some he
  have hm'' : m' = (0, 0) ∨ m' = (1, 0) ∨ m' = (2, 0) := by
    have : moveList (if Q.allowForward then 0 else 3) (if Q.allowBackward then 6 else 3) Q.steerSteps = [(0, 0), (1, 0), (2, 0)] := by decide
    rw [this] at hm'
    simpa using hm'
  rcases hm'' with rfl | rfl | rfl
  · have := step hr hc j hj
    have e0 : dynAdvanceF (doubleFmt r hr) (lib hr) clamp Q {} (poseN j) 0 0 = some (c0, k') := e0
    rw [this] at e0
    simp only [Option.some.injEq, Prod.mk.injEq] at e0
    exact e0.2.symm
  · exact absurd e0 (by simp [dynAdvanceF, poseN, Q, steerSwitch])
  · exact absurd e0 (by simp [dynAdvanceF, poseN, Q, steerSwitch])

omit hc in
theorem pose_inside {j : ℕ} (hj : j ≤ 21) : InsidePad wall.width wall.height (poseN j) := by
  unfold InsidePad poseN
  simp only [Int.floor_intCast]
  show -31 ≤ (10 + (j : Int)) ∧ 10 + (j : Int) < ((100 : ℕ) : Int) + 32 ∧ (-31 : Int) ≤ 50 ∧ (50 : Int) < ((100 : ℕ) : Int) + 32
  omega

omit hc in
theorem pose_far {j : ℕ} (hj : j ≤ 21) : FarFromEdge wall (poseN j) := by
  unfold FarFromEdge poseN wall
  simp only [Int.floor_intCast]
  rw [boxMap_in]
  omega

omit hc in
/-- The wall stops the vehicle. -/
theorem usable_iff {j : ℕ} (hj : j ≤ 20) : ∃ u, steerUsable wall 0 bres (poseN j) (poseN (j + 1)) = .ok u ∧ (u = true → j ≤ 19) ∧ (j ≤ 18 → u = true) := by
  have hin' : IntNode (poseN (j + 1)) := by
    unfold IntNode poseN
    simp only [Int.floor_intCast]
    omega
  obtain ⟨u, hu, hiff⟩ := steerUsable_iff map_ok0 0 bres (pose_inside (by omega : j ≤ 21)) hin'
  have htx : truncC (poseN j).x = 10 + j := truncC_cast _
  have hty : truncC (poseN j).y = 50 := truncC_cast _
  refine ⟨u, hu, fun h => ?_, fun h => ?_⟩
  · by_contra hlt
    have hj20 : j = 20 := by omega
    have hl := (hiff.1 h).2.1
    rw [htx, hty, hj20] at hl
    have hno := notOccupied_of_free (m := wall) map_ok0.wf (c := (30, 50)) hl ((boxMap_in _ _).2 (by norm_num))
    have := boxMap_occ (res := 1) (x0 := 30) (x1 := 40) (y0 := 0) (y1 := 99) (x := 30) (y := 50) (by norm_num) (by norm_num)
    have h2 : wall.isOccupied ⟨30, 50⟩ = .ok false := hno
    rw [show wall = boxMap 1 30 40 0 99 from rfl, this] at h2
    simp at h2
  · refine hiff.2 ⟨?_, ?_⟩
    · unfold poseN
      simp only [Int.floor_intCast]
      show -32 ≤ (10 + ((j + 1 : ℕ) : Int)) ∧ 10 + ((j + 1 : ℕ) : Int) < ((100 : ℕ) : Int) + 32 ∧ (-32 : Int) ≤ 50 ∧ (50 : Int) < ((100 : ℕ) : Int) + 32
      omega
    · refine ⟨?_, fun _ _ z hz => ?_⟩
      · rw [htx, hty]
        exact (boxMap_free (by omega)).2
      · obtain ⟨l, _, hl, _, rfl⟩ := hz
        obtain ⟨i, j', hat⟩ := Bres.at_after wall ⌊(poseN j).x⌋ ⌊(poseN j).y⌋ ⌊(poseN (j + 1)).x⌋ ⌊(poseN (j + 1)).y⌋ l hl
        have hb := hat.box
        have hx : (lineCell wall ⌊(poseN j).x⌋ ⌊(poseN j).y⌋ ⌊(poseN (j + 1)).x⌋ ⌊(poseN (j + 1)).y⌋ l).1 < 30 := by
          have e1 := hb.2.1
          unfold lineCell
          have f1 : ⌊(poseN j).x⌋ = 10 + j := by unfold poseN; simp only [Int.floor_intCast]
          have f2 : ⌊(poseN (j + 1)).x⌋ = 10 + (j + 1 : ℕ) := by unfold poseN; simp only [Int.floor_intCast]
          rw [f1, f2] at e1 ⊢
          have : max (10 + (j : Int)) (10 + ((j + 1 : ℕ) : Int)) < 30 := by rw [max_lt_iff]; omega
          exact lt_of_le_of_lt e1 this
        exact (boxMap_free (by omega)).2

theorem reach {k : SNode} (h : Reachable (A hr clamp) (cfg hr).start kin0 k) : ∃ j ≤ 20, k = poseN j := by
  have key : ∃ j ≤ 20, k = poseN j := by
    induction h with
    | start hs =>
      simp only [cfg, List.mem_singleton] at hs
      subst hs
      exact ⟨0, by omega, by simp [kin0]⟩
    | @step k c k' n hk hl hn ih =>
      obtain ⟨j, hj, rfl⟩ := ih
      obtain ⟨mv, hmv, ps, he, hu⟩ := hl
      have := moves_straight hr hc hmv hj he
      subst this
      obtain ⟨u, h1, h2, _⟩ := usable_iff hj
      have h3 : steerUsable wall 0 bres (poseN j) (poseN (j + 1)) = .ok true := hu
      rw [h1] at h3
      have : u = true := by injection h3
      exact ⟨j + 1, by have := h2 this; omega, rfl⟩
  exact key

theorem lookup_pose (j : Fin 21) : (A hr clamp).lookup (poseN j) = .ok (some (cellN j)) := by
  show steerLookupF (doubleFmt r hr) clamp wall.width wall.height (poseN j) = _
  unfold steerLookupF GMgr.floorI
  have f1 : ⌊(poseN j).x⌋ = 10 + j := by unfold poseN; simp only [Int.floor_intCast]
  have f2 : ⌊(poseN j).y⌋ = 50 := by unfold poseN; simp only [Int.floor_intCast]
  have f3 : (poseN j).theta = 0 := rfl
  have hw : wall.width = 100 := rfl
  have hh : wall.height = 100 := rfl
  rw [f1, f2, f3, if_pos ⟨by omega, by omega⟩, if_pos ⟨by omega, by omega⟩, slot_zero hr hc]
  simp only [CRes.ok_bind]
  unfold padLookup
  rw [dif_pos ⟨by omega, by rw [hw]; omega, by omega, by rw [hh]; omega, by norm_num⟩]
  congr 2
  unfold cellN
  refine Prod.ext (Fin.ext ?_) (Prod.ext (Fin.ext ?_) (Prod.ext (Fin.ext ?_) ?_))
  · simp only; omega
  · simp only; omega
  · rfl
  · rfl

theorem map_ok : MapOk (A hr clamp) (cfg hr).start kin0 where
  usable k k' h := by
    obtain ⟨h1, mv, hmv, ps, c, he⟩ := h
    obtain ⟨j, hj, rfl⟩ := reach hr hc h1
    have := moves_straight hr hc hmv hj he
    subst this
    obtain ⟨u, h1, _⟩ := usable_iff hj
    exact ⟨u, h1⟩
  lookup k k' h hu := by
    obtain ⟨h1, mv, hmv, ps, c, he⟩ := h
    obtain ⟨j, hj, rfl⟩ := reach hr hc h1
    have := moves_straight hr hc hmv hj he
    subst this
    obtain ⟨u, h1, h2, _⟩ := usable_iff hj
    have h3 : steerUsable wall 0 bres (poseN j) (poseN (j + 1)) = .ok true := hu
    rw [h1] at h3
    have hu' : u = true := by injection h3
    exact ⟨_, lookup_pose hr hc ⟨j + 1, by have := h2 hu'; omega⟩⟩

omit hc in
theorem inflated : Inflated wall (execMargin 0 Q.la Q.resolution (max Q.distStep Q.la) |Real.tan ((Q.maxSteer : ℝ) / 180 * Real.pi)| (1 / 1000))
    fun o => o = (35, 50) := by
  have ht : Real.tan ((Q.maxSteer : ℝ) / 180 * Real.pi) = Real.sqrt 3 := by
    have : ((Q.maxSteer : Int) : ℝ) / 180 * Real.pi = Real.pi / 3 := by simp only [Q]; push_cast; ring
    rw [this, Real.tan_pi_div_three]
  obtain ⟨h1, h2⟩ := sqrt3
  have hmar : execMargin 0 Q.la Q.resolution (max Q.distStep Q.la) |Real.tan ((Q.maxSteer : ℝ) / 180 * Real.pi)| (1 / 1000) = 2 := by
    unfold execMargin
    rw [ht, abs_of_nonneg (by linarith)]
    have : ⌈(max Q.distStep Q.la) ^ 2 * Real.sqrt 3 / (8 * Q.la * Q.resolution) + 1 / 1000⌉ = 1 := by
      rw [Int.ceil_eq_iff]
      simp only [Q, max_self]
      constructor <;> push_cast <;> linarith
    rw [this]; norm_num
  rw [hmar]
  rintro o c rfl ⟨h1, h2⟩
  have h1 := abs_le.1 h1; have h2 := abs_le.1 h2
  simp only at h1 h2
  refine ⟨(boxMap_in _ _).2 (by omega), ?_⟩
  have := boxMap_occ (res := 1) (x0 := 30) (x1 := 40) (y0 := 0) (y1 := 99) (x := c.1.toNat) (y := c.2.toNat)
    (by omega) (by omega)
  rw [decide_eq_true (by omega)] at this
  exact this

/-- Along a drive the depth counts the steps. -/
theorem depth_last {path : List SNode} {d : (doubleFmt r hr).D} (h : Drive (A hr clamp) path d) :
    ∀ q qs k, path = q :: qs → q.depth = 0 → path.getLast? = some k → k.depth = (qs.length : Int) := by
  have key : ∀ q qs k, path = q :: qs → q.depth = 0 → path.getLast? = some k → k.depth = (qs.length : Int) := by
    induction h with
    | start k =>
      intro q qs k' e h0 hl
      simp only [List.cons.injEq] at e
      obtain ⟨rfl, rfl⟩ := e
      simp only [List.getLast?_singleton, Option.some.injEq] at hl
      subst hl
      simpa using h0
    | @step l0 k c k' d mv hd hmv he hu ih =>
      intro q qs k2 e h0 hl
      obtain ⟨q2, qs2, e2⟩ := List.exists_cons_of_ne_nil (show l0 ++ [k] ≠ [] by simp)
      have eq1 : q2 = q ∧ qs2 ++ [k'] = qs := by
        rw [e2, List.cons_append] at e
        simpa using e
      obtain ⟨rfl, rfl⟩ := eq1
      simp only [List.getLast?_append, List.getLast?_singleton, Option.some_or, Option.some.injEq] at hl
      subst hl
      have := ih q2 qs2 k e2 h0 (by simp)
      obtain ⟨m', _, rfl⟩ := List.mem_map.1 hmv
      obtain ⟨c0, e0, _, rfl⟩ := scaledF_some he
      rw [(dynAdvanceF_inv (by norm_num [Q]) e0).2.1, this]
      simp
  exact key

/-- **Non-vacuity of `dyn_double_safe`**: the search from `(10,50)` to `(20,50)` finds a path; all its poses are well inside the map,
the obstacle at `(35,50)` is surrounded by a sufficient margin, and the vehicle that executes the path does not touch it. -/
theorem example_exec : ∃ fuel path, kFindPath (A hr clamp) PriorityManager (cfg hr) kin0 fuel = some (.ok path) ∧ 2 ≤ path.length ∧
    (∀ k ∈ path, FarFromEdge wall k) ∧ ∃ qs, path = poseN 0 :: qs ∧
      ∀ p c, Passes 1 1 (poseN 0) (commands false (firstLen Q) 1 qs) p → PtInCell p c → c ≠ (35, 50) := by
  classical
  obtain ⟨cs, hcs⟩ := dynF_costOk (F := doubleFmt r hr) (lib := lib hr) (clamp := clamp) (P := Q) (w := wall.width) (h := wall.height)
    (res := wall.res) (S := S hr) (by norm_num [Q]) map_ok0.res
  obtain ⟨fuel, path, hf⟩ := kin_search_total (A := A hr clamp) (P := PriorityManager) (cfg := cfg hr) (kin0 := kin0) hcs prioLawful (topF_ok hr)
    (map_ok hr hc)
  have hgoal : ∀ g k pv, (A hr clamp).isGoal g k pv = decide (|g.x - k.x| ≤ 1 / 2 ∧ |g.y - k.y| ≤ 1 / 2) := fun _ _ _ => rfl
  have hcell : ∀ i j : Fin 21, cellN i = cellN j → i = j := by
    intro i j h
    have := congrArg (fun c : PadCell wall.width wall.height => c.1.val) h
    simp only [cellN] at this
    exact Fin.ext (by omega)
  have hk0 : kin0 (cellN 0) = poseN 0 := by simp [kin0]
  have hk10 : kin0 (cellN 10) = goalK := by
    unfold kin0
    rw [if_neg]
    intro h
    exact absurd (hcell _ _ h) (by decide)
  have hne : path ≠ [] := by
    rintro rfl
    obtain ⟨κ, hsat, hg, htest⟩ := kin_complete hcs prioLawful (topF_ok hr) (fun _ => rfl) (fun k pv => by rw [hgoal]; simp) hf
    have all : ∀ j : ℕ, (hj : j ≤ 10) → κ (cellN ⟨j, by omega⟩) = some (poseN j) := by
      intro j
      induction j with
      | zero =>
        intro _
        have := hsat.init (cellN 0) (by simp [cfg])
        rw [hk0] at this
        exact this
      | succ j ih =>
        intro hj
        obtain ⟨u, hu, _, hu2⟩ := usable_iff (j := j) (by omega)
        have hu3 := hu2 (by omega)
        subst hu3
        have hmv : (fun k _ => scaledF (doubleFmt r hr) wall.res (dynAdvanceF (doubleFmt r hr) (lib hr) clamp Q {} k 0 0)) ∈ (A hr clamp).moves :=
          List.mem_map.2 ⟨(0, 0), by decide, rfl⟩
        obtain ⟨ps, hps⟩ := hsat.moves _ _ (ih (by omega)) _ hmv
        have hmove : scaledF (doubleFmt r hr) wall.res (dynAdvanceF (doubleFmt r hr) (lib hr) clamp Q {} (poseN j) 0 0) =
            some ((doubleFmt r hr).rd (((doubleFmt r hr).rd 1).1 * wall.res), poseN (j + 1)) := by
          rw [step hr hc j (by omega)]
          unfold scaledF
          simp only
          rw [if_neg]
          show ¬ (doubleFmt r hr).fl 1 < 0
          rw [fl_one]; norm_num
        have hne := hps _ _ (cellN ⟨j + 1, by omega⟩) hmove hu (lookup_pose hr hc ⟨j + 1, by omega⟩)
        obtain ⟨k2, hk2⟩ := Option.ne_none_iff_exists'.1 hne
        obtain ⟨i, hi, rfl⟩ := reach hr hc (hsat.reach _ _ hk2)
        rw [hk2]
        congr 1
        rcases hsat.cell _ _ hk2 with h | h
        · simp only [cfg, List.mem_singleton] at h
          exact absurd (hcell _ _ h) (by simp)
        · rw [lookup_pose hr hc ⟨i, by omega⟩] at h
          simp only [CRes.ok.injEq, Option.some.injEq] at h
          have := congrArg Fin.val (hcell _ _ h)
          simp only at this
          rw [this]
    obtain ⟨pv, hpv⟩ := htest _ _ (all 10 le_rfl) (cellN 10) (by simp [cfg])
    rw [hgoal, hk10] at hpv
    norm_num [goalK, poseN] at hpv
  obtain ⟨⟨d, hd⟩, ⟨s, hs, hh⟩, kl, hlast, hgm⟩ := kin_exact_without_heuristic hcs prioLawful prioMin (topF_ok hr) (fun _ _ => rfl) rfl zero_addF hf hne
  obtain ⟨_, _, hreach, _, kl', hlast', _, hgm'⟩ := kin_path hcs prioLawful (topF_ok hr) hf hne
  simp only [cfg, List.mem_singleton] at hs
  subst hs
  rw [hk0] at hh
  obtain ⟨q, qs, rfl⟩ := List.exists_cons_of_ne_nil hne
  simp only [List.head?_cons, Option.some.injEq] at hh
  subst hh
  have hlen : qs.length ≤ 20 := by
    have h1 := depth_last hr hc hd _ _ _ rfl (by simp [poseN]) hlast'
    obtain ⟨i, hi, rfl⟩ := reach hr hc (hreach _ (List.mem_of_getLast? hlast'))
    simp only [poseN] at h1
    omega
  have hfar : ∀ k ∈ poseN 0 :: qs, FarFromEdge wall k := by
    intro k hk
    obtain ⟨i, hi, rfl⟩ := reach hr hc (hreach k hk)
    exact pose_far (by omega)
  refine ⟨fuel, _, hf, ?_, hfar, qs, rfl, ?_⟩
  · obtain ⟨w, _, g, hg, kg, pv, hig, _, hkg⟩ := hgm' rfl
    simp only [cfg, List.mem_singleton] at hg
    subst hg
    cases qs with
    | cons => simp
    | nil =>
      exfalso
      simp only [List.getLast?_singleton, Option.some.injEq] at hlast'
      subst hlast'
      rw [hgoal] at hig
      have hig := of_decide_eq_true hig
      rcases hkg with hkg | ⟨hkg, hrk⟩
      · rw [hk10] at hkg
        subst hkg
        have := hig.1
        norm_num [goalK, poseN, abs_of_pos] at this
      · obtain ⟨i, hi, rfl⟩ := reach hr hc hrk
        rw [lookup_pose hr hc ⟨i, by omega⟩] at hkg
        simp only [CRes.ok.injEq, Option.some.injEq] at hkg
        have := congrArg Fin.val (hcell _ _ hkg)
        simp only at this
        subst this
        have := hig.1
        norm_num [poseN] at this
  · obtain ⟨s, hs, qs', hq, hsafe⟩ := dyn_double_safe (m := wall) (skips := 0) (b := bres) (Q := Q) (D0 := 1) (arith_ok hr hc _) (by norm_num) (by norm_num [Q]) (by norm_num [Q])
      (by norm_num [Q]) (by norm_num [Q]) map_ok0 (by norm_num [Q]) (by norm_num [Q]) (by norm_num [Q]) (by norm_num [wall, boxMap])
      (by norm_num [wall, boxMap]) prioLawful prioMin (topF_ok hr) (fun _ _ => rfl) rfl rfl
      (fun s hs => by
        simp only [cfg, List.mem_singleton] at hs
        subst hs
        rw [hk0]
        exact ⟨by simp [poseN], by simp [poseN], pose_inside (by omega)⟩) hf hne (by simp; omega) inflated hfar
    simp only [cfg, List.mem_singleton] at hs
    subst hs
    rw [hk0] at hq hsafe
    simp only [List.cons.injEq, true_and] at hq
    subst hq
    exact hsafe

end PathPlanning.ExecEx
