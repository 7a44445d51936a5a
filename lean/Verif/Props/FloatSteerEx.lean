import Verif.Props.FloatSteer2
import Verif.Props.OpenLists
import Verif.Props.SearchExamples

/-!
# C109: an example of a search in `double`
-/

noncomputable section

namespace PathPlanning.DriftEx
open Spec Drift

variable {r : ℝ → ℤ} (hr : WholeRounding r)

/-- Library functions that are rounded correctly. -/
def lib : Lib where
  sin x := (doubleFmt r hr).fl (Real.sin x)
  cos x := (doubleFmt r hr).fl (Real.cos x)
  tan x := (doubleFmt r hr).fl (Real.tan x)

theorem lib_ok : LibOk (lib hr) (doubleFmt r hr).u where
  sin x := by
    have h1 := (doubleFmt r hr).ok.err (Real.sin x)
    have h2 := Real.abs_sin_le_one x
    have h0 := (doubleFmt r hr).u_nonneg
    show |(doubleFmt r hr).fl (Real.sin x) - Real.sin x| ≤ _
    nlinarith
  cos x := by
    have h1 := (doubleFmt r hr).ok.err (Real.cos x)
    have h2 := Real.abs_cos_le_one x
    have h0 := (doubleFmt r hr).u_nonneg
    show |(doubleFmt r hr).fl (Real.cos x) - Real.cos x| ≤ _
    nlinarith
  tan x := by
    have h1 := (doubleFmt r hr).ok.err (Real.tan x)
    have h0 := (doubleFmt r hr).u_nonneg
    show |(doubleFmt r hr).fl (Real.tan x) - Real.tan x| ≤ _
    nlinarith [mul_nonneg h0 (abs_nonneg (Real.tan x))]

theorem u_small : (doubleFmt r hr).u ≤ 1 / 10 ^ 6 := by
  show (2 : ℝ)⁻¹ ^ 53 ≤ _
  norm_num

theorem arith_ok {clamp : ℝ → ℝ} (hc : ClampSpec clamp) (B : ℝ) : ArithOk (doubleFmt r hr) (lib hr) clamp 0 B where
  u := (u_small hr).trans (by norm_num)
  lib := lib_ok hr
  e0 := le_rfl
  e1 := by norm_num
  clamp t _ := clampedNear_of_spec hc le_rfl t

/-- Steps of one cell, wheel base one cell, steering up to 60 degrees in steps of 15, forwards only. -/
def Q : DynP := ⟨1, 1, 1, 60, 15, 1, false, true, false⟩

open Classical in
/-- The map accepts poses with coordinates between 0 and 20; poses after a step count as goals. -/
def S : FSteerCfg (doubleFmt r hr) where
  so := {}
  usable _ k' := .ok (decide ((0 ≤ k'.x ∧ k'.x ≤ 20) ∧ 0 ≤ k'.y ∧ k'.y ≤ 20))
  heur _ _ := 0
  isGoal g k _ := decide (g = k ∨ 1 ≤ k.depth)
  distTo _ _ := 0
  accept := none

/-- The cell `(5, 5)`, heading slot 15. -/
def startN : PadCell 20 20 := (⟨36, by omega⟩, ⟨36, by omega⟩, ⟨15, by omega⟩, true)
/-- The cell `(6, 5)`. -/
def nextN : PadCell 20 20 := (⟨37, by omega⟩, ⟨36, by omega⟩, ⟨15, by omega⟩, true)
/-- The cell `(9, 9)`. -/
def goalN : PadCell 20 20 := (⟨40, by omega⟩, ⟨40, by omega⟩, ⟨15, by omega⟩, true)

def startK : SNode := ⟨5.5, 5.5, 0, true, 0, 0, 0⟩
def goalK : SNode := ⟨9.5, 9.5, 0, true, 0, 0, 0⟩

def kin0 (n : PadCell 20 20) : SNode := if n = startN then startK else goalK

/-- A smallest candidate. -/
def topF {N : Type} (l : List (N × (doubleFmt r hr).D)) : Option (N × (doubleFmt r hr).D) := l.argmin Prod.snd

theorem topF_ok {N : Type} : TopOk (topF hr (N := N)) where
  none_iff l := List.argmin_eq_none
  mem l x h := List.argmin_mem h
  min l x h y hy := not_lt.1 (List.not_lt_of_mem_argmin hy h)

def cfg : SCfg (PadCell 20 20) (doubleFmt r hr).D :=
  ⟨[startN], [goalN], false, 0, none, fun _ => false, fun _ _ _ => none, topF hr, none⟩

abbrev A (clamp : ℝ → ℝ) : KAlgo (PadCell 20 20) SNode (doubleFmt r hr).D := dynSteerAlgoF (doubleFmt r hr) (lib hr) clamp Q 20 20 1 (S hr)

variable {clamp : ℝ → ℝ} (hc : ClampSpec clamp)
include hc

theorem clamp_zero : clamp 0 = 0 := by
  obtain ⟨k, hk⟩ := hc.mod 0
  have h1 := hc.lo 0
  have h2 := hc.hi 0
  rw [hk] at h1 h2 ⊢
  have hp := Real.pi_pos
  rw [zero_add] at h1 h2 ⊢
  have a1 : (-1 : ℝ) < k := by nlinarith
  have a2 : (k : ℝ) < 1 := by nlinarith
  have a1' : (-1 : Int) < k := by exact_mod_cast a1
  have a2' : k < (1 : Int) := by exact_mod_cast a2
  have : k = 0 := by omega
  rw [this]; simp

theorem slot_zero : angle2indexF (doubleFmt r hr) clamp 32 0 = .ok 15 := by
  have hu := u_small hr
  have h0 := (doubleFmt r hr).u_nonneg
  have hp := Real.pi_pos
  have hs : sectorPos (32 - 1) 0 = 15.5 := by
    unfold sectorPos
    push_cast
    field_simp
    norm_num
    ring
  refine angle2indexF_exact (c := 0) (e := 0) (hu.trans (by norm_num)) (by norm_num) (by norm_num) (by norm_num)
    ⟨by linarith, hp.le, 0, by simp⟩ (by rw [clamp_zero hc]; simp) ?_ ?_
  · rw [hs]; norm_num; linarith
  · rw [hs]; norm_num; linarith

theorem lookup_near {k : SNode} {x y : Int} (hx : ⌊k.x⌋ = x) (hy : ⌊k.y⌋ = y) (ht : k.theta = 0) (x0 : 0 ≤ x ∧ x ≤ 20) (y0 : 0 ≤ y ∧ y ≤ 20) :
    steerLookupF (doubleFmt r hr) clamp 20 20 k = .ok (some (⟨(x + 31).toNat, by omega⟩, ⟨(y + 31).toNat, by omega⟩, ⟨15, by omega⟩, k.forward)) := by
  unfold steerLookupF GMgr.floorI
  rw [hx, hy, ht, if_pos ⟨by omega, by omega⟩, if_pos ⟨by omega, by omega⟩, slot_zero hr hc]
  simp only [CRes.ok_bind]
  unfold padLookup
  rw [dif_pos ⟨by omega, by push_cast; omega, by omega, by push_cast; omega, by norm_num⟩]

theorem lookup_start : (A hr clamp).lookup startK = .ok (some startN) := by
  have h : ⌊(5.5 : ℝ)⌋ = 5 := by rw [Int.floor_eq_iff]; norm_num
  exact lookup_near hr hc (k := startK) (x := 5) (y := 5) h h rfl (by omega) (by omega)

/-- One step straight ahead. -/
theorem first_step : ∃ mv ∈ (A hr clamp).moves, ∃ c k', (∀ ps, mv startK ps = some (c, k')) ∧ k'.depth = 1 ∧
    (A hr clamp).usable startK k' = .ok true ∧ (A hr clamp).lookup k' = .ok (some nextN) := by
  have hu := u_small hr
  have h0 := (doubleFmt r hr).u_nonneg
  set F := doubleFmt r hr with hF
  have e1 : dynAdvanceF F (lib hr) clamp Q {} startK 0 0 =
      some (F.rd ((F.rd (1 / 1)).1 * 1), ⟨F.fl (5.5 + F.fl (F.fl (distPxF F 1 1 * dirF false true) * (lib hr).cos 0)),
        F.fl (5.5 + F.fl (F.fl (distPxF F 1 1 * dirF false true) * (lib hr).sin 0)), clamp (F.fl (0 + 0)), true, 0, 0, 1⟩) := by
    simp [dynAdvanceF, startK, Q, steerSwitch, steerClamp, steerMoveF]
  have hd : Rel F.u 4 (F.fl (distPxF F 1 1 * dirF false true)) 1 := by
    have h1 : Rel F.u 1 (distPxF F 1 1) (1 / 1) := Rel.fl_self F _
    have h2 := (h1.mul (c := 1) h0 (by norm_num) (Rel.refl F.u (dirF false true)) (by simp)).fl (hu.trans (by norm_num)) (by norm_num)
    have h3 : (1 / 1 : ℝ) * dirF false true = 1 := by norm_num [dirF]
    rw [h3] at h2
    exact h2.le h0 (by norm_num)
  have kx := straight_near (X := 6) (hu.trans (by norm_num)) hd ((lib_ok hr).cos 0) (Real.abs_cos_le_one _) abs_one (x := 5.5)
    (by rw [abs_of_pos] <;> norm_num)
  have ky := straight_near (X := 6) (hu.trans (by norm_num)) hd ((lib_ok hr).sin 0) (Real.abs_sin_le_one _) abs_one (x := 5.5)
    (by rw [abs_of_pos] <;> norm_num)
  have hth : clamp (F.fl (0 + 0)) = 0 := by rw [add_zero, F.fl_zero, clamp_zero hc]
  rw [hth] at e1
  rw [Real.cos_zero] at kx
  rw [Real.sin_zero] at ky
  set x1 := F.fl (5.5 + F.fl (F.fl (distPxF F 1 1 * dirF false true) * (lib hr).cos 0))
  set y1 := F.fl (5.5 + F.fl (F.fl (distPxF F 1 1 * dirF false true) * (lib hr).sin 0))
  rw [abs_le] at kx ky
  have hx1 : 6.4 ≤ x1 ∧ x1 ≤ 6.6 := by constructor <;> nlinarith
  have hy1 : 5.4 ≤ y1 ∧ y1 ≤ 5.6 := by constructor <;> nlinarith
  have hcost : 0 ≤ (F.rd ((F.rd (1 / 1)).1 * 1)).1 := by
    show 0 ≤ F.fl (F.fl (1 / 1) * 1)
    rw [← F.fl_zero]
    apply F.ok.mono
    rw [mul_one]
    rw [← F.fl_zero]
    exact F.ok.mono (by norm_num)
  refine ⟨fun k _ => scaledF F 1 (dynAdvanceF F (lib hr) clamp Q {} k 0 0), ?_, F.rd ((F.rd ((F.rd (1 / 1)).1 * 1)).1 * 1),
    ⟨x1, y1, 0, true, 0, 0, 1⟩, ?_, rfl, ?_, ?_⟩
  · exact List.mem_map.2 ⟨(0, 0), by decide, rfl⟩
  · intro ps
    simp only [e1, scaledF, if_neg (not_lt.2 hcost)]
  · show CRes.ok (decide _) = _
    congr 1
    rw [decide_eq_true_eq]
    exact ⟨⟨by linarith, by linarith⟩, by linarith, by linarith⟩
  · exact lookup_near hr hc (k := ⟨x1, y1, 0, true, 0, 0, 1⟩) (x := 6) (y := 5) (by rw [Int.floor_eq_iff]; norm_num; constructor <;> linarith)
      (by rw [Int.floor_eq_iff]; norm_num; constructor <;> linarith) rfl (by omega) (by omega)

theorem map_ok : MapOk (A hr clamp) (cfg hr).start kin0 where
  usable k k' _ := ⟨_, rfl⟩
  lookup k k' _ hu := by
    have hu' : decide ((0 ≤ k'.x ∧ k'.x ≤ 20) ∧ 0 ≤ k'.y ∧ k'.y ≤ 20) = true := by
      have : CRes.ok (decide ((0 ≤ k'.x ∧ k'.x ≤ 20) ∧ 0 ≤ k'.y ∧ k'.y ≤ 20)) = CRes.ok true := hu
      injection this
    rw [decide_eq_true_eq] at hu'
    obtain ⟨⟨x0, x1⟩, y0, y1⟩ := hu'
    obtain ⟨t, ht, ht2, _⟩ := angle2indexF_range (F := doubleFmt r hr) (clamp := clamp) (slots := 32) (e := 0) (θ := k'.theta) ((u_small hr).trans (by norm_num))
      (by norm_num) (by norm_num) (by have := u_small hr; norm_num; linarith) (by norm_num) (clampedNear_of_spec hc le_rfl _)
    have fx0 : 0 ≤ ⌊k'.x⌋ := Int.floor_nonneg.2 x0
    have fy0 : 0 ≤ ⌊k'.y⌋ := Int.floor_nonneg.2 y0
    have fx1 : ⌊k'.x⌋ ≤ 20 := by
      have := Int.floor_le k'.x
      have : ((⌊k'.x⌋ : Int) : ℝ) ≤ ((20 : Int) : ℝ) := by push_cast; linarith
      exact_mod_cast this
    have fy1 : ⌊k'.y⌋ ≤ 20 := by
      have := Int.floor_le k'.y
      have : ((⌊k'.y⌋ : Int) : ℝ) ≤ ((20 : Int) : ℝ) := by push_cast; linarith
      exact_mod_cast this
    refine ⟨some (⟨(⌊k'.x⌋ + 31).toNat, by omega⟩, ⟨(⌊k'.y⌋ + 31).toNat, by omega⟩, ⟨t, by omega⟩, k'.forward), ?_⟩
    show steerLookupF (doubleFmt r hr) clamp 20 20 k' = _
    unfold steerLookupF GMgr.floorI
    rw [if_pos ⟨by omega, by omega⟩, if_pos ⟨by omega, by omega⟩, ht]
    simp only [CRes.ok_bind]
    unfold padLookup
    rw [dif_pos ⟨by omega, by push_cast; omega, by omega, by push_cast; omega, by omega⟩]

theorem reach_depth {k : SNode} (h : Reachable (A hr clamp) (cfg hr).start kin0 k) : k = startK ∨ 1 ≤ k.depth := by
  have key : k = startK ∨ 1 ≤ k.depth := by
    induction h with
    | start hs =>
      simp only [cfg, List.mem_singleton] at hs
      subst hs
      left; simp [kin0]
    | @step k c k' n hk hl hn ih =>
      right
      obtain ⟨mv, hmv, ps, he, _⟩ := hl
      obtain ⟨m, _, rfl⟩ := List.mem_map.1 hmv
      obtain ⟨c0, e0, _, rfl⟩ := scaledF_some he
      have := (dynAdvanceF_inv (by norm_num [Q]) e0).2.1
      rw [this]
      rcases ih with rfl | ih
      · simp [startK]
      · omega
  exact key

/-- The search finds a path with at least one step, and the hypotheses of `dyn_search_drift` hold: the vehicle stays near it. -/
theorem search_example : ∃ fuel path, kFindPath (A hr clamp) PriorityManager (cfg hr) kin0 fuel = some (.ok path) ∧ 2 ≤ path.length ∧
    ∃ qs, path = startK :: qs ∧ ∀ ps, Executes 1 1 startK (commands false (firstLen Q) 1 qs) ps →
      ps.length = qs.length ∧ ∀ i (h : i < ps.length) (h' : i < qs.length),
        PoseNear (driftErr (posErr ((2 : ℝ)⁻¹ ^ 53) 1 1 1 20) (headErr ((2 : ℝ)⁻¹ ^ 53) 1 1 0) 1 (i + 1))
          ((i + 1) * headErr ((2 : ℝ)⁻¹ ^ 53) 1 1 0) ps[i] qs[i] := by
  classical
  obtain ⟨cs, hcs⟩ := dynF_costOk (F := doubleFmt r hr) (lib := lib hr) (clamp := clamp) (P := Q) (w := 20) (h := 20) (res := 1) (S := S hr)
    (by norm_num [Q]) (by norm_num)
  obtain ⟨fuel, path, hf⟩ := kin_search_total (A := A hr clamp) (P := PriorityManager) (cfg := cfg hr) (kin0 := kin0) hcs prioLawful (topF_ok hr)
    (map_ok hr hc)
  have hgoal : ∀ g k pv, (A hr clamp).isGoal g k pv = decide (g = k ∨ 1 ≤ k.depth) := fun _ _ _ => rfl
  have hne : path ≠ [] := by
    rintro rfl
    obtain ⟨κ, hsat, hg, htest⟩ := kin_complete hcs prioLawful (topF_ok hr) (fun _ => rfl) (fun k pv => by rw [hgoal]; simp) hf
    obtain ⟨mv, hmv, c, k', he, _, hus, hl⟩ := first_step hr hc
    have h0 : κ startN = some startK := by
      have := hsat.init startN (by simp [cfg])
      simpa [kin0] using this
    obtain ⟨ps, hps⟩ := hsat.moves startN startK h0 mv hmv
    have h1 := hps c k' nextN (he ps) hus hl
    obtain ⟨k2, hk2⟩ := Option.ne_none_iff_exists'.1 h1
    have hd : 1 ≤ k2.depth := by
      rcases reach_depth hr hc (hsat.reach _ _ hk2) with rfl | h
      · exfalso
        rcases hsat.cell _ _ hk2 with h | h
        · simp [cfg, nextN, startN] at h
        · rw [lookup_start hr hc] at h
          simp [startN, nextN] at h
      · exact h
    obtain ⟨pv, hpv⟩ := htest nextN k2 hk2 goalN (by simp [cfg])
    rw [hgoal] at hpv
    simp [hd] at hpv
  have hlen : 2 ≤ path.length := by
    obtain ⟨_, ⟨s, hs, hhead⟩, _, _, kl, hlast, _, hgm⟩ := kin_path hcs prioLawful (topF_ok hr) hf hne
    obtain ⟨w, _, g, hg, kg, pv, hig, _, hkg⟩ := hgm rfl
    simp only [cfg, List.mem_singleton] at hg hs
    subst hg hs
    by_contra hlt
    have h1 : path.length = 1 := by
      have : path.length ≠ 0 := by simpa using hne
      omega
    obtain ⟨a, rfl⟩ := List.length_eq_one_iff.1 h1
    simp only [List.head?_cons, Option.some.injEq, List.getLast?_singleton] at hhead hlast
    subst hhead
    subst hlast
    rw [hgoal] at hig
    have hk0 : kin0 startN = startK := by simp [kin0]
    rw [hk0] at hig
    have hks : kg = startK := by simpa [startK] using hig
    rcases hkg with hkg | ⟨hkg, _⟩
    · rw [hks] at hkg
      have h2 : kin0 goalN = goalK := by simp [kin0, goalN, startN]
      rw [h2] at hkg
      have := congrArg SNode.x hkg
      norm_num [startK, goalK] at this
    · rw [hks, lookup_start hr hc] at hkg
      simp [startN, goalN] at hkg
  refine ⟨fuel, path, hf, hlen, ?_⟩
  obtain ⟨s, hs, qs, hq, _, al⟩ := dyn_search_drift (X := 20) (Q := Q) (arith_ok hr hc _) (by norm_num [Q]) (by norm_num [Q]) (by norm_num [Q])
    (by norm_num [Q]) (by norm_num) prioLawful prioMin (topF_ok hr) (fun _ _ => rfl) rfl
    (fun k k' hu => by
      have hu' : decide ((0 ≤ k'.x ∧ k'.x ≤ 20) ∧ 0 ≤ k'.y ∧ k'.y ≤ 20) = true := by
        have : CRes.ok (decide ((0 ≤ k'.x ∧ k'.x ≤ 20) ∧ 0 ≤ k'.y ∧ k'.y ≤ 20)) = CRes.ok true := hu
        injection this
      rw [decide_eq_true_eq] at hu'
      rw [abs_of_nonneg hu'.1.1, abs_of_nonneg hu'.2.1]
      exact ⟨hu'.1.2, hu'.2.2⟩)
    (fun s hs => by
      simp only [cfg, List.mem_singleton] at hs
      subst hs
      have hk0 : kin0 startN = startK := by simp [kin0]
      rw [hk0]
      refine ⟨rfl, by simp [startK], ?_, ?_⟩ <;> simp only [startK] <;> rw [abs_of_pos] <;> norm_num) hf hne
  simp only [cfg, List.mem_singleton] at hs
  subst hs
  have hk0 : kin0 startN = startK := by simp [kin0]
  rw [hk0] at hq al
  have hmx : maxLen Q = 1 := by simp [maxLen, Q]
  refine ⟨qs, hq, ?_⟩
  intro ps hp
  have := al ps hp
  have hu : (doubleFmt r hr).u = (2 : ℝ)⁻¹ ^ 53 := rfl
  rw [hmx, hu] at this
  simpa [Q] using this

end PathPlanning.DriftEx
