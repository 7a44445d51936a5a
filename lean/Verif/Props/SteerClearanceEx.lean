import Verif.Props.SteerClearance
import Verif.Props.SteerSearch3

/-!
# C101: concrete cases
-/

noncomputable section

namespace PathPlanning
open Spec

namespace ClearEx

/-- A map of 100 by 100 cells of which the cells in the given box are occupied. -/
def boxMap (res : ℝ) (x0 x1 y0 y1 : Nat) : GridMap ℝ :=
  ⟨100, 100, res, 0, 0, (List.range 10000).map fun i =>
    if x0 ≤ i % 100 ∧ i % 100 ≤ x1 ∧ y0 ≤ i / 100 ∧ i / 100 ≤ y1 then 255 else 0, 50, 200, -1⟩

variable {res : ℝ} {x0 x1 y0 y1 : Nat}

theorem boxMap_wf : (boxMap res x0 x1 y0 y1).WellFormed := by
  have h1 : (boxMap res x0 x1 y0 y1).width = 100 := rfl
  have h2 : (boxMap res x0 x1 y0 y1).height = 100 := rfl
  refine ⟨by rw [h1]; norm_num, by rw [h2]; norm_num, by rw [h1, h2]; norm_num, ?_⟩
  simp only [boxMap, List.length_map, List.length_range]
  norm_num

theorem boxMap_in (x y : Int) : (boxMap res x0 x1 y0 y1).isInMap x y = true ↔ 0 ≤ x ∧ x < 100 ∧ 0 ≤ y ∧ y < 100 := by
  have := GridMap.isInMap_iff (boxMap res x0 x1 y0 y1) boxMap_wf.w boxMap_wf.h x y
  rw [this]; simp [boxMap]

theorem boxMap_occ {x y : Nat} (hx : x < 100) (hy : y < 100) : (boxMap res x0 x1 y0 y1).isOccupied ⟨x, y⟩ =
    .ok (decide (x0 ≤ x ∧ x ≤ x1 ∧ y0 ≤ y ∧ y ≤ y1)) := by
  have hi : (boxMap res x0 x1 y0 y1).index ⟨x, y⟩ = y * 100 + x := by
    unfold GridMap.index wrapU
    have : u32 = 4294967296 := by decide
    simp only [boxMap, this]
    omega
  have hg : (boxMap res x0 x1 y0 y1).getValue ⟨x, y⟩ =
      .ok (if x0 ≤ x ∧ x ≤ x1 ∧ y0 ≤ y ∧ y ≤ y1 then 255 else 0) := by
    unfold GridMap.getValue
    rw [hi, vget_of_lt (by simp [boxMap]; omega)]
    simp only [boxMap, List.getElem_map, List.getElem_range]
    have e1 : (y * 100 + x) % 100 = x := by omega
    have e2 : (y * 100 + x) / 100 = y := by omega
    rw [e1, e2]
  unfold GridMap.isOccupied
  rw [hg]
  by_cases h : x0 ≤ x ∧ x ≤ x1 ∧ y0 ≤ y ∧ y ≤ y1
  · simp only [if_pos h, decide_eq_true h]; rfl
  · simp only [if_neg h, decide_eq_false h]; rfl

/-- Outside of the box nothing is occupied. -/
theorem boxMap_free {x y : Int} (h : ¬ (x0 ≤ x ∧ x ≤ x1 ∧ y0 ≤ y ∧ y ≤ y1)) :
    ptOccupied (boxMap res x0 x1 y0 y1) x y = .ok false ∧ ptFreeOrUnknown (boxMap res x0 x1 y0 y1) x y = .ok true := by
  obtain ⟨p1, p2⟩ := pt_spec (boxMap res x0 x1 y0 y1) boxMap_wf x y
  cases hin : (boxMap res x0 x1 y0 y1).isInMap x y with
  | true =>
    obtain ⟨_, q2, q3⟩ := p1 hin
    obtain ⟨a1, a2, a3, a4⟩ := (boxMap_in x y).1 hin
    have := boxMap_occ (res := res) (x0 := x0) (x1 := x1) (y0 := y0) (y1 := y1) (x := x.toNat) (y := y.toNat)
      (by omega) (by omega)
    rw [decide_eq_false (by omega)] at this
    exact ⟨q2.trans this, q3.2 this⟩
  | false => exact ⟨(p2 hin).2.1, (p2 hin).2.2⟩

/-! ### The bulge is real -/

/-- Wheel base 1 m, steering angle 45°, cells of 10 cm: the vehicle drives on a circle of ten cells
radius. -/
theorem arc_motion : BicycleMotion 1 (1 / 10) ((45 : Int) / 180 * Real.pi) 1
    (fun s => 50 + 10 * Real.sin s) (fun s => 50 + 10 * (1 - Real.cos s)) (fun s => s) := by
  have ht : Real.tan (((45 : Int) : ℝ) / 180 * Real.pi) = 1 := by
    have : ((45 : Int) : ℝ) / 180 * Real.pi = Real.pi / 4 := by push_cast; ring
    rw [this, Real.tan_pi_div_four]
  refine ⟨fun s => ?_, fun s => ?_, fun s => ?_⟩
  · exact (((Real.hasDerivAt_sin s).const_mul 10).const_add 50).congr_deriv (by field_simp)
  · exact ((((Real.hasDerivAt_cos s).const_sub 1).const_mul 10).const_add 50).congr_deriv (by field_simp)
  · exact (hasDerivAt_id s).congr_deriv (by rw [ht]; simp)

theorem sqrt3 : 1.73 < Real.sqrt 3 ∧ Real.sqrt 3 < 1.74 := by
  constructor
  · exact Real.lt_sqrt_of_sq_lt (by norm_num)
  · rw [Real.sqrt_lt' (by norm_num)]; norm_num

def arcFrom : SNode := ⟨50, 50, 0, true, 0, 0, 0⟩
def arcTo : SNode := ⟨50 + 10 * Real.sin (Real.pi / 3), 50 + 10 * (1 - Real.cos (Real.pi / 3)), Real.pi / 3, true, 45, 0, 1⟩

theorem arc_floor : ⌊arcFrom.x⌋ = 50 ∧ ⌊arcFrom.y⌋ = 50 ∧ ⌊arcTo.x⌋ = 58 ∧ ⌊arcTo.y⌋ = 55 := by
  obtain ⟨h1, h2⟩ := sqrt3
  refine ⟨by simp [arcFrom], by simp [arcFrom], ?_, ?_⟩
  · rw [Int.floor_eq_iff]
    simp only [arcTo, Real.sin_pi_div_three]
    constructor <;> push_cast <;> linarith
  · rw [Int.floor_eq_iff]
    simp only [arcTo, Real.cos_pi_div_three]
    constructor <;> norm_num

/-- **The line test overlooks what is under the arc**: on a map whose only obstacles are the six cells
`(54..56, 50..51)`, the line test (which looks at every cell of the line) accepts the step, both poses are
well inside the map, and the vehicle drives through the occupied cell `(55,51)`. -/
theorem arc_hits_obstacle :
    LineOk (boxMap (1 / 10) 54 56 50 51) 0 arcFrom arcTo ∧
    FarFromEdge (boxMap (1 / 10) 54 56 50 51) arcFrom ∧ FarFromEdge (boxMap (1 / 10) 54 56 50 51) arcTo ∧
    DrivesTo 1 (1 / 10) ((45 : Int) / 180 * Real.pi) 1 (Real.pi / 3) arcFrom arcTo ∧
    (∃ p, OnDrive 1 (1 / 10) ((45 : Int) / 180 * Real.pi) 1 (Real.pi / 3) arcFrom p ∧ PtInCell p (55, 51)) ∧
    (boxMap (1 / 10) 54 56 50 51).isOccupied ⟨55, 51⟩ = .ok true := by
  obtain ⟨f1, f2, f3, f4⟩ := arc_floor
  have hpi := Real.pi_pos
  refine ⟨⟨?_, fun _ _ z hz => ?_⟩, ?_, ?_, ?_, ?_, ?_⟩
  · have e : ∀ a : ℝ, a = 50 → truncC a = 50 := by
      intro a ha
      rw [truncC_nonneg (by rw [ha]; norm_num), ha]; norm_num
    rw [e arcFrom.x rfl, e arcFrom.y rfl]
    exact (boxMap_free (by norm_num)).2
  · obtain ⟨l, h1, h2, _, rfl⟩ := hz
    rw [f1, f2, f3, f4] at h2 ⊢
    have h2 : l ≤ 8 := h2
    rw [lineCell_map _ (GridMap.mk' 1 1 (1 : ℚ)) 50 50 58 55 h2]
    have key : ∀ l ≤ 8, let z := lineCell (GridMap.mk' 1 1 (1 : ℚ)) 50 50 58 55 l
        ¬ (((54 : Nat) : Int) ≤ z.1 ∧ z.1 ≤ ((56 : Nat) : Int) ∧ ((50 : Nat) : Int) ≤ z.2 ∧ z.2 ≤ ((51 : Nat) : Int)) := by
      decide +kernel
    exact (boxMap_free (key l h2)).2
  · unfold FarFromEdge
    rw [f1, f2, boxMap_in]; norm_num
  · unfold FarFromEdge
    rw [f3, f4, boxMap_in]; norm_num
  · refine ⟨_, _, _, arc_motion, ?_, ?_, rfl, rfl, rfl, 0, ?_⟩
    · simp [arcFrom]
    · simp [arcFrom]
    · simp [arcTo]
  · refine ⟨⟨50 + 10 * Real.sin (Real.pi / 6), 50 + 10 * (1 - Real.cos (Real.pi / 6))⟩,
      ⟨_, _, _, Real.pi / 6, arc_motion, ?_, ?_, rfl, by positivity, by linarith, rfl, rfl⟩, ?_⟩
    · simp [arcFrom]
    · simp [arcFrom]
    · obtain ⟨h1, h2⟩ := sqrt3
      unfold PtInCell
      simp only [Real.sin_pi_div_six, Real.cos_pi_div_six]
      refine ⟨?_, ?_, ?_, ?_⟩ <;> push_cast <;> linarith
  · rw [boxMap_occ (by norm_num) (by norm_num)]; simp

/-! ### A path on a map with a safety margin -/

def map : GridMap ℝ := boxMap 1 48 52 48 52
def P : DynP := ⟨1, 1, 1, 60, 15, 0, false, true, false⟩
def S : SteerCfg := ⟨{}, fun _ _ => 0, none⟩
def cfg : SCfg (PadCell map.width map.height) ℝ := ⟨[], [], false, 0, none, fun _ => false, fun _ _ _ => none, SearchEx.topRef, none⟩
def bres : Bres ℝ := Bres.start map 0 0 0 0

theorem straight : StraightOnly P := ⟨rfl, rfl, rfl, rfl, rfl, by norm_num [P], by norm_num [P]⟩

theorem map_ok : SteerMapOk map P.stepLen := by
  have : P.stepLen = 1 := by simp [P, DynP.stepLen]
  rw [this]
  constructor <;> norm_num [map, boxMap]

theorem margin : dynMargin P 0 = 2 := by
  have ht : Real.tan (((60 : Int) : ℝ) / 180 * Real.pi) = Real.sqrt 3 := by
    have : ((60 : Int) : ℝ) / 180 * Real.pi = Real.pi / 3 := by push_cast; ring
    rw [this, Real.tan_pi_div_three]
  obtain ⟨h1, h2⟩ := sqrt3
  unfold dynMargin arcMargin
  have : ⌈(max P.distStep P.la) ^ 2 * abs (Real.tan ((P.maxSteer : ℝ) / 180 * Real.pi)) / (8 * P.la * P.resolution)⌉ = 1 := by
    rw [Int.ceil_eq_iff]
    have e : Real.tan ((P.maxSteer : ℝ) / 180 * Real.pi) = Real.sqrt 3 := ht
    rw [e, abs_of_nonneg (by linarith)]
    simp only [P, max_self]
    constructor <;> push_cast <;> linarith
  rw [this]; norm_num

theorem inflated : Inflated map (dynMargin P 0) fun o => o = (50, 50) := by
  rw [margin]
  rintro o c rfl ⟨h1, h2⟩
  have h1 := abs_le.1 h1; have h2 := abs_le.1 h2
  simp only at h1 h2
  refine ⟨(boxMap_in _ _).2 (by omega), ?_⟩
  have := boxMap_occ (res := 1) (x0 := 48) (x1 := 52) (y0 := 48) (y1 := 52) (x := c.1.toNat) (y := c.2.toNat)
    (by omega) (by omega)
  rw [decide_eq_true (by omega)] at this
  exact this

/-- Along a path of this vehicle the first coordinate never falls. -/
theorem le_last : ∀ (q : List SNode) (k kl : SNode), (∀ x y, [x, y] <:+: q → x.x ≤ y.x) → k ∈ q → q.getLast? = some kl →
    k.x ≤ kl.x
  | [], _, _, _, h, _ => by simp at h
  | [a], k, kl, _, h, h' => by simp at h h'; subst h; subst h'; exact le_rfl
  | a :: b :: l, k, kl, hs, h, h' => by
    have ih := fun k hk => le_last (b :: l) k kl (fun x y hxy => hs x y (hxy.trans (List.suffix_cons a (b :: l)).isInfix)) hk
      (by simpa using h')
    rcases List.mem_cons.1 h with rfl | h
    · exact (hs k b ⟨[], l, rfl⟩).trans (ih b (by simp))
    · exact ih k h

/-- **Non-vacuity of `dyn_path_safe`**: from `(5,5)` to `(8,5)` a path is found, all its poses are well
inside the map, and the obstacle at `(50,50)` is surrounded by a sufficient margin - so the conclusion
holds. -/
theorem example_safe {clamp : ℝ → ℝ} (hc : ClampSpec clamp) :
    ∃ fuel q, padFindPath clamp (dynSteerAlgo clamp P (1 / 10) (1 / 10) map 0 bres S) PriorityManager cfg
      ⟨5, 5, 0⟩ ⟨8, 5, 0⟩ fuel = some (.ok q) ∧ q ≠ [] ∧ (∀ k ∈ q, FarFromEdge map k) ∧
      Inflated map (dynMargin P 0) (fun o => o = (50, 50)) ∧
      ∀ x y, [x, y] <:+: q → ∀ p c, OnDrive P.la P.resolution ((y.steer : ℝ) / 180 * Real.pi)
        (driveSign P.reversed y.forward)
        (if P.reversed = false ∧ x.depth < 1 ∧ y.forward = false then P.la else P.distStep) x p →
        PtInCell p c → c ≠ (50, 50) := by
  have i1 : IntPose ⟨5, 5, 0⟩ := by norm_num [IntPose]
  have i2 : IntPose ⟨8, 5, 0⟩ := by norm_num [IntPose]
  obtain ⟨fuel, q, h, hne, _⟩ := goal_heading_ignored (P := P) (m := map) (skips := 0) (b := bres) (S := S) (O := PriorityManager)
    (cfg := cfg) (distThr := 1 / 10) (angThr := 1 / 10) (start := ⟨5, 5, 0⟩) (goal := ⟨8, 5, 0⟩) hc straight map_ok prioLawful
    SearchEx.topRef_ok (fun _ => rfl) (by norm_num) (by norm_num) i1 i2 rfl (by norm_num [InsidePad, map, boxMap])
    (by norm_num [InsidePad, map, boxMap]) (fun x => (boxMap_free (by norm_num)).1) (by norm_num) (by norm_num)
  have hd : 0 ≤ P.distStep := by norm_num [P]
  have hr : 0 < P.resolution := by norm_num [P]
  have hst : 0 ≤ P.maxSteer ∧ P.maxSteer < 90 := by norm_num [P]
  have hla : 0 < P.la := by norm_num [P]
  obtain ⟨_, t2, _⟩ := dyn_path hc hd hr map_ok hst hla.ne' prioLawful SearchEx.topRef_ok i1 i2 h hne
  have hreach := fun k hk => straight_reach (P := P) (m := map) hc straight rfl (by norm_num) (t2 k hk).1
  obtain ⟨e1, e2⟩ := pad_exact hc map_ok (dynMoves_stepBound hd hr) dyn_offers (dyn_costOk map_ok.res) prioLawful
    prioMin SearchEx.topRef_ok (fun _ _ => rfl) rfl i1 i2 h
  have hin : ∀ k ∈ q, FarFromEdge map k := by
    intro k hk
    obtain ⟨⟨j, q1⟩, q2, _⟩ := hreach k hk
    obtain ⟨kl, hkl⟩ : ∃ kl, q.getLast? = some kl := by
      exact ⟨q.getLast hne, List.getLast?_eq_some_getLast hne⟩
    have hle := le_last q k kl (fun x y hxy => by
      obtain ⟨c, hs⟩ := e1 x y hxy
      obtain ⟨_, _, q3, q4, q5⟩ := hreach x (hxy.subset (by simp))
      have := (straight_adv hc straight hs.1 q3 q4 q5).1
      linarith) hk hkl
    obtain ⟨kg, pv, g1, g2⟩ := e2 kl hkl
    obtain ⟨_, g1⟩ := (dynIsGoal_iff _ _ _ _ _).1 g1
    have hg : kg.x < 9 := by
      rcases g2 with ⟨g2, _⟩ | ⟨_, g2, _⟩
      · rw [g2]; norm_num
      · have := Int.lt_floor_add_one kg.x
        rw [g2] at this
        norm_num at this; linarith
    have hkg : abs (kg.x - kl.x) ≤ nodeDist kg kl := by
      unfold nodeDist
      exact Real.abs_le_sqrt (by nlinarith [sq_nonneg (kg.y - kl.y)])
    have h10 : nodeDist kg kl < 1 / 10 := by simpa [P] using g1
    have hx : k.x < 10 := by
      have := (abs_le.1 hkg).1
      linarith
    unfold FarFromEdge map
    rw [boxMap_in]
    have f2 : ⌊k.y⌋ = 5 := by rw [q2]; simp
    have f1 : ⌊k.x⌋ < 10 := Int.floor_lt.2 (by exact_mod_cast hx)
    have f0 : 0 ≤ ⌊k.x⌋ := Int.floor_nonneg.2 (by rw [q1]; simp; positivity)
    omega
  refine ⟨fuel, q, h, hne, hin, inflated, fun x y hxy p c hp hcell => ?_⟩
  exact (dyn_path_safe hc hd hr map_ok hst hla prioLawful prioMin SearchEx.topRef_ok (fun _ _ => rfl) rfl i1 i2 h
    inflated hin x y hxy).2 p c hp hcell

end ClearEx
end PathPlanning
