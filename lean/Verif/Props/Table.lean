import Verif.Spec.Table
import Verif.Props.RSFind
import Verif.Props.Collision

/-!
# C68: the table heuristic and its precomputation
-/

noncomputable section

namespace PathPlanning.Table
open Spec RS

variable {clamp : ℝ → ℝ}

theorem layer_get (f : File) (a i : Nat) (hi : i < f.dim * f.dim) :
    vget (f.layer a).2 i = .ok (f.num (a * (f.dim * f.dim + 1) + 1 + i)) := by
  unfold vget File.layer
  simp [hi]

theorem new_costs (garbage : ℝ) (f : File) (a : Nat) (ha : a < f.angles) :
    vget (Tab.new garbage f).costs a = .ok (f.layer a) := by
  unfold vget Tab.new Tab.read Tab.update
  simp [ha]

/-- **C68.** The angle layer of an angle in `[-π, π)`: it exists, and the last of two or more layers is
never used. -/
theorem angleIdx_range (t : Tab) (ha : 1 ≤ t.angles) {th : ℝ} (h1 : -Real.pi ≤ th) (h2 : th < Real.pi) :
    0 ≤ t.angleIdx th ∧ t.angleIdx th < t.angles ∧ (2 ≤ t.angles → t.angleIdx th < t.angles - 1) := by
  have hpi := Real.pi_pos
  unfold Tab.angleIdx
  simp only
  set s := (if th < 0 then th + 2 * Real.pi else th) with hs
  have s0 : 0 ≤ s := by rw [hs]; split_ifs <;> linarith
  have s1 : s < 2 * Real.pi := by rw [hs]; split_ifs <;> linarith
  have hn : (1 : ℝ) ≤ t.angles := by exact_mod_cast ha
  have q0 : 0 ≤ s / (2 * Real.pi + 1 / 1000) := by positivity
  have q1 : s / (2 * Real.pi + 1 / 1000) < 1 := by rw [div_lt_one (by positivity)]; linarith
  refine ⟨Int.floor_nonneg.2 (mul_nonneg q0 (by linarith)), ?_, ?_⟩
  · rw [Int.floor_lt]
    push_cast
    have : s / (2 * Real.pi + 1 / 1000) * ((t.angles : ℝ) - 1) ≤ 1 * ((t.angles : ℝ) - 1) :=
      mul_le_mul_of_nonneg_right q1.le (by linarith)
    linarith
  · intro h2
    have h2' : (2 : ℝ) ≤ t.angles := by exact_mod_cast h2
    rw [Int.floor_lt]
    push_cast
    have : s / (2 * Real.pi + 1 / 1000) * ((t.angles : ℝ) - 1) < 1 * ((t.angles : ℝ) - 1) :=
      mul_lt_mul_of_pos_right q1 (by linarith)
    linarith

theorem rel_eq (current goal : Pose) :
    (current.x - goal.x) * Real.cos (-goal.theta) - (current.y - goal.y) * Real.sin (-goal.theta) =
      relX current goal ∧
    (current.x - goal.x) * Real.sin (-goal.theta) + (current.y - goal.y) * Real.cos (-goal.theta) =
      relY current goal := by
  unfold relX relY
  rw [Real.cos_neg, Real.sin_neg]
  constructor <;> ring

section
variable (hC : ClampSpec clamp) (hopen : ∀ t, clamp t < Real.pi)
include hC hopen

/-- The computation with the assertions discharged. -/
theorem compute_eq (t : Tab) (ha : 1 ≤ t.angles) (hf : t.factor ≠ 0) (current goal : Pose) (res : ℝ)
    (hx : |relX current goal / t.factor + ((t.dim / 2 : Nat) : ℝ)| ≤ 2000000000)
    (hy : |relY current goal / t.factor + ((t.dim / 2 : Nat) : ℝ)| ≤ 2000000000) :
    t.compute clamp current goal res =
      if truncC (relX current goal / t.factor + ((t.dim / 2 : Nat) : ℝ)) < 0 ∨
        truncC (relX current goal / t.factor + ((t.dim / 2 : Nat) : ℝ)) ≥ t.dim then .ok 0 else
      if truncC (relY current goal / t.factor + ((t.dim / 2 : Nat) : ℝ)) < 0 ∨
        truncC (relY current goal / t.factor + ((t.dim / 2 : Nat) : ℝ)) ≥ t.dim then .ok 0 else
      (vget t.costs (t.angleIdx (clamp (current.theta + -goal.theta))).toNat).bind fun layer =>
      (if ((t.dim : Int) - truncC (relY current goal / t.factor + ((t.dim / 2 : Nat) : ℝ))) * t.dim +
          truncC (relX current goal / t.factor + ((t.dim / 2 : Nat) : ℝ)) < 0 then CRes.ub else
        vget layer.2 (((t.dim : Int) - truncC (relY current goal / t.factor + ((t.dim / 2 : Nat) : ℝ))) * t.dim +
          truncC (relX current goal / t.factor + ((t.dim / 2 : Nat) : ℝ))).toNat).bind fun v =>
      CRes.ok (res * v * t.factor) := by
  obtain ⟨e1, e2⟩ := rel_eq current goal
  have hr := angleIdx_range t ha (hC.lo (current.theta + -goal.theta)) (hopen (current.theta + -goal.theta))
  unfold Tab.compute
  rw [if_neg (by push Not; exact ⟨by omega, hf⟩)]
  simp only [e1, e2]
  rw [castI_defined hx, castI_defined hy]
  simp only [CRes.ok_bind]
  rw [if_neg (by push Not; exact ⟨hC.lo _, hopen _⟩)]
  rw [if_neg (by push Not; exact ⟨hr.1, hr.2.1⟩)]
  congr 1
  congr 1
  show CRes.bind _ _ = _
  congr 1
  funext layer
  by_cases h : ((t.dim : Int) - truncC (relY current goal / t.factor + ((t.dim / 2 : Nat) : ℝ))) * t.dim +
      truncC (relX current goal / t.factor + ((t.dim / 2 : Nat) : ℝ)) < 0
  · rw [if_pos h, if_pos h]; rfl
  · rw [if_neg h, if_neg h]; rfl

/-- **C68.** Outside the square of the table the heuristic is zero. -/
theorem compute_outside (t : Tab) (ha : 1 ≤ t.angles) (hf : 0 < t.factor) (current goal : Pose) (res : ℝ)
    (hx : |relX current goal / t.factor + ((t.dim / 2 : Nat) : ℝ)| ≤ 2000000000)
    (hy : |relY current goal / t.factor + ((t.dim / 2 : Nat) : ℝ)| ≤ 2000000000)
    (hout : truncC (relX current goal / t.factor + ((t.dim / 2 : Nat) : ℝ)) < 0 ∨
      truncC (relX current goal / t.factor + ((t.dim / 2 : Nat) : ℝ)) ≥ t.dim ∨
      truncC (relY current goal / t.factor + ((t.dim / 2 : Nat) : ℝ)) < 0 ∨
      truncC (relY current goal / t.factor + ((t.dim / 2 : Nat) : ℝ)) ≥ t.dim) :
    t.compute clamp current goal res = .ok 0 := by
  rw [compute_eq hC hopen t ha hf.ne' current goal res hx hy]
  by_cases h1 : truncC (relX current goal / t.factor + ((t.dim / 2 : Nat) : ℝ)) < 0 ∨
        truncC (relX current goal / t.factor + ((t.dim / 2 : Nat) : ℝ)) ≥ t.dim
  · rw [if_pos h1]
  · rw [if_neg h1, if_pos]
    push Not at h1
    rcases hout with h | h | h | h
    · omega
    · omega
    · exact Or.inl h
    · exact Or.inr h

/-- **C68.** With the file the object was created with: a pose in column `x` and row `y > 0` of the square
gets the entry of column `x` and row `dimension - y` (mirrored, and shifted by one row), scaled. -/
theorem compute_inside (garbage : ℝ) (f : File) (ha : 1 ≤ f.angles) (r : ℝ) (hf : 0 < f.res / r)
    (current goal : Pose) (res : ℝ) (x y : Nat) (hy0 : 0 < y) (hyd : y < f.dim) (hxd : x < f.dim)
    (hd : f.dim ≤ 1000000000)
    (hx : truncC (relX current goal / (f.res / r) + ((f.dim / 2 : Nat) : ℝ)) = x)
    (hy : truncC (relY current goal / (f.res / r) + ((f.dim / 2 : Nat) : ℝ)) = y) :
    ∃ a : Nat, a < f.angles ∧ (2 ≤ f.angles → a + 1 < f.angles) ∧
      (a : Int) = ((Tab.new garbage f).setMap r).angleIdx (clamp (current.theta - goal.theta)) ∧
      ((Tab.new garbage f).setMap r).compute clamp current goal res =
        .ok (res * tableEntry f a x (f.dim - y) * (f.res / r)) := by
  set t := (Tab.new garbage f).setMap r with ht
  have td : t.dim = f.dim := rfl
  have ta : t.angles = f.angles := rfl
  have tf : t.factor = f.res / r := rfl
  have tc : t.costs = (Tab.new garbage f).costs := rfl
  have hr := angleIdx_range t (by rw [ta]; exact ha) (hC.lo (current.theta + -goal.theta))
    (hopen (current.theta + -goal.theta))
  have bound : ∀ (z : ℝ) (n : Nat), truncC z = n → n < f.dim → |z| ≤ 2000000000 := by
    intro z n hz hn
    have hn' : (n : ℝ) ≤ 1000000000 := by exact_mod_cast (by omega : n ≤ 1000000000)
    unfold truncC at hz
    split_ifs at hz with h0
    · rw [abs_of_nonneg h0]
      have := Int.lt_floor_add_one z
      rw [hz] at this; push_cast at this; linarith
    · push Not at h0
      have h1 : z ≤ ⌈z⌉ := Int.le_ceil z
      have h2 : (⌈z⌉ : ℝ) < z + 1 := Int.ceil_lt_add_one z
      rw [hz] at h1 h2; push_cast at h1 h2
      have : (0 : ℝ) ≤ n := Nat.cast_nonneg n
      rw [abs_of_neg h0]; linarith
  have hxb := bound _ x hx hxd
  have hyb := bound _ y hy hyd
  refine ⟨(t.angleIdx (clamp (current.theta + -goal.theta))).toNat, ?_, ?_, ?_, ?_⟩
  · have := hr.2.1; rw [ta] at this; omega
  · intro h2; have := hr.2.2 (by rw [ta]; exact h2); rw [ta] at this; omega
  · rw [Int.toNat_of_nonneg hr.1, ← sub_eq_add_neg]
  · have hlt : (t.angleIdx (clamp (current.theta + -goal.theta))).toNat < f.angles := by
      have := hr.2.1; rw [ta] at this; omega
    rw [compute_eq hC hopen t (by rw [ta]; exact ha) (by rw [tf]; exact hf.ne') current goal res
      (by rw [tf, td]; exact hxb) (by rw [tf, td]; exact hyb)]
    rw [tf, td, hx, hy, if_neg (by push Not; omega), if_neg (by push Not; omega), tc,
      new_costs garbage f _ hlt]
    simp only [CRes.bind]
    have hidx : ((f.dim : Int) - (y : Int)) * f.dim + (x : Int) = (((f.dim - y) * f.dim + x : Nat) : Int) := by
      push_cast [Nat.cast_sub hyd.le]; ring
    rw [hidx, if_neg (by omega), Int.toNat_natCast]
    have hin : (f.dim - y) * f.dim + x < f.dim * f.dim := by
      have h1 : (f.dim - y + 1) * f.dim ≤ f.dim * f.dim := Nat.mul_le_mul_right _ (by omega)
      have h2 : (f.dim - y + 1) * f.dim = (f.dim - y) * f.dim + f.dim := by ring
      omega
    rw [layer_get f _ _ hin]
    rfl

/-- **C68, finding.** A pose in row 0 of the square reads beyond the end of the layer. -/
theorem compute_row_zero (garbage : ℝ) (f : File) (ha : 1 ≤ f.angles) (r : ℝ) (hf : 0 < f.res / r)
    (current goal : Pose) (res : ℝ) (x : Nat) (hxd : x < f.dim)
    (hx : truncC (relX current goal / (f.res / r) + ((f.dim / 2 : Nat) : ℝ)) = x)
    (hy : truncC (relY current goal / (f.res / r) + ((f.dim / 2 : Nat) : ℝ)) = 0) :
    ((Tab.new garbage f).setMap r).compute clamp current goal res = .ub := by
  set t := (Tab.new garbage f).setMap r with ht
  have td : t.dim = f.dim := rfl
  have ta : t.angles = f.angles := rfl
  have tf : t.factor = f.res / r := rfl
  have tc : t.costs = (Tab.new garbage f).costs := rfl
  obtain ⟨e1, e2⟩ := rel_eq current goal
  have hr := angleIdx_range t (by rw [ta]; exact ha) (hC.lo (current.theta + -goal.theta))
    (hopen (current.theta + -goal.theta))
  unfold Tab.compute
  rw [if_neg (by push Not; exact ⟨by omega, by rw [tf]; exact hf.ne'⟩)]
  simp only [e1, e2]
  rw [tf, td]
  rcases hcx : castI (relX current goal / (f.res / r) + ((f.dim / 2 : Nat) : ℝ)) with px | s | _
  rotate_left
  · unfold castI at hcx; split at hcx <;> cases hcx
  · rfl
  rcases hcy : castI (relY current goal / (f.res / r) + ((f.dim / 2 : Nat) : ℝ)) with py | s | _
  rotate_left
  · unfold castI at hcy; split at hcy <;> cases hcy
  · rfl
  have ex := castI_ok hcx
  have ey := castI_ok hcy
  rw [hx] at ex; rw [hy] at ey
  subst ex ey
  simp only [CRes.ok_bind]
  rw [if_neg (by push Not; exact ⟨hC.lo _, hopen _⟩), if_neg (by push Not; exact ⟨hr.1, hr.2.1⟩),
    if_neg (by push Not; omega), if_neg (by push Not; omega), tc, new_costs garbage f _ (by
      have := hr.2.1; rw [ta] at this; omega)]
  simp only [CRes.ok_bind]
  have hidx : ((f.dim : Int) - 0) * f.dim + (x : Int) = ((f.dim * f.dim + x : Nat) : Int) := by
    push_cast; ring
  rw [hidx, if_neg (by omega), Int.toNat_natCast]
  have : vget (f.layer (t.angleIdx (clamp (current.theta + -goal.theta))).toNat).2 (f.dim * f.dim + x) = .ub := by
    unfold vget File.layer; simp
  rw [this]; rfl

end

/-- **C68, finding.** `init` does not replace the table: the layers of the default file stay in front, so
as long as the angle index is below their number the values of the new file are not used. -/
theorem init_keeps_layers (garbage : ℝ) (deflt f : File) (a : Nat) (ha : a < deflt.angles) :
    vget ((Tab.new garbage deflt).init f).costs a = .ok (deflt.layer a) ∧
    ((Tab.new garbage deflt).init f).costs.length = deflt.angles + f.angles ∧
    ((Tab.new garbage deflt).init f).dim = f.dim := by
  refine ⟨?_, by simp [Tab.init, Tab.read, Tab.new, Tab.update], rfl⟩
  unfold vget Tab.init Tab.read Tab.new Tab.read Tab.update
  simp [List.getElem?_append, ha]

/-- **C68, finding.** Before `setMap` the scale factor is determined by an uninitialised member. -/
theorem factor_unset (g1 g2 : ℝ) (f : File) (hf : f.res ≠ 0) (h1 : g1 ≠ 0) (h2 : g2 ≠ 0) (hne : g1 ≠ g2) :
    (Tab.new g1 f).factor ≠ (Tab.new g2 f).factor := by
  show f.res / g1 ≠ f.res / g2
  intro h
  apply hne
  field_simp at h
  exact h.symm

/-- `setMap` makes it independent of the uninitialised member, also after `init`. -/
theorem factor_set (g1 : ℝ) (deflt f : File) (r : ℝ) :
    (((Tab.new g1 deflt).init f).setMap r).factor = f.res / r ∧
    (((Tab.new g1 deflt).setMap r).init f).factor = f.res / r := ⟨rfl, rfl⟩

/-! ### The program that writes the table -/

theorem findLoop_near (E : RSEnv) (mArc : Option ℝ) (start goal : Pose) (hd : start.distTo goal < 2)
    (cs : List Curve) : ∀ (acc : List Curve) (r : List Curve × Option Curve),
    findLoop E mArc start goal cs acc none NOT_FREE = .ok r → r.2 = none := by
  induction cs with
  | nil => intro acc r h; simp only [findLoop, CRes.ok.injEq] at h; rw [← h]
  | cons c cs ih =>
    intro acc r h
    have hw : ∃ k, Curve.check E { c with start := start, goal := goal } = .ok k ∧ k.weight = NOT_FREE := by
      unfold Curve.check
      by_cases h3 : c.seq.length < 3 ∨ c.seq.length > 4
      · exact ⟨_, by rw [if_pos h3], rfl⟩
      · exact ⟨_, by rw [if_neg h3, if_pos hd], rfl⟩
    obtain ⟨k, hk, hw⟩ := hw
    simp only [findLoop, hk, CRes.ok_bind] at h
    rw [if_neg (by rw [hw]; exact lt_irrefl _)] at h
    exact ih _ _ h

/-- **C68.** `find_path` finds nothing between poses closer than two cells, whatever the patterns. -/
theorem findPath_near (g g' : Gen) (clamp : ℝ → ℝ) (start goal : Pose) (map : MapIf) (ig : Bool)
    (hd : start.distTo goal < 2) (r : Option Curve)
    (h : g.findPath clamp start goal map ig = .ok (g', r)) : r = none := by
  unfold Gen.findPath at h
  cases hc : g.curves with
  | nil => rw [hc] at h; cases h
  | cons c cs =>
    rw [hc] at h
    simp only [CRes.bind_eq_ok] at h
    obtain ⟨⟨cs', r'⟩, h1, h2⟩ := h
    simp only [CRes.pure_eq, CRes.ok.injEq, Prod.mk.injEq] at h2
    obtain ⟨_, rfl⟩ := h2
    exact findLoop_near _ _ _ _ hd _ _ _ h1

theorem cellCost_near (clamp : ℝ → ℝ) (dim : Nat) (theta : ℝ) (map : MapIf) (g : Gen) (x y : Nat)
    (hd : (⟨x, y, theta⟩ : Pose).distTo ⟨dim / 2, dim / 2, 0⟩ < 2) (r : Gen × ℝ) :
    cellCost clamp dim theta map g x y ≠ .ok r := by
  intro h
  unfold cellCost at h
  rw [CRes.bind_eq_ok] at h
  obtain ⟨⟨g', c⟩, h1, h2⟩ := h
  have := findPath_near g g' clamp _ _ map true hd c h1
  subst this
  cases h2

theorem layerLoop_near (clamp : ℝ → ℝ) (dim : Nat) (theta : ℝ) (map : MapIf) (x y : Nat)
    (hd : (⟨x, y, theta⟩ : Pose).distTo ⟨dim / 2, dim / 2, 0⟩ < 2) (cs : List (Nat × Nat))
    (hm : (x, y) ∈ cs) : ∀ (g : Gen) (r : Gen × List ℝ), layerLoop clamp dim theta map g cs ≠ .ok r := by
  induction cs with
  | nil => cases hm
  | cons c cs ih =>
    intro g r h
    simp only [layerLoop, CRes.bind_eq_ok] at h
    obtain ⟨s, h1, ⟨rest, h2, _⟩⟩ := h
    rcases List.mem_cons.1 hm with rfl | hm
    · exact cellCost_near clamp dim theta map g x y hd s h1
    · exact ih hm _ _ h2

/-- **C68, finding.** The program that computes the table never completes: whatever the dimension (at
least one cell), the number of angles (at least one), the patterns and the generator's settings, it
dereferences a null pointer (or fails before). -/
theorem precompute_never (clamp : ℝ → ℝ) (g : Gen) (dim angles : Nat) (res : ℝ) (map : MapIf)
    (hd : 1 ≤ dim) (ha : 1 ≤ angles) (f : File) : precompute clamp g dim angles res map ≠ .ok f := by
  intro h
  unfold precompute at h
  rw [CRes.bind_eq_ok] at h
  obtain ⟨ls, h1, _⟩ := h
  obtain ⟨n, rfl⟩ : ∃ n, angles = n + 1 := ⟨angles - 1, by omega⟩
  rw [List.range_succ_eq_map] at h1
  simp only [angleLoop, CRes.bind_eq_ok] at h1
  obtain ⟨r, h2, _⟩ := h1
  refine layerLoop_near clamp dim _ map (dim / 2) (dim / 2) ?_ (cells dim) ?_ g r h2
  · rw [distTo_eq]
    have e1 : ((dim / 2 : Nat) : ℝ) ≤ (dim : ℝ) / 2 := Nat.cast_div_le
    have e2 : (dim : ℝ) / 2 ≤ ((dim / 2 : Nat) : ℝ) + 1 := by
      have : dim ≤ 2 * (dim / 2) + 1 := by omega
      have : (dim : ℝ) ≤ 2 * ((dim / 2 : Nat) : ℝ) + 1 := by exact_mod_cast this
      linarith
    unfold eucl dist2 Pose.pt
    simp only
    rw [Real.sqrt_lt' (by norm_num)]
    nlinarith
  · unfold cells
    simp only [List.mem_flatMap, List.mem_range, List.mem_map, Prod.mk.injEq]
    exact ⟨dim / 2, by omega, dim / 2, by omega, rfl, rfl⟩

/-- An empty table is written for dimension 0. -/
example (clamp : ℝ → ℝ) (g : Gen) (map : MapIf) : precompute clamp g 0 1 1 map = .ok ⟨0, 1, 1, [0]⟩ := by
  simp [precompute, angleLoop, layerLoop, cells]

/-- The generator of the program parses its six patterns. -/
example : ∃ g, precompGen = .ok g ∧ g.curves.length = 6 ∧ g.maxArc = none := ⟨_, rfl, rfl, rfl⟩

/-- Concrete lookup: table with 4 × 4 cells and 2 layers; a car one cell "above" the goal, same heading,
is in row 3 and gets the entry of row 1. -/
example (garbage : ℝ) (clamp : ℝ → ℝ) (hC : ClampSpec clamp) (hopen : ∀ t, clamp t < Real.pi)
    (body : List ℝ) : ∃ a : Nat, a < 2 ∧
    ((Tab.new garbage ⟨4, 2, 1, body⟩).setMap 1).compute clamp ⟨0, 1, 0⟩ ⟨0, 0, 0⟩ 1 =
      .ok (tableEntry ⟨4, 2, 1, body⟩ a 2 1) := by
  obtain ⟨a, h1, _, _, h2⟩ := compute_inside hC hopen garbage ⟨4, 2, 1, body⟩ (by norm_num) 1 (by norm_num)
    ⟨0, 1, 0⟩ ⟨0, 0, 0⟩ 1 2 3 (by norm_num) (by norm_num) (by norm_num) (by norm_num)
    (by have : truncC ((2 : Int) : ℝ) = 2 := truncC_int 2
        simp [relX]; simpa using this)
    (by have : truncC ((3 : Int) : ℝ) = 3 := truncC_int 3
        simp [relY]; norm_num; simpa using this)
  exact ⟨a, h1, by rw [h2]; simp⟩

end PathPlanning.Table
