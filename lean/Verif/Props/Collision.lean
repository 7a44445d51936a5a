import Verif.Model.Collision
import Verif.Spec.Collision
import Verif.Spec.Geom
import Verif.Props.Area
import Mathlib.Analysis.Real.Pi.Bounds
import Mathlib.Tactic.IntervalCases

/-!
# Properties of `CollisionGridMap2d` (C50)
-/

noncomputable section

namespace PathPlanning

open Spec

/-! ### The footprint -/

theorem colLoop_eq (l r : P2) (inc : ℝ) : ∀ n i,
    colLoop l r inc n i = (List.range n).map (fun k : Nat => l + (r - l).smul (i + k * inc))
  | 0, _ => rfl
  | n + 1, i => by
    rw [colLoop, colLoop_eq l r inc n, List.range_succ_eq_map]
    simp only [List.map_cons, List.map_map, Nat.cast_zero, zero_mul, add_zero, List.cons.injEq,
      true_and]
    refine List.map_congr_left fun k _ => ?_
    simp only [Function.comp, Nat.cast_succ]
    congr 2; ring

theorem rowLoop_eq (bl fl fr br : P2) (ir ic : ℝ) (cols : Nat) : ∀ n i,
    rowLoop bl fl fr br ir ic cols n i = (List.range n).flatMap (fun k : Nat =>
      colLoop (bl + (fl - bl).smul (i + k * ir)) (fr + (br - fr).smul (i + k * ir)) ic cols 0)
  | 0, _ => rfl
  | n + 1, i => by
    rw [rowLoop, rowLoop_eq bl fl fr br ir ic cols n, List.range_succ_eq_map]
    simp only [List.flatMap_cons, List.flatMap_map, Nat.cast_zero, zero_mul, add_zero]
    congr 1
    congr 1
    funext k
    simp only [Nat.cast_succ]
    rw [show i + ir + (k : ℝ) * ir = i + ((k : ℝ) + 1) * ir by ring]

theorem truncC_int (z : Int) : truncC ((z : ℝ)) = z := by
  unfold truncC; split <;> simp

theorem castI_int {z : Int} (h1 : -2147483648 ≤ z) (h2 : z < 2147483648) :
    castI ((z : ℝ)) = .ok z := by
  unfold castI; rw [truncC_int, if_pos ⟨h1, h2⟩]

theorem castI_ok {d : ℝ} {z : Int} (h : castI d = .ok z) : z = truncC d := by
  unfold castI at h; split at h
  · injection h with h; exact h.symm
  · cases h

/-- The robot coordinates of the sample in row `i/8` and column `j/n`. -/
def sampleU (f b i j : ℝ) : ℝ := b + (f - b) * (i + j - 2 * (i * j))
/-- See `sampleU`. -/
def sampleV (w j : ℝ) : ℝ := w / 2 * (1 - 2 * j)

theorem sample_eq (f b w θ i j : ℝ) :
    (let hw := w / 2
     let fr := (⟨f, -hw⟩ : P2).rotate θ
     let fl := (⟨f, hw⟩ : P2).rotate θ
     let br := (⟨b, -hw⟩ : P2).rotate θ
     let bl := (⟨b, hw⟩ : P2).rotate θ
     (bl + (fl - bl).smul i) +
      ((fr + (br - fr).smul i) - (bl + (fl - bl).smul i)).smul j)
     = robotPt θ (sampleU f b i j) (sampleV w j) := by
  ext
  · simp only [P2.add_x, P2.smul, P2.sub_x, P2.rotate, robotPt, sampleU, sampleV]; ring
  · simp only [P2.add_y, P2.smul, P2.sub_y, P2.rotate, robotPt, sampleU, sampleV]; ring

/-- The number of columns. -/
def footCols (f b w : ℝ) : Int := ⌈(f - b) / (w / 8)⌉

theorem footPoints_mem {f b w θ : ℝ} {ps : List P2} (h : footPoints f b w θ = .ok ps) (p : P2) :
    p ∈ ps ↔ ∃ r k : Nat, r ≤ 8 ∧ (k : Int) ≤ footCols f b w ∧
      p = robotPt θ (sampleU f b (r / 8) (k / footCols f b w))
        (sampleV w (k / footCols f b w)) := by
  unfold footPoints at h
  by_cases hw : w = 0
  · simp [hw] at h
  rw [if_neg hw] at h
  have h8 : w / (w / 8) = ((8 : Int) : ℝ) := by push_cast; field_simp
  simp only [h8, Int.ceil_intCast] at h
  rw [castI_int (by norm_num) (by norm_num)] at h
  simp only [CRes.ok_bind] at h
  obtain ⟨sc, hsc, h⟩ := CRes.bind_eq_ok.1 h
  have hsc' := castI_ok hsc
  rw [truncC_int] at hsc'
  rw [CRes.pure_eq, CRes.ok.injEq] at h
  subst h
  have e : footCols f b w = sc := hsc'.symm
  rw [rowLoop_eq, List.mem_flatMap, e]
  constructor
  · rintro ⟨r, hr, hp⟩
    rw [colLoop_eq, List.mem_map] at hp
    obtain ⟨k, hk, rfl⟩ := hp
    rw [List.mem_range] at hr hk
    refine ⟨r, k, by omega, by omega, ?_⟩
    rw [← sample_eq]
    simp only [zero_add]
    congr 2
    all_goals (try congr 1)
    all_goals (try push_cast)
    all_goals (try ring_nf)
  · rintro ⟨r, k, hr, hk, rfl⟩
    refine ⟨r, by rw [List.mem_range]; omega, ?_⟩
    rw [colLoop_eq, List.mem_map]
    refine ⟨k, by rw [List.mem_range]; omega, ?_⟩
    rw [← sample_eq]
    simp only [zero_add]
    congr 2
    all_goals (try congr 1)
    all_goals (try push_cast)
    all_goals (try ring_nf)

theorem toCells_mem {ps : List P2} {cs : List (Int × Int)} (h : toCells ps = .ok cs)
    (c : Int × Int) : c ∈ cs ↔ ∃ p ∈ ps, c = cellOf p := by
  induction ps generalizing cs with
  | nil => simp only [toCells, CRes.ok.injEq] at h; subst h; simp
  | cons p ps ih =>
    rw [toCells] at h
    obtain ⟨x, hx, h⟩ := CRes.bind_eq_ok.1 h
    obtain ⟨y, hy, h⟩ := CRes.bind_eq_ok.1 h
    obtain ⟨r, hr, h⟩ := CRes.bind_eq_ok.1 h
    rw [CRes.pure_eq, CRes.ok.injEq] at h
    subst h
    rw [List.mem_cons, ih hr, castI_ok hx, castI_ok hy]
    simp [cellOf]

/-- **C50, exact content of a footprint.**  The cells of the area built for the orientation `θ` are
those of the 9 × (n+1) sample points `(b + (f-b)(i + j - 2ij), w/2 (1-2j))`, `i = r/8`, `j = k/n`. -/
theorem footprint_exact {f b w θ : ℝ} {junk : Int} {a : RobotSt}
    (h : RobotSt.new f b w θ junk = .ok a) (c : Int × Int) :
    c ∈ a.cells ↔ ∃ r k : Nat, r ≤ 8 ∧ (k : Int) ≤ ⌈(f - b) / (w / 8)⌉ ∧
      c = cellOf (robotPt θ
        (b + (f - b) * (r / 8 + k / ⌈(f - b) / (w / 8)⌉ - 2 * (r / 8 * (k / ⌈(f - b) / (w / 8)⌉))))
        (w / 2 * (1 - 2 * (k / ⌈(f - b) / (w / 8)⌉)))) := by
  unfold RobotSt.new at h
  obtain ⟨ps, hps, h⟩ := CRes.bind_eq_ok.1 h
  obtain ⟨cs, hcs, h⟩ := CRes.bind_eq_ok.1 h
  rw [CRes.pure_eq, CRes.ok.injEq] at h
  subst h
  rw [toCells_mem hcs]
  constructor
  · rintro ⟨p, hp, rfl⟩
    obtain ⟨r, k, h1, h2, rfl⟩ := (footPoints_mem hps p).1 hp
    exact ⟨r, k, h1, h2, rfl⟩
  · rintro ⟨r, k, h1, h2, rfl⟩
    exact ⟨_, (footPoints_mem hps _).2 ⟨r, k, h1, h2, rfl⟩, rfl⟩

theorem ratio_bounds {k : Nat} {n : Int} (h : (k : Int) ≤ n) :
    0 ≤ (k : ℝ) / n ∧ (k : ℝ) / n ≤ 1 := by
  have hk : ((k : ℝ)) ≤ n := by exact_mod_cast h
  have h0 : (0 : ℝ) ≤ k := Nat.cast_nonneg k
  have hn : (0 : ℝ) ≤ n := le_trans h0 hk
  exact ⟨div_nonneg h0 hn, div_le_one_of_le₀ hk hn⟩

/-- **C50.** Every cell of the footprint contains a point of the robot's rectangle in that
orientation: no cell away from the robot is tested. -/
theorem footprint_sound {f b w θ : ℝ} {junk : Int} {a : RobotSt} (hfb : b ≤ f) (hw : 0 < w)
    (h : RobotSt.new f b w θ junk = .ok a) {c : Int × Int} (hc : c ∈ a.cells) :
    InFootprint f b w θ c := by
  obtain ⟨r, k, hr, hk, rfl⟩ := (footprint_exact h c).1 hc
  obtain ⟨j0, j1⟩ := ratio_bounds hk
  have i0 : (0 : ℝ) ≤ (r : ℝ) / 8 := by positivity
  have i1 : (r : ℝ) / 8 ≤ 1 := by
    rw [div_le_one (by norm_num)]; exact_mod_cast hr
  generalize (k : ℝ) / ⌈(f - b) / (w / 8)⌉ = j at *
  generalize (r : ℝ) / 8 = i at *
  have s0 : 0 ≤ i + j - 2 * (i * j) := by nlinarith [mul_nonneg i0 (sub_nonneg.2 j1), mul_nonneg j0 (sub_nonneg.2 i1)]
  have s1 : i + j - 2 * (i * j) ≤ 1 := by
    nlinarith [mul_nonneg (sub_nonneg.2 i1) (sub_nonneg.2 j1), mul_nonneg i0 j0]
  refine ⟨_, _, ?_, ?_, ?_, rfl⟩
  · nlinarith [mul_nonneg (sub_nonneg.2 hfb) s0]
  · nlinarith [mul_nonneg (sub_nonneg.2 hfb) (sub_nonneg.2 s1)]
  · rw [abs_mul, abs_of_pos (by linarith : 0 < w / 2)]
    have : |1 - 2 * j| ≤ 1 := by rw [abs_le]; constructor <;> linarith
    nlinarith

/-- **C50.** The four corners of the robot are tested. -/
theorem footprint_corners {f b w θ : ℝ} {junk : Int} {a : RobotSt} (hfb : b < f) (hw : 0 < w)
    (h : RobotSt.new f b w θ junk = .ok a) :
    cellOf (robotPt θ b (w / 2)) ∈ a.cells ∧ cellOf (robotPt θ f (w / 2)) ∈ a.cells ∧
    cellOf (robotPt θ f (-(w / 2))) ∈ a.cells ∧ cellOf (robotPt θ b (-(w / 2))) ∈ a.cells := by
  have hn : 0 < ⌈(f - b) / (w / 8)⌉ := Int.ceil_pos.2 (by
    have := sub_pos.2 hfb; positivity)
  have key : ∀ r k : Nat, r ≤ 8 → (k : Int) ≤ ⌈(f - b) / (w / 8)⌉ → ∀ u v : ℝ,
      b + (f - b) * (r / 8 + k / ⌈(f - b) / (w / 8)⌉ -
        2 * (r / 8 * (k / ⌈(f - b) / (w / 8)⌉))) = u →
      w / 2 * (1 - 2 * (k / ⌈(f - b) / (w / 8)⌉)) = v → cellOf (robotPt θ u v) ∈ a.cells := by
    intro r k h1 h2 u v h3 h4
    exact (footprint_exact h _).2 ⟨r, k, h1, h2, by rw [h3, h4]⟩
  obtain ⟨m, hm⟩ : ∃ m : Nat, (m : Int) = ⌈(f - b) / (w / 8)⌉ := ⟨_, Int.toNat_of_nonneg hn.le⟩
  have hm' : ((m : ℝ)) / ⌈(f - b) / (w / 8)⌉ = 1 := by
    rw [← hm]; push_cast
    exact div_self (by have : m ≠ 0 := by omega
                       exact_mod_cast this)
  refine ⟨key 0 0 (by omega) (by omega) _ _ ?_ ?_, key 8 0 (by omega) (by omega) _ _ ?_ ?_,
    key 0 m (by omega) (by omega) _ _ ?_ ?_, key 8 m (by omega) (by omega) _ _ ?_ ?_⟩
  all_goals (try rw [hm'])
  all_goals (norm_num <;> try ring)

/-- Every sample lies in the "bow tie" spanned by the two sides: at the robot's centre line only the
middle of the robot is sampled. -/
theorem sample_bowtie {f b w i j : ℝ} (hfb : b ≤ f) (hw : 0 < w) (i0 : 0 ≤ i) (i1 : i ≤ 1) :
    |sampleU f b i j - (f + b) / 2| * (w / 2) ≤ |sampleV w j| * ((f - b) / 2) := by
  have e1 : sampleU f b i j - (f + b) / 2 = (f - b) / 2 * ((2 * i - 1) * (1 - 2 * j)) := by
    unfold sampleU; ring
  have hv : |sampleV w j| = w / 2 * |1 - 2 * j| := by
    unfold sampleV; rw [abs_mul, abs_of_pos (by linarith : 0 < w / 2)]
  have hh : |2 * i - 1| ≤ 1 := by rw [abs_le]; constructor <;> linarith
  rw [e1, hv, abs_mul, abs_mul, abs_of_nonneg (by linarith : 0 ≤ (f - b) / 2)]
  have h1 : |2 * i - 1| * |1 - 2 * j| ≤ |1 - 2 * j| := by
    nlinarith [abs_nonneg (1 - 2 * j)]
  have h2 : 0 ≤ (f - b) / 2 * (w / 2) := mul_nonneg (by linarith) (by linarith)
  calc (f - b) / 2 * (|2 * i - 1| * |1 - 2 * j|) * (w / 2)
      = (f - b) / 2 * (w / 2) * (|2 * i - 1| * |1 - 2 * j|) := by ring
    _ ≤ (f - b) / 2 * (w / 2) * |1 - 2 * j| := mul_le_mul_of_nonneg_left h1 h2
    _ = _ := by ring

theorem truncC_ge {d : ℝ} {z : Int} (hz : 0 < z) (h : truncC d = z) : (z : ℝ) ≤ d := by
  unfold truncC at h
  split at h
  · rw [Int.floor_eq_iff] at h; exact h.1
  · rename_i hd
    have : ⌈d⌉ ≤ 0 := Int.ceil_le.2 (by push_cast; linarith)
    omega

theorem truncC_zero_abs {d : ℝ} (h : truncC d = 0) : |d| < 1 := by
  unfold truncC at h
  rw [abs_lt]
  split at h
  · rw [Int.floor_eq_iff] at h; constructor <;> push_cast at h <;> linarith
  · rw [Int.ceil_eq_iff] at h; constructor <;> push_cast at h <;> linarith

/-- **C50 is false of the code: the front of the robot is not covered.**  For the orientation 0, none
of the cells `(p, 0)` on the centre line with `(p - (f+b)/2) * w/2 ≥ (f-b)/2` belongs to the
footprint, although all of them with `p ≤ f` contain points of the robot. -/
theorem footprint_misses_front {f b w : ℝ} {junk : Int} {a : RobotSt} (hfb : b < f) (hw : 0 < w)
    (h : RobotSt.new f b w 0 junk = .ok a) {p : Int} (hp : 0 < p)
    (hfar : (f - b) / 2 ≤ (p - (f + b) / 2) * (w / 2)) : (p, 0) ∉ a.cells := by
  intro hc
  obtain ⟨r, k, hr, hk, he⟩ := (footprint_exact h _).1 hc
  have i1 : (r : ℝ) / 8 ≤ 1 := by
    rw [div_le_one (by norm_num)]; exact_mod_cast hr
  have hb := sample_bowtie (j := (k : ℝ) / ⌈(f - b) / (w / 8)⌉) hfb.le hw
    (by positivity : (0 : ℝ) ≤ (r : ℝ) / 8) i1
  unfold sampleU sampleV at hb
  generalize b + (f - b) * (r / 8 + k / ⌈(f - b) / (w / 8)⌉ -
        2 * (r / 8 * (k / ⌈(f - b) / (w / 8)⌉))) = u at *
  generalize w / 2 * (1 - 2 * ((k : ℝ) / ⌈(f - b) / (w / 8)⌉)) = v at *
  simp only [cellOf, robotPt, Real.cos_zero, Real.sin_zero, mul_one, mul_zero, sub_zero, zero_add,
    Prod.mk.injEq] at he
  have h1 := truncC_ge hp he.1.symm
  have h2 := truncC_zero_abs he.2.symm
  have hlt : 0 < (f - b) / 2 := by linarith
  have h3 : |v| * ((f - b) / 2) < (f - b) / 2 := by nlinarith
  have h4 : (p - (f + b) / 2) * (w / 2) ≤ |u - (f + b) / 2| * (w / 2) :=
    mul_le_mul_of_nonneg_right (le_trans (by linarith) (le_abs_self _)) (by linarith)
  linarith

/-! ### Definedness -/

theorem castI_defined {d : ℝ} (h : |d| ≤ 2000000000) : castI d = .ok (truncC d) := by
  have h1 := neg_le_of_abs_le h
  have h2 := le_of_abs_le h
  unfold castI
  rw [if_pos]
  unfold truncC
  split
  · refine ⟨?_, ?_⟩
    · exact le_trans (by norm_num) (Int.floor_nonneg.2 (by assumption))
    · rw [Int.floor_lt]; push_cast; linarith
  · refine ⟨?_, ?_⟩
    · rw [Int.le_ceil_iff]; push_cast; linarith
    · have : ⌈d⌉ ≤ 0 := Int.ceil_le.2 (by push_cast; linarith)
      omega

theorem toCells_defined (ps : List P2) (h : ∀ p ∈ ps, |p.x| ≤ 2000000000 ∧ |p.y| ≤ 2000000000) :
    ∃ cs, toCells ps = .ok cs := by
  induction ps with
  | nil => exact ⟨_, rfl⟩
  | cons p ps ih =>
    obtain ⟨cs, hcs⟩ := ih (fun q hq => h q (List.mem_cons_of_mem _ hq))
    have := h p (List.mem_cons_self ..)
    exact ⟨_, by rw [toCells, castI_defined this.1, castI_defined this.2, hcs]; rfl⟩

theorem robotPt_bound {θ u v : ℝ} {A B : ℝ} (hu : |u| ≤ A) (hv : |v| ≤ B) :
    |(robotPt θ u v).x| ≤ A + B ∧ |(robotPt θ u v).y| ≤ A + B := by
  have key : ∀ c s : ℝ, |c| ≤ 1 → |s| ≤ 1 → |u * c + v * s| ≤ A + B := by
    intro c s hc hs
    calc |u * c + v * s| ≤ |u * c| + |v * s| := abs_add_le _ _
      _ = |u| * |c| + |v| * |s| := by rw [abs_mul, abs_mul]
      _ ≤ |u| * 1 + |v| * 1 := add_le_add (mul_le_mul_of_nonneg_left hc (abs_nonneg _))
          (mul_le_mul_of_nonneg_left hs (abs_nonneg _))
      _ ≤ A + B := by linarith
  constructor
  · have := key (Real.cos θ) (-Real.sin θ) (Real.abs_cos_le_one θ) (by
      rw [abs_neg]; exact Real.abs_sin_le_one θ)
    simpa [robotPt, sub_eq_add_neg] using this
  · exact key _ _ (Real.abs_sin_le_one θ) (Real.abs_cos_le_one θ)

/-- **C50.** The footprint of every robot of positive width and at most `10^9` cells of extent (and
no more than `2·10^9` columns of samples) is constructed without undefined behaviour. -/
theorem footprint_defined {f b w θ : ℝ} (junk : Int) (hfb : b ≤ f) (hw : 0 < w)
    (hb : -1000000000 ≤ b) (hf : f ≤ 1000000000) (hw2 : w ≤ 2000000000)
    (hn : (f - b) / (w / 8) ≤ 2000000000) :
    ∃ a, RobotSt.new f b w θ junk = .ok a := by
  have h8 : w / (w / 8) = ((8 : Int) : ℝ) := by push_cast; field_simp
  have hn0 : 0 ≤ ⌈(f - b) / (w / 8)⌉ := Int.ceil_nonneg (div_nonneg (by linarith) (by linarith))
  have hn1 : ⌈(f - b) / (w / 8)⌉ ≤ 2000000000 := Int.ceil_le.2 (by push_cast; exact hn)
  obtain ⟨ps, hps⟩ : ∃ ps, footPoints f b w θ = .ok ps := by
    unfold footPoints
    rw [if_neg hw.ne']
    simp only [h8, Int.ceil_intCast]
    rw [castI_int (by norm_num) (by norm_num), CRes.ok_bind,
      castI_int (by omega) (by omega), CRes.ok_bind]
    exact ⟨_, rfl⟩
  obtain ⟨cs, hcs⟩ := toCells_defined ps (fun p hp => by
    obtain ⟨r, k, hr, hk, rfl⟩ := (footPoints_mem hps p).1 hp
    obtain ⟨j0, j1⟩ := ratio_bounds hk
    have i0 : (0 : ℝ) ≤ (r : ℝ) / 8 := by positivity
    have i1 : (r : ℝ) / 8 ≤ 1 := by
      rw [div_le_one (by norm_num)]; exact_mod_cast hr
    generalize (k : ℝ) / footCols f b w = j at *
    generalize (r : ℝ) / 8 = i at *
    have s0 : 0 ≤ i + j - 2 * (i * j) := by
      nlinarith [mul_nonneg i0 (sub_nonneg.2 j1), mul_nonneg j0 (sub_nonneg.2 i1)]
    have s1 : i + j - 2 * (i * j) ≤ 1 := by
      nlinarith [mul_nonneg (sub_nonneg.2 i1) (sub_nonneg.2 j1), mul_nonneg i0 j0]
    have hu : |sampleU f b i j| ≤ 1000000000 := by
      unfold sampleU
      rw [abs_le]; constructor
      · nlinarith [mul_nonneg (sub_nonneg.2 hfb) s0]
      · nlinarith [mul_nonneg (sub_nonneg.2 hfb) (sub_nonneg.2 s1)]
    have hv : |sampleV w j| ≤ 1000000000 := by
      unfold sampleV
      rw [abs_le]; constructor <;> nlinarith
    have := robotPt_bound (θ := θ) hu hv
    norm_num at this
    exact this)
  exact ⟨_, by unfold RobotSt.new; rw [hps, CRes.ok_bind, hcs]; rfl⟩

/-- Non-vacuity: a car of 12 × 6 cells. -/
example (θ : ℝ) : ∃ a, RobotSt.new 10 (-2) 6 θ 0 = .ok a :=
  footprint_defined 0 (by norm_num) (by norm_num) (by norm_num) (by norm_num) (by norm_num)
    (by norm_num)

/-- ... for which the four cells in front of its centre are not tested. -/
example {a : RobotSt} (h : RobotSt.new 10 (-2) 6 0 0 = .ok a) :
    (6, 0) ∉ a.cells ∧ (7, 0) ∉ a.cells ∧ (8, 0) ∉ a.cells ∧ (9, 0) ∉ a.cells := by
  refine ⟨?_, ?_, ?_, ?_⟩ <;>
    exact footprint_misses_front (by norm_num) (by norm_num) h (by norm_num) (by norm_num)

/-- ... although they belong to the robot. -/
example : InFootprint 10 (-2) 6 0 (9, 0) :=
  ⟨9, 0, by norm_num, by norm_num, by norm_num, by
    simp only [cellOf, robotPt, Real.cos_zero, Real.sin_zero]
    norm_num [truncC]⟩

/-! ### Which footprint is used -/

namespace CMap

theorem up_spec : ∀ (n : Nat) (t : ℝ), -t ≤ n * (2 * Real.pi) → t < 2 * Real.pi →
    ∃ r, up n t = some r ∧ 0 ≤ r ∧ r < 2 * Real.pi ∧ ∃ k : Int, r = t + k * (2 * Real.pi)
  | 0, t, h, h2 => by
    have : 0 ≤ t := by simpa using h
    exact ⟨t, by rw [up, if_neg (by linarith)], this, h2, 0, by simp⟩
  | n + 1, t, h, h2 => by
    rw [up]
    split
    · rename_i ht
      obtain ⟨r, h1, h3, h4, k, hk⟩ := up_spec n (t + 2 * Real.pi) (by push_cast at h; linarith)
        (by linarith)
      exact ⟨r, h1, h3, h4, k + 1, by rw [hk]; push_cast; ring⟩
    · exact ⟨t, rfl, by linarith, h2, 0, by simp⟩

theorem down_spec : ∀ (n : Nat) (t : ℝ), 0 ≤ t → t < (n + 1) * (2 * Real.pi) →
    ∃ r, down n t = some r ∧ Reduced t r
  | 0, t, h0, h => by
    have : t < 2 * Real.pi := by simpa using h
    exact ⟨t, by rw [down, if_neg (by linarith)], h0, this, 0, by simp⟩
  | n + 1, t, h0, h => by
    rw [down]
    split
    · rename_i ht
      obtain ⟨r, h1, h3, h4, k, hk⟩ := down_spec n (t - 2 * Real.pi) (by linarith)
        (by push_cast at h; linarith)
      exact ⟨r, h1, h3, h4, k - 1, by rw [hk]; push_cast; ring⟩
    · exact ⟨t, rfl, h0, by linarith, 0, by simp⟩

theorem up_nonneg {n : Nat} {t : ℝ} (h : 0 ≤ t) : up n t = some t := by
  cases n <;> rw [up, if_neg (by linarith)]

/-- The two loops terminate and reduce the angle to `[0, 2π)`. -/
theorem loops_spec (θ : ℝ) : ∃ n0, ∀ n, n0 ≤ n → ∃ t, (up n θ).bind (down n) = some t ∧
    Reduced θ t := by
  have hpi := Real.pi_pos
  obtain ⟨n0, hn0⟩ := exists_nat_ge (|θ| / (2 * Real.pi))
  rw [div_le_iff₀ (by positivity)] at hn0
  refine ⟨n0, fun n hn => ?_⟩
  have hc : (n0 : ℝ) ≤ n := by exact_mod_cast hn
  have hn1 : |θ| ≤ n * (2 * Real.pi) := le_trans hn0 (by nlinarith)
  rcases lt_or_ge θ 0 with h | h
  · obtain ⟨r, h1, h2, h3, k, hk⟩ := up_spec n θ (le_trans (neg_le_abs θ) hn1) (by linarith)
    obtain ⟨q, hq, q0, q1, k', hk'⟩ := down_spec n r h2 (by
      have : (0 : ℝ) ≤ n := Nat.cast_nonneg n
      nlinarith)
    refine ⟨q, by rw [h1]; exact hq, q0, q1, k + k', ?_⟩
    rw [hk', hk]; push_cast; ring
  · obtain ⟨q, hq, hr⟩ := down_spec n θ h (by
      have := le_abs_self θ
      nlinarith)
    exact ⟨q, by rw [up_nonneg h]; exact hq, hr⟩

theorem reduced_unique {θ t t' : ℝ} (h : Reduced θ t) (h' : Reduced θ t') : t = t' := by
  obtain ⟨a, b, k, hk⟩ := h
  obtain ⟨a', b', k', hk'⟩ := h'
  have hpi := Real.pi_pos
  have e : t - t' = ((k - k' : Int) : ℝ) * (2 * Real.pi) := by rw [hk, hk']; push_cast; ring
  have l1 : ((k - k' : Int) : ℝ) < 1 := by
    by_contra hh; push Not at hh; nlinarith
  have l2 : (-1 : ℝ) < ((k - k' : Int) : ℝ) := by
    by_contra hh; push Not at hh; nlinarith
  have : k - k' = 0 := by
    have a1 : k - k' < 1 := by exact_mod_cast l1
    have a2 : -1 < k - k' := by exact_mod_cast l2
    omega
  rw [this] at e
  push_cast at e
  linarith

/-- **C50, the orientation index.**  For every orientation the index is the reduced angle (in
*radians*) rounded to the nearest integer; it is one of 0..6. -/
theorem areaIndex_spec (θ : ℝ) : ∃ n0, ∃ t, ∃ k : Nat, Reduced θ t ∧ NearestAway t (k : Int) ∧ k ≤ 6 ∧
    ∀ n, n0 ≤ n → areaIndex n θ = .ok (some (k : Int)) := by
  obtain ⟨n0, h0⟩ := loops_spec θ
  obtain ⟨t, ht, hr⟩ := h0 n0 le_rfl
  have hpi2 := Real.pi_lt_d2
  have hfl : 0 ≤ ⌊t + 1 / 2⌋ := Int.floor_nonneg.2 (by linarith [hr.1])
  have hfl6 : ⌊t + 1 / 2⌋ < 7 := Int.floor_lt.2 (by push_cast; linarith [hr.2.1])
  obtain ⟨k, hk⟩ : ∃ k : Nat, (k : Int) = ⌊t + 1 / 2⌋ := ⟨_, Int.toNat_of_nonneg hfl⟩
  refine ⟨n0, t, k, hr, ?_, by omega, fun n hn => ?_⟩
  · have a1 := Int.floor_le (t + 1 / 2)
    have a2 := Int.lt_floor_add_one (t + 1 / 2)
    rw [hk]
    refine ⟨by rw [abs_le]; constructor <;> linarith, fun he => ?_⟩
    rw [abs_of_nonneg hr.1, abs_of_nonneg (by exact_mod_cast hfl)]
    rcases abs_eq (by norm_num) |>.1 he with h | h <;> linarith
  · obtain ⟨t', ht', hr'⟩ := h0 n hn
    have := reduced_unique hr hr'
    subst this
    unfold areaIndex
    rw [ht']
    simp only
    unfold roundI
    rw [if_pos hr.1, ← hk, castI_int (by omega) (by omega)]
    rfl

/-- **C50 is false of the code: the wrong orientation is used.**  For every orientation whose reduced
angle is at least 1/2 radian, the footprint selected is not the nearest discretised one (the next one
is strictly closer), and for every orientation whatsoever the footprint used was built for an
orientation in `[0, 0.3]` radian: only 7 of the 128 footprints are ever used. -/
theorem orientation_wrong (θ t : ℝ) (ht : Reduced θ t) (k : Nat) (hk : NearestAway t (k : Int)) :
    k ≤ 6 ∧ areaTheta k ≤ 3 / 10 ∧
    (1 / 2 ≤ t → k + 1 < ANGLE_DISCRETIZATION ∧ |areaTheta (k + 1) - t| < |areaTheta k - t|) := by
  have hpi := Real.pi_pos
  have hpi2 := Real.pi_lt_d2
  obtain ⟨h1, h2⟩ := hk
  rw [abs_le] at h1
  push_cast at h1 h2
  have hk6 : k ≤ 6 := by
    have : (k : ℝ) < 7 := by linarith [ht.2.1]
    have : k < 7 := by exact_mod_cast this
    omega
  have hkr : (k : ℝ) ≤ 6 := by exact_mod_cast hk6
  have e : ∀ j : Nat, areaTheta j = 2 * Real.pi * j / 129 := by
    intro j; unfold areaTheta ANGLE_DISCRETIZATION; push_cast; ring
  refine ⟨hk6, ?_, fun hh => ⟨by unfold ANGLE_DISCRETIZATION; omega, ?_⟩⟩
  · rw [e]
    rw [div_le_iff₀ (by norm_num)]
    nlinarith
  · have hk1 : 1 ≤ k := by
      by_contra hc
      have : k = 0 := by omega
      subst this
      push_cast at h1 h2
      have : t = 1 / 2 := by linarith
      have := h2 (by rw [this]; norm_num)
      rw [abs_of_nonneg ht.1] at this
      simp at this
      linarith [ht.1]
    have hk1r : (1 : ℝ) ≤ k := by exact_mod_cast hk1
    have hlt : areaTheta k < areaTheta (k + 1) := by
      rw [e, e]; push_cast
      rw [div_lt_div_iff_of_pos_right (by norm_num)]
      nlinarith
    have hle : areaTheta (k + 1) ≤ t := by
      rw [e]; push_cast
      rw [div_le_iff₀ (by norm_num)]
      nlinarith
    rw [abs_of_nonpos (by linarith), abs_of_neg (by linarith)]
    linarith

/-- Non-vacuity: driving along the y axis (`π/2`) uses the footprint built for about 0.0974 radian. -/
example : Reduced (Real.pi / 2) (Real.pi / 2) ∧ NearestAway (Real.pi / 2) ((2 : Nat) : Int) := by
  have h1 := Real.pi_gt_d2
  have h2 := Real.pi_lt_d2
  refine ⟨⟨by linarith, by linarith, 0, by simp⟩, ?_, ?_⟩
  · rw [abs_le]; push_cast; constructor <;> linarith
  · push_cast
    intro h
    rcases abs_eq (by norm_num) |>.1 h with h | h <;> linarith

/-! ### The three tests -/

theorem mkAreas_spec {f b w : ℝ} {junk : Int} : ∀ {n t : Nat} {as : List RobotSt},
    mkAreas f b w junk n t = .ok as → as.length = n ∧
      ∀ i (h : i < as.length), RobotSt.new f b w (areaTheta (t + i)) junk = .ok as[i]
  | 0, t, as, h => by
    simp only [mkAreas, CRes.ok.injEq] at h; subst h; simp
  | n + 1, t, as, h => by
    rw [mkAreas] at h
    obtain ⟨a, ha, h⟩ := CRes.bind_eq_ok.1 h
    obtain ⟨as', has, h⟩ := CRes.bind_eq_ok.1 h
    rw [CRes.pure_eq, CRes.ok.injEq] at h
    subst h
    obtain ⟨hl, hi⟩ := mkAreas_spec has
    refine ⟨by simp [hl], fun i hi' => ?_⟩
    cases i with
    | zero => simpa using ha
    | succ i =>
      have := hi i (by simpa using hi')
      rw [show t + (i + 1) = t + 1 + i by omega]
      simpa using this

/-- The footprints of a map `c` are those of a robot of the given extent (in cells), whatever the
position the areas were last moved to. -/
def HasFootprint (c : CMap) (f b w : ℝ) : Prop :=
  c.areas.length = ANGLE_DISCRETIZATION ∧
  ∀ k (h : k < c.areas.length), ∃ junk a, RobotSt.new f b w (areaTheta k) junk = .ok a ∧
    (c.areas[k]).cells = a.cells

/-- The constructor establishes it. -/
theorem new_footprint {w h : Nat} {yaw res f b wd : ℝ} {junk : Int} {c : CMap}
    (hc : CMap.new w h yaw res f b wd junk = .ok c) :
    HasFootprint c (f / res) (b / res) (wd / res) ∧ c.base = ⟨GridMap.mk' w h res, yaw⟩ := by
  unfold CMap.new at hc
  obtain ⟨as, has, hc⟩ := CRes.bind_eq_ok.1 hc
  rw [CRes.pure_eq, CRes.ok.injEq] at hc
  subst hc
  obtain ⟨hl, hi⟩ := mkAreas_spec has
  refine ⟨⟨hl, fun k hk => ⟨junk, _, ?_, rfl⟩⟩, rfl⟩
  have := hi k hk
  rwa [Nat.zero_add] at this

/-- Moving an area keeps the footprints. -/
theorem HasFootprint.set {c : CMap} {f b w : ℝ} (hc : HasFootprint c f b w) {k : Nat}
    {a : RobotSt} (hk : c.areas[k]? = some a) (x y : Int) :
    HasFootprint { c with areas := c.areas.set k (a.setPosition x y) } f b w := by
  refine ⟨by simpa using hc.1, fun i hi => ?_⟩
  have hi' : i < c.areas.length := by simpa using hi
  obtain ⟨j, a', h1, h2⟩ := hc.2 i hi'
  refine ⟨j, a', h1, ?_⟩
  simp only [List.getElem_set]
  split
  · rename_i e
    subst e
    have : c.areas[k] = a := by
      rw [List.getElem?_eq_getElem hi'] at hk; injection hk
    rw [← h2, this]; rfl
  · exact h2

/-- The footprint cells tested for a position and a reduced angle `t`, given as offsets `cs`. -/
theorem select_spec {c : CMap} {f b w : ℝ} (hc : HasFootprint c f b w) (x y : Nat) (θ : ℝ) :
    ∃ n0 t k, ∃ a a' : RobotSt, ∃ junk, Reduced θ t ∧ NearestAway t ((k : Nat) : Int) ∧
      RobotSt.new f b w (areaTheta k) junk = .ok a ∧ a'.cells = a.cells ∧ a'.init = true ∧
      a'.x = toI32 x ∧ a'.y = toI32 y ∧
      ∃ c', c'.base = c.base ∧ HasFootprint c' f b w ∧
      ∀ n, n0 ≤ n → c.select n x y θ = .ok (some (a', c')) := by
  obtain ⟨n0, t, k, h1, h2, h3, h4⟩ := areaIndex_spec θ
  have hk : k < c.areas.length := by rw [hc.1]; unfold ANGLE_DISCRETIZATION; omega
  obtain ⟨junk, a, ha, hcells⟩ := hc.2 k hk
  have hg : c.areas[k]? = some c.areas[k] := List.getElem?_eq_getElem hk
  refine ⟨n0, t, k, a, (c.areas[k]).setPosition (toI32 x) (toI32 y), junk, h1, h2, ha, hcells, rfl,
    rfl, rfl,
    { c with areas := c.areas.set k ((c.areas[k]).setPosition (toI32 x) (toI32 y)) }, rfl, hc.set hg (toI32 x) (toI32 y), fun n hn => ?_⟩
  unfold select
  rw [h4 n hn, CRes.ok_bind]
  simp only
  rw [if_neg (by omega), Int.toNat_natCast, vget_of_lt hk]
  rfl

section tests
variable {c : CMap} {f b w : ℝ} (hc : HasFootprint c f b w) (wf : c.base.base.WellFormed)
  (x y : Nat) (θ : ℝ)
include hc wf

theorem in_read (hin : c.base.base.isInMap (toI32 x) (toI32 y) = true) (hx : x < 2 ^ 31)
    (hy : y < 2 ^ 31) : ∃ v, c.base.base.getValue ⟨x, y⟩ = .ok v := by
  have := (GridMap.isInMap_iff c.base.base wf.w wf.h _ _).1 hin
  rw [toI32_small (by omega), toI32_small (by omega)] at this
  exact GridMap.read_ok c.base.base wf.size wf.len (by omega) (by omega)

/-- **C50, exact behaviour of `isFreeRotated`.**  For every map, position and orientation (and however
the map was used before) the test terminates without undefined behaviour; it is true iff the cell
itself is a free cell of the map and every in-map cell of the footprint is free — the footprint being
the one built for the orientation `2π k / 129`, `k` the reduced angle rounded to an integer.  The
footprints are unchanged afterwards. -/
theorem isFreeRotated_iff (hx : x < 2 ^ 31) (hy : y < 2 ^ 31) :
    ∃ n0 t k, ∃ a : RobotSt, ∃ junk, Reduced θ t ∧ NearestAway t ((k : Nat) : Int) ∧
      RobotSt.new f b w (areaTheta k) junk = .ok a ∧
      ∃ r c', c'.base = c.base ∧ HasFootprint c' f b w ∧
        (∀ n, n0 ≤ n → c.isFreeRotated n x y θ = .ok (some (r, c'))) ∧
        (r = true ↔ (c.base.base.isInMap x y = true ∧ c.base.base.isFree ⟨x, y⟩ = .ok true) ∧
          ∀ d ∈ a.cells, c.base.base.isInMap (x + d.1) (y + d.2) = true →
            MapArea.onCell c.base.base.isFree (x + d.1, y + d.2) = .ok true) := by
  obtain ⟨n0, t, k, a, a', junk, h1, h2, h3, h4, h5, h6, h7, c', h8, h9, h10⟩ :=
    select_spec hc x y θ
  have ex : toI32 x = x := toI32_small (by omega)
  have ey : toI32 y = y := toI32_small (by omega)
  by_cases hin : c.base.base.isInMap x y = true
  · obtain ⟨v, hv⟩ := in_read hc wf x y (by rw [ex, ey]; exact hin) hx hy
    cases hfree : c.base.base.freeByte v with
    | false =>
      refine ⟨n0, t, k, a, junk, h1, h2, h3, false, c, rfl, hc, fun n _ => ?_, ?_⟩
      · unfold isFreeRotated
        simp [ex, ey, hin, GridMap.isFree, hv, hfree]
      · simp [GridMap.isFree, hv, hfree]
    | true =>
      obtain ⟨s0, hb, hyld, -⟩ := robotArea_visits_all a' h5
      have gen := fun n (hn : a'.cells.length < n) =>
        MapArea.isAreaFree_iff (m := c.base.base) wf hb hyld n (by simpa using hn)
      obtain ⟨r, hr, hiff⟩ := gen (a'.cells.length + 1) (by omega)
      refine ⟨max n0 (a'.cells.length + 1), t, k, a, junk, h1, h2, h3, r, c', h8, h9, fun n hn => ?_, ?_⟩
      · obtain ⟨r', hr', hiff'⟩ := gen n (by omega)
        have : r' = r := by
          rw [Bool.eq_iff_iff, hiff, hiff']
        subst this
        unfold isFreeRotated
        simp only [ex, ey, hin, GridMap.isFree, hv, hfree, h10 n (by omega), hr', CRes.ok_bind,
          CRes.pure_eq, Bool.not_true, Bool.false_eq_true, if_false, Option.map_some]
      · rw [hiff, h4, h6, h7, ex, ey]
        simp only [GridMap.isFree, hv, hfree, hin, CRes.ok_bind, CRes.pure_eq, true_and,
          List.mem_map, forall_exists_index, and_imp, forall_apply_eq_imp_iff₂]
  · refine ⟨n0, t, k, a, junk, h1, h2, h3, false, c, rfl, hc, fun n _ => ?_, ?_⟩
    · unfold isFreeRotated
      simp [ex, ey, hin]
    · simp [hin]

/-- **C50, exact behaviour of `isOccupiedRotated`.** -/
theorem isOccupiedRotated_iff (hx : x < 2 ^ 31) (hy : y < 2 ^ 31) :
    ∃ n0 t k, ∃ a : RobotSt, ∃ junk, Reduced θ t ∧ NearestAway t ((k : Nat) : Int) ∧
      RobotSt.new f b w (areaTheta k) junk = .ok a ∧
      ∃ r c', c'.base = c.base ∧ HasFootprint c' f b w ∧
        (∀ n, n0 ≤ n → c.isOccupiedRotated n x y θ = .ok (some (r, c'))) ∧
        (r = true ↔ c.base.base.isInMap x y = true ∧
          (c.base.base.isOccupied ⟨x, y⟩ = .ok true ∨
           ∃ d ∈ a.cells, c.base.base.isInMap (x + d.1) (y + d.2) = true ∧
            MapArea.onCell c.base.base.isOccupied (x + d.1, y + d.2) = .ok true)) := by
  obtain ⟨n0, t, k, a, a', junk, h1, h2, h3, h4, h5, h6, h7, c', h8, h9, h10⟩ :=
    select_spec hc x y θ
  have ex : toI32 x = x := toI32_small (by omega)
  have ey : toI32 y = y := toI32_small (by omega)
  by_cases hin : c.base.base.isInMap x y = true
  · obtain ⟨v, hv⟩ := in_read hc wf x y (by rw [ex, ey]; exact hin) hx hy
    cases hocc : c.base.base.occByte v with
    | true =>
      refine ⟨n0, t, k, a, junk, h1, h2, h3, true, c, rfl, hc, fun n _ => ?_, ?_⟩
      · unfold isOccupiedRotated
        simp [ex, ey, hin, GridMap.isOccupied, hv, hocc]
      · simp [GridMap.isOccupied, hv, hocc, hin]
    | false =>
      obtain ⟨s0, hb, hyld, -⟩ := robotArea_visits_all a' h5
      have gen := fun n (hn : a'.cells.length < n) =>
        MapArea.isAreaOccupied_iff (m := c.base.base) wf hb hyld n (by simpa using hn)
      obtain ⟨r, hr, hiff⟩ := gen (a'.cells.length + 1) (by omega)
      refine ⟨max n0 (a'.cells.length + 1), t, k, a, junk, h1, h2, h3, r, c', h8, h9, fun n hn => ?_, ?_⟩
      · obtain ⟨r', hr', hiff'⟩ := gen n (by omega)
        have : r' = r := by
          rw [Bool.eq_iff_iff, hiff, hiff']
        subst this
        unfold isOccupiedRotated
        simp only [ex, ey, hin, GridMap.isOccupied, hv, hocc, h10 n (by omega), hr', CRes.ok_bind,
          CRes.pure_eq, Bool.not_true, Bool.false_eq_true, if_false, Option.map_some]
      · rw [hiff, h4, h6, h7, ex, ey]
        simp [GridMap.isOccupied, hv, hocc, hin, MapArea.onCell]
  · refine ⟨n0, t, k, a, junk, h1, h2, h3, false, c, rfl, hc, fun n _ => ?_, ?_⟩
    · unfold isOccupiedRotated
      simp [ex, ey, hin]
    · simp [hin]

end tests

/-- **C50 is false of the code: collisions in front of the robot are not seen.**  Orientation 0; every
cell of the map is free except the cell `(x+p, y)` ahead, where the robot's rectangle extends to
`p` and the cell is in the uncovered wedge: the pose is reported free. -/
theorem isFreeRotated_front_missed {c : CMap} {f b w : ℝ} (hc : HasFootprint c f b w)
    (wf : c.base.base.WellFormed) (x y : Nat) (hx : x < 2 ^ 31) (hy : y < 2 ^ 31) (hfb : b < f)
    (hw : 0 < w) {p : Int} (hp : 0 < p) (hfar : (f - b) / 2 ≤ (p - (f + b) / 2) * (w / 2))
    (hin : c.base.base.isInMap x y = true)
    (hfree : ∀ i j : Int, c.base.base.isInMap i j = true → (i, j) ≠ ((x : Int) + p, (y : Int)) →
      MapArea.onCell c.base.base.isFree (i, j) = .ok true) :
    ∃ n0 c', ∀ n, n0 ≤ n → c.isFreeRotated n x y 0 = .ok (some (true, c')) := by
  obtain ⟨n0, t, k, a, junk, h1, h2, h3, r, c', -, -, h4, h5⟩ := isFreeRotated_iff hc wf x y 0 hx hy
  have ht : t = 0 := reduced_unique h1 ⟨le_rfl, by positivity, 0, by simp⟩
  have hk : k = 0 := by
    subst ht
    have := h2.1
    rw [zero_sub, abs_neg, abs_of_nonneg (by positivity)] at this
    push_cast at this
    have : (k : ℝ) < 1 := by linarith
    have : k < 1 := by exact_mod_cast this
    omega
  subst hk
  have e0 : areaTheta 0 = 0 := by simp [areaTheta]
  rw [e0] at h3
  refine ⟨n0, c', fun n hn => ?_⟩
  have : r = true := h5.2 ⟨⟨hin, ?_⟩, fun d hd hdin => hfree _ _ hdin ?_⟩
  · rw [h4 n hn, this]
  · have := hfree x y hin (by intro he; simp only [Prod.mk.injEq] at he; omega)
    simpa [MapArea.onCell] using this
  · intro he
    simp only [Prod.mk.injEq, add_right_inj] at he
    have hd2 : d.2 = 0 := by omega
    have : d = (p, 0) := Prod.ext he.1 hd2
    rw [this] at hd
    exact footprint_misses_front hfb hw h3 hp hfar hd

/-- **C50 is false of the code for the overload `isFree(x,y,theta)`** that the planners call: it does
not look at the footprint at all. -/
theorem isFreeTheta_ignores (c : CMap) (x y : Nat) (θ θ' : ℝ) :
    c.isFreeTheta x y θ = c.isFreeTheta x y θ' ∧ c.isFreeTheta x y θ = c.base.base.isFree ⟨x, y⟩ :=
  ⟨rfl, rfl⟩

/-! ### Non-vacuity: a car of 12 × 6 cells on a corridor of 12 cells with one obstacle -/

theorem mkAreas_defined {f b w : ℝ} (junk : Int) (hfb : b ≤ f) (hw : 0 < w)
    (hb : -1000000000 ≤ b) (hf : f ≤ 1000000000) (hw2 : w ≤ 2000000000)
    (hn : (f - b) / (w / 8) ≤ 2000000000) :
    ∀ n t, ∃ as, mkAreas f b w junk n t = .ok as
  | 0, _ => ⟨_, rfl⟩
  | n + 1, t => by
    obtain ⟨a, ha⟩ := footprint_defined (θ := areaTheta t) junk hfb hw hb hf hw2 hn
    obtain ⟨as, has⟩ := mkAreas_defined junk hfb hw hb hf hw2 hn n (t + 1)
    exact ⟨_, by rw [mkAreas, ha, CRes.ok_bind, has]; rfl⟩

/-- Every robot of reasonable size has a collision map. -/
theorem new_defined (w h : Nat) {yaw res f b wd : ℝ} (junk : Int) (hfb : b / res ≤ f / res)
    (hw : 0 < wd / res) (hb : -1000000000 ≤ b / res) (hf : f / res ≤ 1000000000)
    (hw2 : wd / res ≤ 2000000000) (hn : (f / res - b / res) / (wd / res / 8) ≤ 2000000000) :
    ∃ c, CMap.new w h yaw res f b wd junk = .ok c := by
  obtain ⟨as, has⟩ := mkAreas_defined junk hfb hw hb hf hw2 hn ANGLE_DISCRETIZATION 0
  exact ⟨_, by unfold CMap.new; rw [has]; rfl⟩

/-- The corridor: 12 cells, an obstacle in cell 9. -/
def corridor : GridMap ℝ := { GridMap.mk' 12 1 1 with data := [0, 0, 0, 0, 0, 0, 0, 0, 0, 255, 0, 0] }

example : ∃ c : CMap, HasFootprint c 10 (-2) 6 ∧ c.base.base = corridor ∧
    c.base.base.WellFormed ∧ c.base.base.isOccupied ⟨9, 0⟩ = .ok true ∧
    ∃ n0 c', ∀ n, n0 ≤ n → c.isFreeRotated n 2 0 0 = .ok (some (true, c')) := by
  obtain ⟨c0, h0⟩ := new_defined (yaw := 0) (res := 1) (f := 10) (b := -2) (wd := 6) 12 1 0
    (by norm_num) (by norm_num) (by norm_num) (by norm_num) (by norm_num) (by norm_num)
  have hc := (new_footprint h0).1
  norm_num at hc
  have hc' : HasFootprint ⟨⟨corridor, 0⟩, c0.areas⟩ 10 (-2) 6 := hc
  have wf : corridor.WellFormed := ⟨by decide, by decide, by decide, by decide⟩
  refine ⟨⟨⟨corridor, 0⟩, c0.areas⟩, hc', rfl, wf, rfl, ?_⟩
  refine isFreeRotated_front_missed hc' wf 2 0 (by norm_num) (by norm_num) (by norm_num)
    (by norm_num) (p := 7) (by norm_num) (by norm_num) rfl (fun i j hij hne => ?_)
  have := (GridMap.isInMap_iff corridor wf.w wf.h _ _).1 hij
  have e1 : corridor.width = 12 := rfl
  have e2 : corridor.height = 1 := rfl
  rw [e1, e2] at this
  obtain ⟨a1, a2, a3, a4⟩ := this
  have hj : j = 0 := by omega
  subst hj
  push_cast at a2
  interval_cases i <;> first | rfl | exact absurd rfl hne

end CMap

end PathPlanning
