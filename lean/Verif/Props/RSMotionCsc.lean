import Verif.Props.RSMotionNear
import Verif.Spec.Expansion

/-!
# C103: a motion "turn, straight, turn" between two unoccupied cells stays near unoccupied cells all the way
-/

noncomputable section

namespace PathPlanning.RS
open Spec

theorem turn_dist {r : ℝ} (hr : 0 ≤ r) (q : Pose) (o : Ori) (d : Dir) (s t : ℝ) :
    abs ((drive r q (.turn o d) s).x - (drive r q (.turn o d) t).x) ≤ r * abs (s - t) ∧
    abs ((drive r q (.turn o d) s).y - (drive r q (.turn o d) t).y) ≤ r * abs (s - t) := by
  have ho : abs (oriSign o) = 1 := by cases o <;> norm_num [oriSign]
  have hd : abs (dirSign d) = 1 := by cases d <;> norm_num [dirSign]
  have hang : abs (q.theta + oriSign o * dirSign d * s - (q.theta + oriSign o * dirSign d * t)) = abs (s - t) := by
    rw [show q.theta + oriSign o * dirSign d * s - (q.theta + oriSign o * dirSign d * t) =
      oriSign o * dirSign d * (s - t) by ring, abs_mul, abs_mul, ho, hd]; ring
  simp only [Spec.drive]
  constructor
  · rw [show q.x + oriSign o * r * (Real.sin (q.theta + oriSign o * dirSign d * s) - Real.sin q.theta) -
      (q.x + oriSign o * r * (Real.sin (q.theta + oriSign o * dirSign d * t) - Real.sin q.theta)) =
      oriSign o * (r * (Real.sin (q.theta + oriSign o * dirSign d * s) - Real.sin (q.theta + oriSign o * dirSign d * t)))
      by ring, abs_mul, ho, one_mul, abs_mul, abs_of_nonneg hr, ← hang]
    exact mul_le_mul_of_nonneg_left (Real.abs_sin_sub_sin_le _ _) hr
  · rw [show q.y - oriSign o * r * (Real.cos (q.theta + oriSign o * dirSign d * s) - Real.cos q.theta) -
      (q.y - oriSign o * r * (Real.cos (q.theta + oriSign o * dirSign d * t) - Real.cos q.theta)) =
      -(oriSign o * (r * (Real.cos (q.theta + oriSign o * dirSign d * s) - Real.cos (q.theta + oriSign o * dirSign d * t))))
      by ring, abs_neg, abs_mul, ho, one_mul, abs_mul, abs_of_nonneg hr, ← hang]
    exact mul_le_mul_of_nonneg_left (Real.abs_cos_sub_cos_le _ _) hr

theorem floor_shift {x y δ : ℝ} (h : abs (x - y) ≤ δ) : |⌊x⌋ - ⌊y⌋| ≤ ⌈δ⌉ := by
  obtain ⟨h1, h2⟩ := abs_le.1 h
  have hd := Int.le_ceil δ
  have a1 := Int.floor_le y
  have a2 := Int.lt_floor_add_one y
  refine Clear.floor_near ?_ ?_ <;> linarith

theorem floor_trunc (x : ℝ) : |⌊x⌋ - truncC x| ≤ 1 := by
  obtain ⟨h1, h2⟩ := truncC_near x
  refine Clear.floor_near ?_ ?_ <;> push_cast <;> linarith

theorem turnGap_ge {r : ℝ} (hR : 2 ≤ r) : 4 ≤ turnGap r := by
  have h1 : (2 : ℝ) ≤ ⌊r⌋ := by exact_mod_cast Int.le_floor.2 (by exact_mod_cast hR : ((2 : Int) : ℝ) ≤ r)
  have h2 := Int.floor_le r
  have h3 := Real.pi_gt_three
  have : (3 : ℝ) < Real.pi * r / (⌊r⌋ - 1) := by
    rw [lt_div_iff₀ (by linarith)]
    nlinarith
  have := Int.le_ceil (Real.pi * r / (⌊r⌋ - 1))
  have h4 : (3 : ℝ) < (turnGap r : ℝ) := by unfold turnGap; linarith
  have : (3 : Int) < turnGap r := by exact_mod_cast h4
  omega

theorem cellsWithin_trans {d e : Int} {a b c : Int × Int} (h1 : CellsWithin d a b) (h2 : CellsWithin e b c) :
    CellsWithin (d + e) a c := by
  obtain ⟨a1, a2⟩ := h1; obtain ⟨b1, b2⟩ := h2
  have := abs_le.1 a1; have := abs_le.1 a2; have := abs_le.1 b1; have := abs_le.1 b2
  constructor <;> rw [abs_le] <;> constructor <;> omega

theorem cellsWithin_mono {d e : Int} {a b : Int × Int} (h : CellsWithin d a b) (hd : d ≤ e) : CellsWithin e a b :=
  ⟨h.1.trans hd, h.2.trans hd⟩

variable {map : MapIf} (hpos : ∀ x y, map.inMap x y = true → 0 ≤ x ∧ 0 ≤ y) {r : ℝ} (hR : 2 ≤ r)
  {Ok : Int × Int → Prop} (hok : ∀ c : Int × Int, (map.inMap c.1 c.2 = true → map.free c.1 c.2 = true) → Ok c) {D : Int} (hD : 1 ≤ D)
include hpos hR hok hD

/-- A turn between two poses near good cells. -/
theorem turn_near_ends {q : Pose} {o : Ori} {d : Dir} {a s : ℝ} (hc : ElemClear map r q (.turn o d) a)
    (hs : ∃ c, CellsWithin D (⌊q.x⌋, ⌊q.y⌋) c ∧ Ok c)
    (he : ∃ c, CellsWithin D (⌊(drive r q (.turn o d) a).x⌋, ⌊(drive r q (.turn o d) a).y⌋) c ∧ Ok c)
    (h0 : 0 ≤ s) (h1 : s ≤ a) {c : Int × Int} (hin : PtInCell (drive r q (.turn o d) s).pt c) :
    ∃ c', CellsWithin (turnGap r + D) c c' ∧ Ok c' := by
  have hgap := turnGap_ge hR
  have hr : 0 ≤ r := by linarith
  have hcell := ptInCell_eq hin
  simp only [Pose.pt] at hcell
  have hend : ∀ t, abs (s - t) ≤ Real.pi / (⌊r⌋ - 1) → CellsWithin (turnGap r) c
      (⌊(drive r q (.turn o d) t).x⌋, ⌊(drive r q (.turn o d) t).y⌋) := by
    intro t ht
    obtain ⟨d1, d2⟩ := turn_dist hr q o d s t
    have : r * abs (s - t) ≤ Real.pi * r / (⌊r⌋ - 1) := by
      rw [show Real.pi * r / ((⌊r⌋ : ℝ) - 1) = r * (Real.pi / (⌊r⌋ - 1)) by ring]
      exact mul_le_mul_of_nonneg_left ht hr
    rw [hcell]
    exact ⟨floor_shift (d1.trans this), floor_shift (d2.trans this)⟩
  by_cases hlo : s < Real.pi / (⌊r⌋ - 1)
  · obtain ⟨c0, w, hc0⟩ := hs
    have h2 := hend 0 (by rw [sub_zero, abs_of_nonneg h0]; exact hlo.le)
    have e0 : drive r q (.turn o d) 0 = q := by cases o <;> simp [Spec.drive]
    rw [e0] at h2
    exact ⟨c0, cellsWithin_trans h2 w, hc0⟩
  by_cases hhi : a - Real.pi / (⌊r⌋ - 1) < s
  · obtain ⟨c0, w, hc0⟩ := he
    have h2 := hend a (by rw [abs_of_nonpos (by linarith)]; linarith)
    exact ⟨c0, cellsWithin_trans h2 w, hc0⟩
  obtain ⟨c', m1, m2, m3⟩ := elemClear_turn_near hpos hc hR (not_lt.1 hlo) (not_lt.1 hhi) hin
  exact ⟨c', cellsWithin_mono m3 (by omega), hok c' fun _ => m2⟩

/-- **C103.** A forward motion "turn, straight, turn" that passed the tests, from a pose near a good cell to a pose near
a good cell, is near good cells all the way: no point of it, on the turns or the straight, is excepted. -/
theorem csc_near {p q : Pose} {o o' : Ori} {t1 L t3 : ℝ}
    (hclear : MotionClear map r p (cscForward o o' t1 L t3))
    (hend : SameConfig (driveAll r p (cscForward o o' t1 L t3)) q)
    (hs : ∃ c, CellsWithin D (⌊p.x⌋, ⌊p.y⌋) c ∧ Ok c) (hg : ∃ c, CellsWithin D (⌊q.x⌋, ⌊q.y⌋) c ∧ Ok c)
    {pt : P2} (hon : OnMotion r p (cscForward o o' t1 L t3) pt) {c : Int × Int} (hin : PtInCell pt c) :
    ∃ c', CellsWithin (turnGap r + D) c c' ∧ Ok c' := by
  have hgap := turnGap_ge hR
  obtain ⟨k1, k2, k3, _⟩ := hclear
  obtain ⟨s1, s2, s3⟩ := elemClear_straight_ends k2
  set A := drive r p (.turn o .fwd) t1 with hA
  set B := drive r A (.straight .fwd) L with hB
  have hAok : ∃ c, CellsWithin D (⌊A.x⌋, ⌊A.y⌋) c ∧ Ok c :=
    ⟨(truncC A.x, truncC A.y), cellsWithin_mono ⟨floor_trunc _, floor_trunc _⟩ hD, hok _ fun _ => s2⟩
  have hBok : ∃ c, CellsWithin D (⌊B.x⌋, ⌊B.y⌋) c ∧ Ok c :=
    ⟨(truncC B.x, truncC B.y), cellsWithin_mono ⟨floor_trunc _, floor_trunc _⟩ hD, hok _ (s3 B rfl)⟩
  obtain ⟨pre, e, a, post, s, hsplit, e0, e1, rfl⟩ := hon
  match pre, hsplit with
  | [], h =>
    simp only [cscForward, List.nil_append, List.cons.injEq, Prod.mk.injEq] at h
    obtain ⟨⟨rfl, rfl⟩, _⟩ := h
    exact turn_near_ends hpos hR hok hD k1 hs hAok e0 e1 hin
  | [x], h =>
    simp only [cscForward, List.cons_append, List.nil_append, List.cons.injEq, Prod.mk.injEq] at h
    obtain ⟨rfl, ⟨rfl, rfl⟩, _⟩ := h
    obtain ⟨c', w, hc'⟩ := elemClear_straight_near k2 e0 e1 hin
    exact ⟨c', cellsWithin_mono w (by omega), hok c' hc'⟩
  | [x, y], h =>
    simp only [cscForward, List.cons_append, List.nil_append, List.cons.injEq, Prod.mk.injEq] at h
    obtain ⟨rfl, rfl, ⟨rfl, rfl⟩, _⟩ := h
    refine turn_near_ends hpos hR hok hD k3 hBok ?_ e0 e1 hin
    obtain ⟨g1, g2, _⟩ := hend
    simp only [cscForward, driveAll] at g1 g2
    rw [← hA, ← hB] at g1 g2
    rw [g1, g2]; exact hg
  | x :: y :: z :: pre, h =>
    have := congrArg List.length h
    simp [cscForward] at this

end PathPlanning.RS
