import Verif.Spec.MotionClear
import Verif.Props.RSFind
import Verif.Props.RSWeight
import Verif.Props.RSOpt

/-!
# C39, C100: the tested cells, stated about the motion from the start pose
-/

noncomputable section

namespace PathPlanning.RS
open Spec

/-! ### From segments to motions -/

/-- A segment whose cells were tested, driven from where it lies. -/
theorem elemClear_of_seg {E : RSEnv} (hE : E.Sane) {m : MapIf} {q : Pose} {s : Seg} (ht : OnTrack E q s)
    (hc : SegClear m s) : ElemClear m E.radius q (elemOf s) (amountOf s) := by
  cases s with
  | line l =>
    obtain ⟨a1, a2, a3, a4, _⟩ := ht
    have ex : (drive E.radius q (.straight l.dir) (amountOf (.line l))).x = l.stop.x := by
      simp only [Spec.drive, amountOf]; rw [← a1]; linear_combination -a3
    have ey : (drive E.radius q (.straight l.dir) (amountOf (.line l))).y = l.stop.y := by
      simp only [Spec.drive, amountOf]; rw [← a2]; linear_combination -a4
    simp only [SegClear] at hc
    simp only [elemOf, ElemClear]
    rw [ex, ey, ← a1, ← a2]
    exact hc
  | circ k =>
    obtain ⟨hr, hfit, hq⟩ := ht
    simp only [SegClear] at hc
    have hz : turnCentre E.radius k.ori q = k.center := by
      rw [turnCentre_same hq, ← hr, turnCentre_confAt]
    simp only [elemOf, ElemClear]
    rw [hz]
    rintro ⟨x, y⟩ hring
    rw [← hr] at hring
    obtain ⟨c1, c2⟩ := hc x y hring
    refine ⟨c1, ?_⟩
    rintro ⟨s, ρ, s0, s1, hρ, e1, e2⟩
    apply c2
    have hP := hq.drive E.radius (.turn k.ori k.dir) s
    have e3 : drive E.radius (k.confAt k.aStart) (.turn k.ori k.dir) s =
        k.confAt (k.aStart + oriSign k.ori * dirSign k.dir * s) := by
      rw [← hr]; exact k.drive_confAt _ _
    rw [e3] at hP
    obtain ⟨px, py, _⟩ := hP
    have harc : k.arc = oriSign k.ori * dirSign k.dir * |k.arc| := by
      rw [hfit.1]; exact (computeArc_signed hE.clamp k).1
    simp only [amountOf] at s1
    have hpos : 0 < k.radius := by rw [hr]; exact lt_of_lt_of_le one_pos hE.radius
    have key : ∃ t, 0 ≤ t ∧ t ≤ 1 ∧ t * k.arc = oriSign k.ori * dirSign k.dir * s := by
      rcases eq_or_lt_of_le (abs_nonneg k.arc) with h | h
      · have : s = 0 := le_antisymm (by linarith) s0
        refine ⟨0, le_rfl, zero_le_one, ?_⟩
        rw [this]; ring
      · refine ⟨s / |k.arc|, div_nonneg s0 h.le, (div_le_one h).2 s1, ?_⟩
        rw [div_mul_eq_mul_div, div_eq_iff h.ne']
        conv_lhs => rw [harc]
        ring
    obtain ⟨t, t0, t1, te⟩ := key
    refine ⟨t, t0, t1, ρ * k.radius, mul_pos hρ hpos, ?_, ?_⟩
    · rw [te]
      simp only [e1, px, Circ.confAt]
      ring
    · rw [te]
      simp only [e2, py, Circ.confAt]
      ring

theorem motionClear_of_track {E : RSEnv} (hE : E.Sane) {m : MapIf} {goal : Pose} : ∀ {l : List Seg} {q : Pose},
    Track E q l goal → (∀ s ∈ l, SegClear m s) →
      MotionClear m E.radius q (l.map fun s => (elemOf s, amountOf s))
  | [], _, _, _ => trivial
  | s :: l, q, h, hc => by
    refine ⟨elemClear_of_seg hE h.1 (hc s (by simp)), ?_⟩
    exact motionClear_of_track hE h.2 fun s hs => hc s (by simp [hs])

/-- The curve found is a track from the start to the goal. -/
theorem findPath_track (g g' : Gen) (clamp : ℝ → ℝ) (start goal : Pose) (map : MapIf) (ig : Bool)
    (hE : (g.env clamp map ig).Sane) (halt : ∀ c ∈ g.curves, Alternating (elemsOf c.seq)) (k : Curve)
    (h : g.findPath clamp start goal map ig = .ok (g', some k)) :
    Track (g.env clamp map ig) start k.seq goal := by
  cases hm : g.maxArc with
  | none => exact absurd (findPath_needs_maxArc g g' clamp start goal map ig hm _ h) (by simp)
  | some m =>
    obtain ⟨hf, _, hb⟩ := findPath_best g g' clamp start goal map ig m hm _ h
    obtain ⟨pre, post, e, he, _⟩ := hb k rfl
    obtain ⟨c, hc, ht⟩ := forall₂_mem hf (b := k) (by rw [e]; simp)
    exact (check_track (E := g.env clamp map ig) hE.clamp (lt_of_lt_of_le one_pos hE.radius) _ k ht he.1
      (halt c hc)).1

/-- **C39.** The motion described by a curve that `find_path` returns (obstacles not ignored), driven from the start
pose, passes the tests: every straight and every turn, where the car is at that time. -/
theorem findPath_motionClear (g g' : Gen) (clamp : ℝ → ℝ) (start goal : Pose) (map : MapIf)
    (hE : (g.env clamp map false).Sane) (halt : ∀ c ∈ g.curves, Alternating (elemsOf c.seq)) (k : Curve)
    (h : g.findPath clamp start goal map false = .ok (g', some k)) :
    MotionClear map (g.radius / map.res) start (motion k) :=
  motionClear_of_track (E := g.env clamp map false) hE (findPath_track g g' clamp start goal map false hE halt k h)
    (findPath_clear g g' clamp start goal map hE k h)

end PathPlanning.RS
