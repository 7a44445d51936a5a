import Verif.Props.RSSymmetry
import Verif.Props.RSFree
import Mathlib.Analysis.Real.Pi.Bounds

/-!
# C119: concrete curves, seen from other frames and driven back
-/

noncomputable section

namespace PathPlanning.RSSymEx

open Spec RS RSSym

/-- One pattern, turn - straight - turn to the same side, all in the same direction; otherwise default settings, maximum arc 30. -/
def gen (o : Ori) (d : Dir) : Gen :=
  { maxArc := some 30, curves := [{ seq := [.circ (Circ.new o d), .line (Lin.new d), .circ (Circ.new o d)] }] }

/-- These are the generators a user gets from `LSL` and from `|RSR`. -/
example : Gen.parse { maxArc := some 30 } "LSL".toList = .ok (false, gen .left .fwd) := rfl
example : Gen.parse { maxArc := some 30 } "|RSR".toList = .ok (false, gen .right .bwd) := rfl

def clamp (t : ℝ) : ℝ := toIocMod Real.two_pi_pos (-Real.pi) t

theorem plain (o : Ori) (d : Dir) : Plain (gen o d) clamp freeMap false := by
  refine ⟨⟨⟨fun t => ?_, fun t => ?_, fun t => ?_⟩, fun t => (toIocMod_mem_Ioc Real.two_pi_pos (-Real.pi) t).1, ?_, ?_, ?_, ?_, ?_, ?_, ?_⟩,
    Or.inr fun _ _ => ⟨rfl, rfl⟩, rfl, ⟨30, rfl, ?_⟩, ?_⟩
  · exact (toIocMod_mem_Ioc Real.two_pi_pos (-Real.pi) t).1.le
  · have := (toIocMod_mem_Ioc Real.two_pi_pos (-Real.pi) t).2
    show clamp t ≤ _
    unfold clamp; linarith
  · refine ⟨-toIocDiv Real.two_pi_pos (-Real.pi) t, ?_⟩
    have := toIocMod_add_toIocDiv_zsmul Real.two_pi_pos (-Real.pi) t
    rw [zsmul_eq_mul] at this
    show clamp t = _
    unfold clamp
    push_cast; linarith
  all_goals first | (simp [Gen.env, freeMap, gen]; done) | skip
  · have := Real.pi_lt_d4; linarith
  · intro c hc
    simp only [gen, List.mem_singleton] at hc
    subst hc
    simp [elemsOf, elemOf, Alternating]

/-- A quarter turn, ten cells straight, another quarter turn. -/
def way (o : Ori) (d : Dir) : List (Elem × ℝ) := [(.turn o d, Real.pi / 2), (.straight d, 10), (.turn o d, Real.pi / 2)]

theorem centre_turn (r : ℝ) (o : Ori) (d : Dir) (q : Pose) (a : ℝ) : turnCentre r o (drive r q (.turn o d) a) = turnCentre r o q := by
  unfold turnCentre drive
  have hs : oriSign o * oriSign o = 1 := by cases o <;> simp [oriSign]
  simp only [P2.mk.injEq]
  constructor <;> ring

theorem centre_csc (r : ℝ) (o : Ori) (d : Dir) (q : Pose) (t L u : ℝ) :
    turnCentre r o (driveAll r q [(.turn o d, t), (.straight d, L), (.turn o d, u)]) =
      ⟨(turnCentre r o q).x + dirSign d * L * Real.cos (q.theta + oriSign o * dirSign d * t),
       (turnCentre r o q).y + dirSign d * L * Real.sin (q.theta + oriSign o * dirSign d * t)⟩ := by
  simp only [driveAll, centre_turn]
  simp only [turnCentre, drive, P2.mk.injEq]
  constructor <;> ring

theorem same_centre (r : ℝ) (o : Ori) {p q : Pose} (h : SameConfig p q) : turnCentre r o p = turnCentre r o q := by
  obtain ⟨hx, hy, k, hk⟩ := h
  unfold turnCentre
  rw [hx, hy, hk, Real.sin_add_int_mul_two_pi, Real.cos_add_int_mul_two_pi]

theorem dir_sq (d : Dir) : dirSign d * dirSign d = 1 := by cases d <;> simp [dirSign]
theorem ori_sq (o : Ori) : oriSign o * oriSign o = 1 := by cases o <;> simp [oriSign]

theorem trig_quarter (o : Ori) (d : Dir) (θ : ℝ) : Real.cos (θ + oriSign o * dirSign d * (Real.pi / 2)) = -(oriSign o * dirSign d * Real.sin θ) ∧
    Real.sin (θ + oriSign o * dirSign d * (Real.pi / 2)) = oriSign o * dirSign d * Real.cos θ := by
  cases o <;> cases d <;> simp only [oriSign, dirSign, one_mul, mul_one, neg_mul, mul_neg, neg_neg, ← sub_eq_add_neg, Real.cos_add_pi_div_two,
    Real.sin_add_pi_div_two, Real.cos_sub_pi_div_two, Real.sin_sub_pi_div_two] <;> simp

/-- A quarter turn is not one by a multiple of 180 degrees. -/
theorem not_straight {o : Ori} {d : Dir} {θ c s L : ℝ} (hc : c * Real.sin θ = s * Real.cos θ)
    (h1 : dirSign d * L * c = dirSign d * 10 * Real.cos (θ + oriSign o * dirSign d * (Real.pi / 2)))
    (h2 : dirSign d * L * s = dirSign d * 10 * Real.sin (θ + oriSign o * dirSign d * (Real.pi / 2))) : False := by
  obtain ⟨e1, e2⟩ := trig_quarter o d θ
  rw [e1] at h1
  rw [e2] at h2
  have hd := dir_sq d
  have ho := ori_sq o
  have ht := Real.sin_sq_add_cos_sq θ
  have k1 : L * c = -(10 * (oriSign o * dirSign d * Real.sin θ)) := by
    have := congrArg (dirSign d * ·) h1
    beta_reduce at this
    linear_combination this - (L * c + 10 * (oriSign o * dirSign d * Real.sin θ)) * hd
  have k2 : L * s = 10 * (oriSign o * dirSign d * Real.cos θ) := by
    have := congrArg (dirSign d * ·) h2
    beta_reduce at this
    linear_combination this - (L * s - 10 * (oriSign o * dirSign d * Real.cos θ)) * hd
  have k3 : 10 * (oriSign o * dirSign d) = 0 := by
    linear_combination -10 * (oriSign o * dirSign d) * ht + Real.sin θ * k1 - Real.cos θ * k2 - L * hc
  have k4 : (10 : ℝ) = 0 := by
    have := congrArg (· * (oriSign o * dirSign d)) k3
    beta_reduce at this
    linear_combination this - 10 * (dirSign d * dirSign d) * ho - 10 * hd
  norm_num at k4

theorem pt_dist (o : Ori) (d : Dir) (q : Pose) : 2 ≤ eucl q.pt (driveAll 2 q (way o d)).pt := by
  have h : eucl q.pt (driveAll 2 q (way o d)).pt = 14 := by
    obtain ⟨e1, e2⟩ := trig_quarter o d q.theta
    have e3 : Real.cos (q.theta + oriSign o * dirSign d * (Real.pi / 2) + oriSign o * dirSign d * (Real.pi / 2)) = -Real.cos q.theta := by
      rw [(trig_quarter o d _).1, e2]
      have := dir_sq d; have := ori_sq o
      linear_combination -Real.cos q.theta * (oriSign o * oriSign o) * dir_sq d - Real.cos q.theta * ori_sq o
    have e4 : Real.sin (q.theta + oriSign o * dirSign d * (Real.pi / 2) + oriSign o * dirSign d * (Real.pi / 2)) = -Real.sin q.theta := by
      rw [(trig_quarter o d _).2, e1]
      linear_combination -Real.sin q.theta * (oriSign o * oriSign o) * dir_sq d - Real.sin q.theta * ori_sq o
    unfold eucl dist2
    rw [Real.sqrt_eq_iff_mul_self_eq_of_pos (by norm_num)]
    simp only [way, driveAll, drive, Pose.pt, e1, e2, e3, e4]
    have hd := dir_sq d
    have ho := ori_sq o
    have ht := Real.sin_sq_add_cos_sq q.theta
    have k1 : q.x - (q.x + oriSign o * 2 * (-(oriSign o * dirSign d * Real.sin q.theta) * 0 + oriSign o * dirSign d * Real.cos q.theta - Real.sin q.theta) +
        dirSign d * 10 * -(oriSign o * dirSign d * Real.sin q.theta) + oriSign o * 2 * (-Real.sin q.theta - oriSign o * dirSign d * Real.cos q.theta)) =
        14 * oriSign o * Real.sin q.theta := by linear_combination 10 * oriSign o * Real.sin q.theta * hd
    have k2 : q.y - (q.y - oriSign o * 2 * (-(oriSign o * dirSign d * Real.sin q.theta) - Real.cos q.theta) +
        dirSign d * 10 * (oriSign o * dirSign d * Real.cos q.theta) - oriSign o * 2 * (-Real.cos q.theta - -(oriSign o * dirSign d * Real.sin q.theta))) =
        -14 * oriSign o * Real.cos q.theta := by linear_combination -10 * oriSign o * Real.cos q.theta * hd
    simp only [mul_zero, zero_add] at k1
    rw [k1, k2]
    linear_combination -196 * ho - 196 * (oriSign o * oriSign o) * ht
  rw [h]; norm_num

/-- From every pose, with either side and either direction, the generator finds a covered curve to the end of the way above. -/
theorem found (o : Ori) (d : Dir) (q goal : Pose) (hg : SameConfig (driveAll 2 q (way o d)) goal) : ∃ g' k,
    (gen o d).findPath clamp q goal freeMap false = .ok (g', some k) ∧
    Covered ((gen o d).radius / freeMap.res) q goal (motion k) := by
  have hR : (gen o d).radius / freeMap.res = 2 := by simp [gen, freeMap]
  have hel : elemsOf [Seg.circ (Circ.new o d), .line (Lin.new d), .circ (Circ.new o d)] = [.turn o d, .straight d, .turn o d] := rfl
  obtain ⟨⟨g', r⟩, hr⟩ := findPath_defined (gen o d) clamp q goal freeMap false 30 rfl (by simp [gen]) (by
    intro x hx
    simp only [gen, List.mem_singleton] at hx
    subst hx
    intro _
    rw [hel]
    exact ⟨⟨_, _, _, rfl⟩, ⟨[_, _], _, _, rfl⟩⟩)
  have hgc := same_centre 2 o hg
  have hcen : eucl (turnCentre 2 o q) (turnCentre 2 o goal) = 10 := by
    rw [← hgc, way, centre_csc]
    unfold eucl dist2
    rw [Real.sqrt_eq_iff_mul_self_eq_of_pos (by norm_num)]
    simp only
    linear_combination -100 * (dirSign d * dirSign d) * Real.sin_sq_add_cos_sq (q.theta + oriSign o * dirSign d * (Real.pi / 2)) - 100 * dir_sq d
  have hpi := Real.pi_pos
  have hpi2 := Real.pi_lt_d4
  have hpt : goal.pt = (driveAll 2 q (way o d)).pt := by
    unfold Pose.pt; rw [hg.1, hg.2.1]
  obtain ⟨k, rfl, -⟩ := findPath_optimal (gen o d) g' clamp q goal freeMap false (plain o d).sane (plain o d).free rfl 30 rfl (by linarith)
    _ (by simp only [gen, List.mem_singleton]; rfl) (way o d) rfl
    (by rw [hR]; exact .csc (by linarith) (by norm_num) (by linarith) (by rw [hcen]; norm_num)) (by rw [hR]; exact hg)
    (by rw [hpt]; exact pt_dist o d q)
    (by rw [hR]
        have hco : CostFactors.ofDir ⟨(gen o d).costF, (gen o d).costB, (gen o d).costC, (gen o d).costS⟩ d = 1 := by
          cases d <;> simp [CostFactors.ofDir, gen]
        simp only [motionCost, way, List.map_cons, List.map_nil, elemCost, List.sum_cons, List.sum_nil, hco]
        simp only [gen]
        norm_num
        linarith) r hr
  refine ⟨g', k, hr, ?_⟩
  obtain ⟨-, -, ⟨c, hc, he⟩, hnn, hend⟩ := findPath_motion (gen o d) g' clamp (plain o d).sane.clamp q goal freeMap false
    (by rw [hR]; norm_num) (plain o d).alternating k hr
  simp only [gen, List.mem_singleton] at hc
  rw [hc, hel] at he
  rw [hR] at hend ⊢
  have hfst : (motion k).map Prod.fst = [.turn o d, .straight d, .turn o d] := by
    rw [← he]; unfold motion elemsOf; rw [List.map_map]; rfl
  generalize motion k = ts at *
  match ts, hfst, hnn, hend with
  | [(e1, t), (e2, L), (e3, u)], hfst, hnn, hend =>
    simp only [List.map_cons, List.map_nil, List.cons.injEq, and_true] at hfst
    obtain ⟨rfl, rfl, rfl⟩ := hfst
    have p1 : 0 ≤ t := hnn (.turn o d, t) (by simp)
    have p2 : 0 ≤ L := hnn (.straight d, L) (by simp)
    have p3 : 0 ≤ u := hnn (.turn o d, u) (by simp)
    have hkc := same_centre 2 o hend
    rw [← hgc, way, centre_csc, centre_csc] at hkc
    simp only [P2.mk.injEq, add_right_inj] at hkc
    obtain ⟨k1, k2⟩ := hkc
    refine .csc (lt_of_le_of_ne p1 ?_) p2 (lt_of_le_of_ne p3 ?_) (by rw [hcen]; norm_num)
    · rintro rfl
      rw [mul_zero, add_zero] at k1 k2
      exact not_straight (by ring) k1 k2
    · rintro rfl
      obtain ⟨-, -, j, hj⟩ := hend
      obtain ⟨-, -, j', hj'⟩ := hg
      simp only [way, driveAll, drive, mul_zero, add_zero] at hj hj'
      have hth : q.theta + oriSign o * dirSign d * t = q.theta + oriSign o * dirSign d * Real.pi + ((j - j' : Int) : ℝ) * (2 * Real.pi) := by
        push_cast
        linear_combination hj - hj'
      rw [hth, Real.cos_add_int_mul_two_pi] at k1
      rw [hth, Real.sin_add_int_mul_two_pi] at k2
      refine not_straight ?_ k1 k2
      cases o <;> cases d <;> simp only [oriSign, dirSign, one_mul, mul_one, neg_mul, mul_neg, neg_neg, ← sub_eq_add_neg, Real.cos_add_pi,
        Real.sin_add_pi, Real.cos_sub_pi, Real.sin_sub_pi] <;> ring

theorem other_costs (o o' : Ori) (d d' : Dir) : costs (gen o d) = costs (gen o' d') := rfl

/-- From `(0,0)` heading east to `(0,14)` heading west: the curve found there and the curve found for the same problem seen in the mirror,
turned by 0.3 and shifted, cost the same. -/
example : ∃ g' k g2' k2, (gen .left .fwd).findPath clamp ⟨0, 0, 0⟩ (driveAll 2 ⟨0, 0, 0⟩ (way .left .fwd)) freeMap false = .ok (g', some k) ∧
    (gen .right .fwd).findPath clamp (Frame.pose ⟨true, 0.3, 5, -7⟩ ⟨0, 0, 0⟩)
      (Frame.pose ⟨true, 0.3, 5, -7⟩ (driveAll 2 ⟨0, 0, 0⟩ (way .left .fwd))) freeMap false = .ok (g2', some k2) ∧ k2.weight = k.weight := by
  obtain ⟨g', k, h1, h2⟩ := found .left .fwd ⟨0, 0, 0⟩ _ ⟨rfl, rfl, 0, by simp⟩
  obtain ⟨g2', k2, h3, h4⟩ := found .right .fwd (Frame.pose ⟨true, 0.3, 5, -7⟩ ⟨0, 0, 0⟩)
    (Frame.pose ⟨true, 0.3, 5, -7⟩ (driveAll 2 ⟨0, 0, 0⟩ (way .left .fwd)))
    (by rw [pose_driveAll]; exact ⟨rfl, rfl, 0, by simp [way, Frame.motion, Frame.elem, otherSide]⟩)
  refine ⟨g', k, g2', k2, h1, h3, ?_⟩
  have hp : ∀ o d, ∀ c ∈ (gen o d).curves, elemsOf c.seq = [.turn o d, .straight d, .turn o d] := by
    intro o d c hc
    simp only [gen, List.mem_singleton] at hc
    subst hc; rfl
  exact frame_same (g := gen .left .fwd) (g2 := gen .right .fwd) _ (plain _ _) (plain _ _) rfl rfl
    (fun c hc => ⟨_, by simp only [gen, List.mem_singleton]; rfl, by rw [hp _ _ c hc]; rfl⟩)
    (fun c hc => ⟨_, by simp only [gen, List.mem_singleton]; rfl, by rw [hp _ _ c hc]; rfl⟩) h1 h2 h3 h4

/-- And driven back, with the pattern `|LSL`. -/
example : ∃ g' k g2' k2, (gen .left .fwd).findPath clamp ⟨0, 0, 0⟩ (driveAll 2 ⟨0, 0, 0⟩ (way .left .fwd)) freeMap false = .ok (g', some k) ∧
    (gen .left .bwd).findPath clamp (driveAll 2 ⟨0, 0, 0⟩ (way .left .fwd)) ⟨0, 0, 0⟩ freeMap false = .ok (g2', some k2) ∧
    k2.weight = k.weight := by
  obtain ⟨g', k, h1, h2⟩ := found .left .fwd ⟨0, 0, 0⟩ _ ⟨rfl, rfl, 0, by simp⟩
  obtain ⟨g2', k2, h3, h4⟩ := found .left .bwd (driveAll 2 ⟨0, 0, 0⟩ (way .left .fwd)) ⟨0, 0, 0⟩
    (back_same (ts := way .left .fwd) ⟨rfl, rfl, 0, by simp⟩)
  refine ⟨g', k, g2', k2, h1, h3, ?_⟩
  have hp : ∀ o d, ∀ c ∈ (gen o d).curves, elemsOf c.seq = [.turn o d, .straight d, .turn o d] := by
    intro o d c hc
    simp only [gen, List.mem_singleton] at hc
    subst hc; rfl
  exact back_same_cost (g := gen .left .fwd) (g2 := gen .left .bwd) (plain _ _) (plain _ _) rfl rfl
    (fun c hc => ⟨_, by simp only [gen, List.mem_singleton]; rfl, by rw [hp _ _ c hc]; rfl⟩)
    (fun c hc => ⟨_, by simp only [gen, List.mem_singleton]; rfl, by rw [hp _ _ c hc]; rfl⟩) h1 h2 h3 h4

end PathPlanning.RSSymEx
