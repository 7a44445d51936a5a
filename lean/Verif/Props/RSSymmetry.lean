import Verif.Spec.RSSymmetry
import Verif.Props.RSOpt4

/-!
# C119: curves do not depend on the frame of reference, mirrored and reversed problems cost the same
-/

noncomputable section

namespace PathPlanning.RSSym

open Spec RS

/-! ### The frame of reference -/

theorem pose_drive (M : Frame) (r : ℝ) (q : Pose) (e : Elem) (a : ℝ) : M.pose (drive r q e a) = drive r (M.pose q) (M.elem e) a := by
  obtain ⟨m, φ, dx, dy⟩ := M
  cases e with
  | straight d =>
    cases m <;> simp only [Frame.pose, Frame.elem, drive, if_true, if_false, Bool.false_eq_true, one_mul, neg_one_mul, Pose.mk.injEq,
      Real.cos_add, Real.sin_add, Real.cos_neg, Real.sin_neg] <;> refine ⟨?_, ?_, trivial⟩ <;> ring
  | turn o d =>
    cases m
    · simp only [Frame.pose, Frame.elem, drive, if_false, Bool.false_eq_true, one_mul, Pose.mk.injEq]
      rw [show q.theta + φ + oriSign o * dirSign d * a = (q.theta + oriSign o * dirSign d * a) + φ by ring]
      simp only [Real.cos_add _ φ, Real.sin_add _ φ]
      refine ⟨?_, ?_, trivial⟩ <;> ring
    · have hs : oriSign (otherSide o) = - oriSign o := by cases o <;> simp [oriSign, otherSide]
      simp only [Frame.pose, Frame.elem, drive, if_true, neg_one_mul, Pose.mk.injEq, hs]
      rw [show -q.theta + φ + -oriSign o * dirSign d * a = -(q.theta + oriSign o * dirSign d * a) + φ by ring]
      simp only [Real.cos_add _ φ, Real.sin_add _ φ, Real.cos_neg, Real.sin_neg]
      refine ⟨?_, ?_, trivial⟩ <;> ring

/-- Driving commutes with changing the frame. -/
theorem pose_driveAll (M : Frame) (r : ℝ) : ∀ (ts : List (Elem × ℝ)) (q : Pose),
    M.pose (driveAll r q ts) = driveAll r (M.pose q) (M.motion ts)
  | [], _ => rfl
  | (e, a) :: ts, q => by
    simp only [driveAll, Frame.motion, List.map_cons]
    rw [pose_driveAll M r ts, pose_drive]
    rfl

theorem pose_same (M : Frame) {p q : Pose} (h : SameConfig p q) : SameConfig (M.pose p) (M.pose q) := by
  obtain ⟨hx, hy, k, hk⟩ := h
  refine ⟨by simp only [Frame.pose, hx, hy], by simp only [Frame.pose, hx, hy], ?_⟩
  cases hm : M.mirror
  · exact ⟨k, by simp only [Frame.pose, hm, if_false, Bool.false_eq_true, hk]; ring⟩
  · exact ⟨-k, by simp only [Frame.pose, hm, if_true, hk]; push_cast; ring⟩

/-- Where a point goes. -/
def pt (M : Frame) (p : P2) : P2 :=
  let s : ℝ := if M.mirror then -1 else 1
  ⟨Real.cos M.phi * p.x - Real.sin M.phi * (s * p.y) + M.dx, Real.sin M.phi * p.x + Real.cos M.phi * (s * p.y) + M.dy⟩

theorem pt_eucl (M : Frame) (p q : P2) : eucl (pt M p) (pt M q) = eucl p q := by
  unfold eucl dist2 pt
  have h := Real.sin_sq_add_cos_sq M.phi
  congr 1
  cases M.mirror <;> simp only [if_true, if_false, Bool.false_eq_true]
  · linear_combination ((p.x - q.x) ^ 2 + (p.y - q.y) ^ 2) * h
  · linear_combination ((p.x - q.x) ^ 2 + (p.y - q.y) ^ 2) * h

theorem pose_pt (M : Frame) (q : Pose) : (M.pose q).pt = pt M q.pt := rfl

def sideOf (M : Frame) (o : Ori) : Ori := if M.mirror then otherSide o else o

theorem centre_pose (M : Frame) (r : ℝ) (o : Ori) (q : Pose) : turnCentre r (sideOf M o) (M.pose q) = pt M (turnCentre r o q) := by
  have hs : oriSign (otherSide o) = - oriSign o := by cases o <;> simp [oriSign, otherSide]
  unfold turnCentre pt Frame.pose sideOf
  cases M.mirror <;> simp only [if_true, if_false, Bool.false_eq_true, one_mul, neg_one_mul, P2.mk.injEq, hs, Real.cos_add _ M.phi,
    Real.sin_add _ M.phi, Real.cos_neg, Real.sin_neg] <;> constructor <;> ring

theorem side_ne (M : Frame) {o o' : Ori} (h : o ≠ o') : sideOf M o ≠ sideOf M o' := by
  unfold sideOf
  cases M.mirror <;> cases o <;> cases o' <;> simp_all [otherSide]

theorem covered_pose (M : Frame) {r : ℝ} {s g : Pose} {ts : List (Elem × ℝ)} (h : Covered r s g ts) :
    Covered r (M.pose s) (M.pose g) (M.motion ts) := by
  cases h with
  | csc h1 h2 h3 h4 => exact .csc h1 h2 h3 (by rw [← pt_eucl M, ← centre_pose, ← centre_pose] at h4; exact h4)
  | ccc h1 h2 h3 h4 h5 h6 =>
    exact .ccc (side_ne M h1) (side_ne M h2) h3 h4 h5 (by rw [← pt_eucl M, ← centre_pose, ← centre_pose] at h6; exact h6)
  | cccc h1 h2 h3 h4 h5 h6 h7 h8 h9 =>
    exact .cccc (side_ne M h1) (side_ne M h2) (side_ne M h3) h4 h5 h6 h7 h8
      (by rw [← pt_eucl M, ← centre_pose, ← centre_pose] at h9; exact h9)

theorem motionCost_frame (M : Frame) (k : CostFactors) (r : ℝ) (ts : List (Elem × ℝ)) : motionCost k r (M.motion ts) = motionCost k r ts := by
  unfold motionCost Frame.motion
  rw [List.map_map]
  congr 1
  refine List.map_congr_left fun t _ => ?_
  obtain ⟨e, a⟩ := t
  cases e <;> rfl

/-! ### Driving back -/

theorem back_drive (r : ℝ) (q : Pose) (e : Elem) (a : ℝ) : drive r (drive r q e a) (backElem e) a = q := by
  have hs : ∀ d, dirSign (otherDir d) = - dirSign d := fun d => by cases d <;> simp [dirSign, otherDir]
  obtain ⟨x, y, t⟩ := q
  cases e with
  | straight d =>
    simp only [drive, backElem, hs, Pose.mk.injEq]
    refine ⟨?_, ?_, trivial⟩ <;> ring
  | turn o d =>
    simp only [drive, backElem, hs, Pose.mk.injEq]
    have : t + oriSign o * dirSign d * a + oriSign o * -dirSign d * a = t := by ring
    rw [this]
    refine ⟨?_, ?_, rfl⟩ <;> ring

theorem driveAll_append (r : ℝ) : ∀ (l l' : List (Elem × ℝ)) (q : Pose), driveAll r q (l ++ l') = driveAll r (driveAll r q l) l'
  | [], _, _ => rfl
  | (e, a) :: l, l', q => driveAll_append r l l' (drive r q e a)

theorem back_driveAll (r : ℝ) : ∀ (ts : List (Elem × ℝ)) (q : Pose), driveAll r (driveAll r q ts) (backMotion ts) = q
  | [], _ => rfl
  | (e, a) :: ts, q => by
    unfold backMotion
    rw [List.map_cons, List.reverse_cons, driveAll_append]
    have := back_driveAll r ts (drive r q e a)
    unfold backMotion at this
    show driveAll r (driveAll r (driveAll r (drive r q e a) ts) _) _ = q
    rw [this]
    exact back_drive r q e a

theorem same_symm {p q : Pose} (h : SameConfig p q) : SameConfig q p := by
  obtain ⟨hx, hy, k, hk⟩ := h
  exact ⟨hx.symm, hy.symm, -k, by rw [hk]; push_cast; ring⟩

theorem back_same {r : ℝ} {s g : Pose} {ts : List (Elem × ℝ)} (h : SameConfig (driveAll r s ts) g) :
    SameConfig (driveAll r g (backMotion ts)) s := by
  have := driveAll_congr r (backMotion ts) h
  rw [back_driveAll] at this
  exact same_symm this

theorem eucl_comm (p q : P2) : eucl p q = eucl q p := by
  unfold eucl dist2; congr 1; ring

theorem dir_ne {d d' : Dir} (h : d ≠ d') : otherDir d' ≠ otherDir d := by
  cases d <;> cases d' <;> simp_all [otherDir]

theorem covered_back {r : ℝ} {s g : Pose} {ts : List (Elem × ℝ)} (h : Covered r s g ts) : Covered r g s (backMotion ts) := by
  cases h with
  | csc h1 h2 h3 h4 => exact .csc h3 h2 h1 (by rw [eucl_comm]; exact h4)
  | ccc h1 h2 h3 h4 h5 h6 => exact .ccc h2.symm h1.symm h5 h4 h3 (by rw [eucl_comm]; exact h6)
  | cccc h1 h2 h3 h4 h5 h6 h7 h8 h9 =>
    exact .cccc h3.symm h2.symm h1.symm (dir_ne h4) h7 h6 h5 h8 (by rw [eucl_comm]; exact h9)

theorem motionCost_back (k : CostFactors) (r : ℝ) (ts : List (Elem × ℝ)) : motionCost k.swapped r (backMotion ts) = motionCost k r ts := by
  unfold motionCost backMotion
  rw [List.map_reverse, List.sum_reverse, List.map_map]
  congr 1
  refine List.map_congr_left fun t _ => ?_
  obtain ⟨e, a⟩ := t
  cases e with
  | straight d => cases d <;> rfl
  | turn o d => cases d <;> rfl

/-! ### The generator -/

/-- A curve is only found between poses at least two cells apart. -/
theorem found_apart {g g' : Gen} {clamp : ℝ → ℝ} {start goal : Pose} {map : MapIf} {ig : Bool} {k : Curve}
    (h : g.findPath clamp start goal map ig = .ok (g', some k)) : 2 ≤ eucl start.pt goal.pt ∧ k.weight < 999999 := by
  cases hm : g.maxArc with
  | none => exact absurd (findPath_needs_maxArc g g' clamp start goal map ig hm _ h) (by simp)
  | some m =>
    obtain ⟨hfa, _, hsome⟩ := findPath_best g g' clamp start goal map ig m hm (some k) h
    obtain ⟨pre, post, e, he, _, _⟩ := hsome k rfl
    obtain ⟨c, hc, ht⟩ := forall₂_mem hfa (b := k) (by rw [e]; simp)
    refine ⟨?_, he.1⟩
    by_contra hd
    have hr := check_rejects (g.env clamp map ig) { c with start := start, goal := goal } (.inl (by
      simp only; rw [distTo_eq start goal]; exact not_le.1 hd))
    have := ht.symm.trans hr
    injection this with this
    rw [this] at he
    exact absurd he.1 (lt_irrefl _)

/-- The settings under which a generator is compared here: at rest in free space (or told to ignore obstacles), no map costs, patterns
that change sides between turns, a maximum arc of more than four full turns. -/
structure Plain (g : Gen) (clamp : ℝ → ℝ) (map : MapIf) (ig : Bool) : Prop where
  sane : (g.env clamp map ig).Sane
  free : (g.env clamp map ig).NoObstacle
  noMapCost : g.useMapCost = false
  maxArc : ∃ m, g.maxArc = some m ∧ 8 * Real.pi < m
  alternating : ∀ c ∈ g.curves, Alternating (elemsOf c.seq)

def costs (g : Gen) : CostFactors := ⟨g.costF, g.costB, g.costC, g.costS⟩

section
variable {g g1 g2 g3 : Gen} {clamp clamp2 : ℝ → ℝ} {map map2 : MapIf} {ig ig2 : Bool} {start goal : Pose}

theorem half (hP : Plain g clamp map ig) (hP2 : Plain g2 clamp2 map2 ig2) (hr : g2.radius / map2.res = g.radius / map.res)
    {T : List (Elem × ℝ) → List (Elem × ℝ)} {Te : List Elem → List Elem}
    (hT : ∀ ts, (T ts).map Prod.fst = Te (ts.map Prod.fst))
    (hpat : ∀ c ∈ g.curves, ∃ c2 ∈ g2.curves, elemsOf c2.seq = Te (elemsOf c.seq))
    {s2 e2 : Pose} (hdist : eucl s2.pt e2.pt = eucl start.pt goal.pt)
    (hcov : ∀ ts, Covered (g.radius / map.res) start goal ts → Covered (g.radius / map.res) s2 e2 (T ts))
    (hsame : ∀ ts, SameConfig (driveAll (g.radius / map.res) start ts) goal → SameConfig (driveAll (g.radius / map.res) s2 (T ts)) e2)
    (hcost : ∀ ts, motionCost (costs g2) (g.radius / map.res) (T ts) = motionCost (costs g) (g.radius / map.res) ts)
    {k : Curve} (h : g.findPath clamp start goal map ig = .ok (g1, some k)) (hk : Covered (g.radius / map.res) start goal (motion k))
    {r : Option Curve} (h2 : g2.findPath clamp2 s2 e2 map2 ig2 = .ok (g3, r)) : ∃ k2, r = some k2 ∧ k2.weight ≤ k.weight := by
  obtain ⟨m, hm, -⟩ := hP.maxArc
  obtain ⟨m2, hm2, hm2'⟩ := hP2.maxArc
  obtain ⟨-, -, ⟨c, hc, he⟩, -, hend⟩ := findPath_motion g g1 clamp hP.sane.clamp start goal map ig
    (lt_of_lt_of_le one_pos hP.sane.radius) hP.alternating k h
  have hw := findPath_cost g g1 clamp start goal map ig hP.sane hP.free hP.noMapCost m hm k h
  obtain ⟨hd, hlt⟩ := found_apart h
  obtain ⟨c2, hc2, he2⟩ := hpat c hc
  have hfst : (motion k).map Prod.fst = elemsOf k.seq := by
    unfold motion elemsOf; rw [List.map_map]; rfl
  obtain ⟨k2, e1, e3⟩ := findPath_optimal g2 g3 clamp2 s2 e2 map2 ig2 hP2.sane hP2.free hP2.noMapCost m2 hm2 hm2' c2 hc2 (T (motion k))
    (by rw [hT, hfst, he, he2]) (by rw [hr]; exact hcov _ hk) (by rw [hr]; exact hsame _ hend) (by rw [hdist]; exact hd)
    (by rw [hr]; show motionCost (costs g2) _ _ < _; rw [hcost]; show motionCost ⟨g.costF, g.costB, g.costC, g.costS⟩ _ _ < _; rw [← hw]; exact hlt) r h2
  refine ⟨k2, e1, e3.trans (le_of_eq ?_)⟩
  rw [hr]
  exact (hcost _).trans hw.symm

/-- **C119 (frame of reference).**  In free space, without map costs and with a maximum arc of more than four full turns: if `find_path`
finds a curve between two poses, then between the same poses seen from another frame (shifted, turned, mirrored) it finds one that costs
no more, also on a map with another resolution as long as the radius in cells and the cost factors are the same, and after any other
calls; in the mirror the patterns have to be mirrored too. -/
theorem frame_le (M : Frame) (hP : Plain g clamp map ig) (hP2 : Plain g2 clamp2 map2 ig2) (hr : g2.radius / map2.res = g.radius / map.res)
    (hk : costs g2 = costs g) (hpat : ∀ c ∈ g.curves, ∃ c2 ∈ g2.curves, elemsOf c2.seq = (elemsOf c.seq).map M.elem)
    {k : Curve} (h : g.findPath clamp start goal map ig = .ok (g1, some k)) (hc : Covered (g.radius / map.res) start goal (motion k))
    {r : Option Curve} (h2 : g2.findPath clamp2 (M.pose start) (M.pose goal) map2 ig2 = .ok (g3, r)) :
    ∃ k2, r = some k2 ∧ k2.weight ≤ k.weight :=
  half hP hP2 hr (T := M.motion) (Te := List.map M.elem) (fun ts => by unfold Frame.motion; rw [List.map_map, List.map_map]; rfl) hpat
    (by rw [pose_pt, pose_pt, pt_eucl]) (fun _ => covered_pose M) (fun ts hs => by rw [← pose_driveAll]; exact pose_same M hs)
    (fun ts => by rw [hk, motionCost_frame]) h hc h2

/-- **C119 (driving back).**  If `find_path` finds a curve from `start` to `goal`, then with the factors for forward and backward
exchanged and the reversed patterns it finds one from `goal` to `start` that costs no more. -/
theorem back_le (hP : Plain g clamp map ig) (hP2 : Plain g2 clamp2 map2 ig2) (hr : g2.radius / map2.res = g.radius / map.res)
    (hk : costs g2 = (costs g).swapped) (hpat : ∀ c ∈ g.curves, ∃ c2 ∈ g2.curves, elemsOf c2.seq = backElems (elemsOf c.seq))
    {k : Curve} (h : g.findPath clamp start goal map ig = .ok (g1, some k)) (hc : Covered (g.radius / map.res) start goal (motion k))
    {r : Option Curve} (h2 : g2.findPath clamp2 goal start map2 ig2 = .ok (g3, r)) :
    ∃ k2, r = some k2 ∧ k2.weight ≤ k.weight :=
  half hP hP2 hr (T := backMotion) (Te := backElems)
    (fun ts => by unfold backMotion backElems; rw [List.map_reverse, List.map_map, List.map_map]; rfl) hpat
    (eucl_comm _ _) (fun _ => covered_back) (fun ts hs => back_same hs) (fun ts => by rw [hk, motionCost_back]) h hc h2

/-! ### Both ways -/

/-- The frame that undoes another one. -/
def inv (M : Frame) : Frame :=
  let s : ℝ := if M.mirror then -1 else 1
  ⟨M.mirror, -(s * M.phi), -(Real.cos M.phi * M.dx + Real.sin M.phi * M.dy), s * (Real.sin M.phi * M.dx - Real.cos M.phi * M.dy)⟩

theorem inv_pose (M : Frame) (q : Pose) : (inv M).pose (M.pose q) = q := by
  obtain ⟨x, y, t⟩ := q
  have h := Real.sin_sq_add_cos_sq M.phi
  unfold inv Frame.pose
  cases M.mirror <;> simp only [if_true, if_false, Bool.false_eq_true, one_mul, neg_one_mul, neg_neg, Real.cos_neg, Real.sin_neg, Pose.mk.injEq]
  · refine ⟨?_, ?_, by ring⟩
    · linear_combination x * h
    · linear_combination y * h
  · refine ⟨?_, ?_, by ring⟩
    · linear_combination x * h
    · linear_combination y * h

theorem inv_elem (M : Frame) (e : Elem) : (inv M).elem (M.elem e) = e := by
  cases e with
  | straight d => rfl
  | turn o d => unfold inv Frame.elem; cases M.mirror <;> cases o <;> simp [otherSide]

/-- **C119 (same cost in every frame).**  With the same patterns (mirrored in the mirror) on both sides, the curves found cost the same. -/
theorem frame_same (M : Frame) (hP : Plain g clamp map ig) (hP2 : Plain g2 clamp2 map2 ig2) (hr : g2.radius / map2.res = g.radius / map.res)
    (hk : costs g2 = costs g) (hpat : ∀ c ∈ g.curves, ∃ c2 ∈ g2.curves, elemsOf c2.seq = (elemsOf c.seq).map M.elem)
    (hpat2 : ∀ c2 ∈ g2.curves, ∃ c ∈ g.curves, elemsOf c2.seq = (elemsOf c.seq).map M.elem)
    {k k2 : Curve} (h : g.findPath clamp start goal map ig = .ok (g1, some k)) (hc : Covered (g.radius / map.res) start goal (motion k))
    (h2 : g2.findPath clamp2 (M.pose start) (M.pose goal) map2 ig2 = .ok (g3, some k2))
    (hc2 : Covered (g.radius / map.res) (M.pose start) (M.pose goal) (motion k2)) : k2.weight = k.weight := by
  obtain ⟨j, e, h3⟩ := frame_le M hP hP2 hr hk hpat h hc h2
  cases e
  refine le_antisymm h3 ?_
  have hi : ∀ l : List Elem, (l.map M.elem).map (inv M).elem = l := fun l => by
    rw [List.map_map]
    conv_rhs => rw [← List.map_id l]
    exact List.map_congr_left fun e _ => inv_elem M e
  obtain ⟨j, e, h4⟩ := frame_le (inv M) hP2 hP hr.symm hk.symm (fun c2 hc2 => by
    obtain ⟨c, hc, e⟩ := hpat2 c2 hc2
    exact ⟨c, hc, by rw [e, hi]⟩) h2 (by rw [hr]; exact hc2) (r := some k) (g3 := g1) (by rw [inv_pose, inv_pose]; exact h)
  cases e
  exact h4

theorem back_back (l : List Elem) : backElems (backElems l) = l := by
  unfold backElems
  rw [List.map_reverse, List.reverse_reverse, List.map_map]
  conv_rhs => rw [← List.map_id l]
  refine List.map_congr_left fun e _ => ?_
  cases e with
  | straight d => cases d <;> rfl
  | turn o d => cases d <;> rfl

/-- **C119 (same cost driving back).** -/
theorem back_same_cost (hP : Plain g clamp map ig) (hP2 : Plain g2 clamp2 map2 ig2) (hr : g2.radius / map2.res = g.radius / map.res)
    (hk : costs g2 = (costs g).swapped) (hpat : ∀ c ∈ g.curves, ∃ c2 ∈ g2.curves, elemsOf c2.seq = backElems (elemsOf c.seq))
    (hpat2 : ∀ c2 ∈ g2.curves, ∃ c ∈ g.curves, elemsOf c2.seq = backElems (elemsOf c.seq))
    {k k2 : Curve} (h : g.findPath clamp start goal map ig = .ok (g1, some k)) (hc : Covered (g.radius / map.res) start goal (motion k))
    (h2 : g2.findPath clamp2 goal start map2 ig2 = .ok (g3, some k2))
    (hc2 : Covered (g.radius / map.res) goal start (motion k2)) : k2.weight = k.weight := by
  obtain ⟨j, e, h3⟩ := back_le hP hP2 hr hk hpat h hc h2
  cases e
  refine le_antisymm h3 ?_
  obtain ⟨j, e, h4⟩ := back_le hP2 hP hr.symm (by rw [hk]; rfl) (fun c2 hc2 => by
    obtain ⟨c, hc, e⟩ := hpat2 c2 hc2
    exact ⟨c, hc, by rw [e, back_back]⟩) h2 (by rw [hr]; exact hc2) (r := some k) (g3 := g1) h
  cases e
  exact h4

end

end PathPlanning.RSSym
